import Verif.Model.Catalog
/-!
# What a history of calls of `register_schema` says
-/
namespace Verif

variable {κ σ ε : Type}

/-- The call registers type `t` under name `n`, provided that it is the first one for this type. -/
def RegCall.Is (nameOf : TypeRef κ → Res Str) (c : RegCall κ σ ε) (t : κ) (n : Str) : Prop :=
  c.ty = .ty t ∧ (c.name = some n ∨ (c.name = none ∧ nameOf (.ty t) = .ok n))

/-- The type is registered by the history. -/
def EverReg (nameOf : TypeRef κ → Res Str) (h : List (RegCall κ σ ε)) (t : κ) : Prop := ∃ c ∈ h, ∃ n, c.Is nameOf t n

/-- The entry is what the call says about type `t`. -/
def RegCall.Says (nameOf : TypeRef κ → Res Str) (c : RegCall κ σ ε) (t : κ) (e : CatEntry σ ε) : Prop :=
  c.Is nameOf t e.identifier ∧ e.schema = c.schema ∧ e.examples = c.examples

/-- Entry `e` is what the first registration of `t` in the history says. -/
def FirstReg (nameOf : TypeRef κ → Res Str) (h : List (RegCall κ σ ε)) (t : κ) (e : CatEntry σ ε) : Prop :=
  ∃ pre c post, h = pre ++ c :: post ∧ c.Says nameOf t e ∧ ¬ EverReg nameOf pre t

/-- Entry `e` is what the last first registration of a type under name `n` says. -/
def LastNamed (nameOf : TypeRef κ → Res Str) (h : List (RegCall κ σ ε)) (n : Str) (e : CatEntry σ ε) : Prop :=
  ∃ pre c post t, h = pre ++ c :: post ∧ c.Says nameOf t e ∧ e.identifier = n ∧ ¬ EverReg nameOf pre t ∧
    ∀ pre' c' post' t' , post = pre' ++ c' :: post' → c'.Is nameOf t' n → EverReg nameOf (pre ++ c :: pre') t'

end Verif
