import Verif.Spec.AnnMeaning
import Verif.Model.AnnCollect
/-!
# Which classes an annotation leads to
-/
namespace Verif

/-- A class occurs in a type without texts, as the type itself or through arguments, but not within a literal, nor as metadata. -/
inductive AnnObj.Mentions : AnnObj → Node → Prop
  | cls {c : Nat} : Mentions (.cls c) (.cls c)
  | list : Mentions (.form (.builtin .list)) (.atom .list)
  | set : Mentions (.form (.builtin .set)) (.atom .set)
  | dict : Mentions (.form (.builtin .dict)) (.atom .dict)
  | tuple : Mentions (.form (.builtin .tuple)) (.atom .tuple)
  | arg {f : AnnForm} {os : List AnnObj} {o : AnnObj} {n : Node} : f ≠ .literal → f ≠ .annotated → o ∈ os → Mentions o n →
      Mentions (.gen f os) n
  | annotated {o : AnnObj} {ms : List AnnObj} {n : Node} : Mentions o n → Mentions (.gen .annotated (o :: ms)) n

/-- `t` is the type of a member of class `c` as `get_type_hints` has it. -/
def AnnWorld.Member (w : AnnWorld) (c : Nat) (t : AnnObj) : Prop :=
  ∃ N, ∀ n, N ≤ n → ∃ fs, w.readFields n c = .ok fs ∧ ∃ k, (k, t) ∈ fs

/-- From class to class by the types of members. -/
inductive AnnWorld.LeadsTo (w : AnnWorld) : Node → Node → Prop
  | refl {n : Node} : LeadsTo w n n
  | step {n k : Node} {c : Nat} {t : AnnObj} : LeadsTo w n (.cls c) → w.Member c t → t.Mentions k → LeadsTo w n k

/-- Annotations without `None` in place of a type: not as a text of its own, nor as the value. -/
inductive AnnWorld.NoNone (w : AnnWorld) (d : Str → Option AnnObj) : AnnObj → Prop
  | noneType : NoNone w d .noneType
  | cls {c : Nat} : NoNone w d (.cls c)
  | form {f : AnnForm} : NoNone w d (.form f)
  | literal {os : List AnnObj} : NoNone w d (.gen .literal os)
  | annotated {o : AnnObj} {ms : List AnnObj} : NoNone w d o → NoNone w d (.gen .annotated (o :: ms))
  | gen {f : AnnForm} {os : List AnnObj} : f ≠ .annotated → (∀ o ∈ os, NoNone w d o) → NoNone w d (.gen f os)
  | text {s : Str} {e : AnnExpr} {o : AnnObj} : w.parse s = some e → annEval d w.inModule e = .ok o → NoNone w d o → NoNone w d (.text s)
  | ref {s : Str} : NoNone w d (.ref s)

/-- The annotations of the members of class `c`, its own and those of its bases, have a meaning, with names that stand for the same in
the base as in the module of `c`. -/
def AnnWorld.Legible (w : AnnWorld) (c : Nat) : Prop :=
  ∀ b ∈ (w.classes c).mro, ∀ f ∈ (w.classes b).own, ∃ d t,
    w.Shared (w.classes b) (w.classes c).module d ∧ w.Means d f.2 t ∧ w.NoNone d f.2

end Verif
