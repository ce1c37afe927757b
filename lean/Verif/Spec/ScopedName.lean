import Verif.Model.ScopedName
/-!
# What the text of a type with names shows
-/
namespace Verif

/-- The name, if the object is one or is shown like one. -/
def NTy.label : NTy → Option Str
  | .ref s | .text s | .tvar s => some s
  | _ => Option.none

/-- `u` is `t` with some names replaced by what they stand for. -/
inductive NTy.Expanded (sc : NameScope) : NTy → NTy → Prop
  | refl (t : NTy) : Expanded sc t t
  | generic (o : Str) (ts us : List NTy) : ts.length = us.length → (∀ p ∈ ts.zip us, Expanded sc p.1 p.2) →
      Expanded sc (.generic o ts) (.generic o us)
  | union (ts us : List NTy) : ts.length = us.length → (∀ p ∈ ts.zip us, Expanded sc p.1 p.2) → Expanded sc (.union ts) (.union us)
  | argList (ts us : List NTy) : ts.length = us.length → (∀ p ∈ ts.zip us, Expanded sc p.1 p.2) → Expanded sc (.argList ts) (.argList us)
  | annotated (t u : NTy) (ms : List Annotation) : Expanded sc t u → Expanded sc (.annotated t ms) (.annotated u ms)
  | ref (s : Str) (o u : NTy) : sc.eval s = .ok o → Expanded sc o u → Expanded sc (.ref s) u
  | text (s : Str) (o u : NTy) : sc.eval s = .ok o → Expanded sc o u → Expanded sc (.text s) u

mutual
/-- The type expression with names as they are to be shown: classes, and forward references to classes, as `type_transform` has it, other
names as they are. -/
def NTy.shown (sc : NameScope) : NTy → TypeExpr
  | .none => .none
  | .ellipsis => .ellipsis
  | .any => .any
  | .named c => .named (match sc.transform with | Option.none => c | some f => f c)
  | .generic o ts => .generic o (shownL sc ts)
  | .union ts => .union (shownL sc ts)
  | .literal vs => .literal vs
  | .argList ts => .argList (shownL sc ts)
  | .annotated t ms => .annotated (shown sc t) ms
  | .ref s => .named (match sc.transform, sc.var s with | some f, some (.named c) => f c | _, _ => s)
  | .text s | .tvar s => .named s
  | .other => .any
/-- The same for the members of a list. -/
def NTy.shownL (sc : NameScope) : List NTy → List TypeExpr
  | [] => []
  | t :: ts => shown sc t :: shownL sc ts
end

/-- Nothing but a class or a type with arguments is directly within `Annotated`, and there is no `Annotated` if there is a
`type_transform`. -/
inductive NTy.Simple (sc : NameScope) : NTy → Prop
  | none : Simple sc .none
  | ellipsis : Simple sc .ellipsis
  | any : Simple sc .any
  | named (c : Str) : Simple sc (.named c)
  | generic (o : Str) (ts : List NTy) : (∀ t ∈ ts, Simple sc t) → Simple sc (.generic o ts)
  | union (ts : List NTy) : (∀ t ∈ ts, Simple sc t) → Simple sc (.union ts)
  | literal (vs : List LitVal) : Simple sc (.literal vs)
  | argList (ts : List NTy) : (∀ t ∈ ts, Simple sc t) → Simple sc (.argList ts)
  | annotated (t : NTy) (ms : List Annotation) : Simple sc t → t.label = Option.none → sc.transform = Option.none → Simple sc (.annotated t ms)
  | ref (s : Str) : Simple sc (.ref s)
  | text (s : Str) : Simple sc (.text s)
  | tvar (s : Str) : Simple sc (.tvar s)
  | other : Simple sc .other

/-- What names stand for is of this kind, too, and not `None`. -/
def NameScope.Simple (sc : NameScope) : Prop := ∀ s o, sc.eval s = .ok o → o.Simple sc ∧ o ≠ .none

/-- The name occurs in the type. -/
inductive NTy.Mentions : NTy → Str → Prop
  | ref (s : Str) : Mentions (.ref s) s
  | text (s : Str) : Mentions (.text s) s
  | generic (o : Str) (ts : List NTy) (t : NTy) (s : Str) : t ∈ ts → Mentions t s → Mentions (.generic o ts) s
  | union (ts : List NTy) (t : NTy) (s : Str) : t ∈ ts → Mentions t s → Mentions (.union ts) s
  | argList (ts : List NTy) (t : NTy) (s : Str) : t ∈ ts → Mentions t s → Mentions (.argList ts) s
  | annotated (t : NTy) (ms : List Annotation) (s : Str) : Mentions t s → Mentions (.annotated t ms) s

/-- All names are variables of the context, or there is none; texts are identifiers; and nothing is other than a type. -/
inductive NTy.Closed (sc : NameScope) : NTy → Prop
  | none : Closed sc .none
  | ellipsis : Closed sc .ellipsis
  | any : Closed sc .any
  | named (c : Str) : Closed sc (.named c)
  | generic (o : Str) (ts : List NTy) : (∀ t ∈ ts, Closed sc t) → Closed sc (.generic o ts)
  | union (ts : List NTy) : (∀ t ∈ ts, Closed sc t) → Closed sc (.union ts)
  | literal (vs : List LitVal) : Closed sc (.literal vs)
  | argList (ts : List NTy) : (∀ t ∈ ts, Closed sc t) → Closed sc (.argList ts)
  | annotated (t : NTy) (ms : List Annotation) : Closed sc t → t.label = Option.none → sc.transform = Option.none → Closed sc (.annotated t ms)
  | ref (s : Str) : (sc.context = Option.none ∨ ∃ o, sc.var s = some o ∧ o ≠ .none) → Closed sc (.ref s)
  | text (s : Str) : sc.ident s = true → (sc.context = Option.none ∨ ∃ o, sc.var s = some o) → Closed sc (.text s)
  | tvar (s : Str) : Closed sc (.tvar s)

end Verif
