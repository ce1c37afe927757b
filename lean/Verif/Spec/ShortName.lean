import Verif.Model.ShortName
import Verif.Spec.TypeName
/-!
# Types with short names, and types up to annotations
-/
namespace Verif

/-- A name that has no two underscores in a row and does not end with an underscore. -/
def PlainName (n : Str) : Prop := n ≠ [] ∧ ¬ c!"__" <:+: n ∧ n.getLast? ≠ some '_'

/-- The type is one of the auxiliary types. -/
def isAux (t : TypeExpr) (ms : List Annotation) : Bool := auxTypes.any fun a => t.isClass a.base && decide (ms = a.metas)

/-- The type without its annotations, unless it is an auxiliary type. -/
def TypeExpr.bare : TypeExpr → TypeExpr
  | .annotated t ms => if isAux t ms then .annotated t ms else t
  | t => t

/-- The type and its arguments without annotations, unless these are auxiliary types. -/
def TypeExpr.bareArgs : TypeExpr → TypeExpr
  | .generic o ts => .generic o (ts.map TypeExpr.bare)
  | .union ts => .union (ts.map TypeExpr.bare)
  | t => t.bare

/-- Types with a short name: classes, `Any`, `None` and the empty tuple, possibly annotated, and the auxiliary types. -/
inductive TypeExpr.Simple : TypeExpr → Prop
  | none : Simple .none
  | any : Simple .any
  | named {n} : Simple (.named n)
  | emptyTuple : Simple (.generic c!"tuple" [])
  | annotated {t ms} : Simple t → Simple (.annotated t ms)

/-- Types with a name with `force`: in addition, the standard collections and unions of types with a short name. -/
inductive TypeExpr.Shallow : TypeExpr → Prop
  | simple {t} : Simple t → Shallow t
  | generic {o ts} : o ∈ [c!"dict", c!"list", c!"set", c!"frozenset", c!"tuple", c!"type"] → (∀ t ∈ ts, Simple t) → Shallow (.generic o ts)
  | union {ts} : (∀ t ∈ ts, Simple t) → Shallow (.union ts)

/-- Generic types have the number of arguments that they need. -/
def Arity (o : Str) (n : Nat) : Prop :=
  (o = c!"dict" → n = 2) ∧ (o ∈ [c!"list", c!"set", c!"frozenset", c!"type"] → n = 1) ∧ (o ≠ c!"tuple" → n ≠ 0)

/-- Generic types have the number of arguments that they need, and unions have at least two different members. -/
inductive TypeExpr.Applied : TypeExpr → Prop
  | none : Applied .none
  | ellipsis : Applied .ellipsis
  | any : Applied .any
  | named {n} : Applied (.named n)
  | generic {o ts} : Arity o ts.length → (∀ t ∈ ts, Applied t) → Applied (.generic o ts)
  | union {ts} : 2 ≤ ts.length → ts ≠ [.none, .none] → (∀ t ∈ ts, Applied t) → Applied (.union ts)
  | literal {vs} : Applied (.literal vs)
  | argList {ts} : Applied (.argList ts)
  | annotated {t ms} : Applied t → Applied (.annotated t ms)

/-- Types whose classes have plain names other than `NoneType` and the names of auxiliary types; the empty tuple is left out. -/
inductive TypeExpr.PlainNames : TypeExpr → Prop
  | none : PlainNames .none
  | ellipsis : PlainNames .ellipsis
  | any : PlainNames .any
  | named {n} : PlainName n → n ∉ reservedNames → n ≠ c!"NoneType" → PlainNames (.named n)
  | generic {o ts} : ts ≠ [] → (∀ t ∈ ts, PlainNames t) → PlainNames (.generic o ts)
  | union {ts} : 2 ≤ ts.length → ts ≠ [.none, .none] → (∀ t ∈ ts, PlainNames t) → PlainNames (.union ts)
  | literal {vs} : PlainNames (.literal vs)
  | argList {ts} : PlainNames (.argList ts)
  | annotated {t ms} : PlainNames t → t.isAnnotated = false → TypedAnnotations ms → PlainNames (.annotated t ms)

end Verif
