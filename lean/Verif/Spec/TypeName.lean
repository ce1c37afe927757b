import Verif.Model.TypeName
/-!
# Well-formed type expressions, and type expressions up to the order of `Optional`
-/
namespace Verif

/-- Characters that are not part of names (no identifier contains any of them). -/
def notInNames : List Char := ['[', ']', ',', ' ', '|', '.', ':', '<', '>', '\'', '"', '(', ')']

/-- An identifier, as far as the theorems need it. -/
def IsName (n : Str) : Prop := n ≠ [] ∧ ∀ c ∈ n, c ∉ notInNames

/-- Class names that the formatter uses for other things. -/
def reservedNames : List Str := [c!"None", c!"Any", c!"float32", c!"float64", c!"int8", c!"int16", c!"int32", c!"int64",
  c!"uint8", c!"uint16", c!"uint32", c!"uint64"]
def reservedGenerics : List Str := [c!"Union", c!"Optional", c!"Literal", c!"Annotated"]

/-- Arguments of `Literal` that name an enumeration by identifiers. -/
def LitVal.Ok : LitVal → Prop
  | .atom _ => True
  | .enum cls name _ => IsName cls ∧ IsName name

/-- The expression is a union. -/
def TypeExpr.isUnion : TypeExpr → Bool
  | .union _ => true
  | _ => false

/-- The expression is `Annotated[T, …]`. -/
def TypeExpr.isAnnotated : TypeExpr → Bool
  | .annotated _ _ => true
  | _ => false

/-- The expression is a type (and not `...` or a list of types, which occur only as arguments). -/
def TypeExpr.isType : TypeExpr → Bool
  | .ellipsis => false
  | .argList _ => false
  | _ => true

/-- No annotation is equal to one of an auxiliary type for Python only, as `Signed(1)` and `Signed(True)` are. -/
def TypedAnnotations (ms : List Annotation) : Prop := ∀ m ∈ ms, ∀ a ∈ auxTypes, ∀ n ∈ a.metas, m.eq n = true → m = n

/-- If all annotations of an auxiliary type are among the annotations, then they come first, in their order and once. -/
def OrderlyAnnotations (t : TypeExpr) (ms : List Annotation) : Prop :=
  ∀ a ∈ auxTypes, t = .named a.base → (∀ m ∈ a.metas, m ∈ ms) → ∃ rest, ms = a.metas ++ rest ∧ ∀ m ∈ rest, m ∉ a.metas

/-- Type expressions that exist: names are identifiers, and unions are flat with at least two members (`typing` flattens unions,
removes duplicates and replaces a union of one type by the type), and so are annotations; the annotations of auxiliary types come
first. -/
inductive TypeExpr.Ok : TypeExpr → Prop
  | none : TypeExpr.Ok .none
  | ellipsis : TypeExpr.Ok .ellipsis
  | any : TypeExpr.Ok .any
  | named {n} : IsName n → n ∉ reservedNames → TypeExpr.Ok (.named n)
  | generic {o ts} : IsName o → o ∉ reservedGenerics → (∀ t ∈ ts, TypeExpr.Ok t) → TypeExpr.Ok (.generic o ts)
  | union {ts} : 2 ≤ ts.length → ts ≠ [.none, .none] → (∀ t ∈ ts, t.isUnion = false) → (∀ t ∈ ts, TypeExpr.Ok t) →
      TypeExpr.Ok (.union ts)
  | literal {vs} : (∀ v ∈ vs, v.Ok) → TypeExpr.Ok (.literal vs)
  | argList {ts} : (∀ t ∈ ts, TypeExpr.Ok t) → TypeExpr.Ok (.argList ts)
  | annotated {t ms} : TypeExpr.Ok t → t.isAnnotated = false → t.isType = true → t ≠ .named c!"NoneType" → (∀ m ∈ ms, IsName m.name) →
      TypedAnnotations ms → OrderlyAnnotations t ms → TypeExpr.Ok (.annotated t ms)

/-- Two type expressions that differ at most in the order of the two members of `Optional[T]`, that is, `Union[T, None]` and
`Union[None, T]`, anywhere in them.  (For Python these are equal.) -/
inductive TypeExpr.SameOpt : TypeExpr → TypeExpr → Prop
  | none : SameOpt .none .none
  | ellipsis : SameOpt .ellipsis .ellipsis
  | any : SameOpt .any .any
  | named {n} : SameOpt (.named n) (.named n)
  | generic {o ts us} : ts.length = us.length → (∀ p ∈ ts.zip us, SameOpt p.1 p.2) → SameOpt (.generic o ts) (.generic o us)
  | union {ts us} : ts.length = us.length → (∀ p ∈ ts.zip us, SameOpt p.1 p.2) → SameOpt (.union ts) (.union us)
  | swapL {t u} : SameOpt t u → SameOpt (.union [.none, t]) (.union [u, .none])
  | swapR {t u} : SameOpt t u → SameOpt (.union [t, .none]) (.union [.none, u])
  | literal {vs} : SameOpt (.literal vs) (.literal vs)
  | argList {ts us} : ts.length = us.length → (∀ p ∈ ts.zip us, SameOpt p.1 p.2) → SameOpt (.argList ts) (.argList us)
  | annotated {t u ms} : SameOpt t u → SameOpt (.annotated t ms) (.annotated u ms)

end Verif
