import Verif.Spec.RoundTrip
/-!
# Documents that say the same

`SameDoc` relates a document to the one that is written for the value that was read from it.
-/
namespace Verif

/-- The second scalar is the first one: it is identical, or equal in the sense of Python (`True == 1`, `1 == 1.0`), or the
floating-point number that Python makes of a truth value or integer. -/
def SameScalar (a b : Scalar) : Prop :=
  a = b ∨ a.pyEq b = true ∨ ∃ i f, a.asInt = some i ∧ b = .float f ∧ intToFloat i = .ok f

/-- Two documents say the same.  If `add` is set, the second one may have additional members in objects (default values); if
`drop` is set, members of the first one may be missing in the second one (unknown properties). -/
inductive SameDoc (add drop : Bool) : Json → Json → Prop
  | scalar {j j' a b} : j.scalar = some a → j'.scalar = some b → SameScalar a b → SameDoc add drop j j'
  | arr {xs ys} : xs.length = ys.length → (∀ (i : Nat) x y, xs[i]? = some x → ys[i]? = some y → SameDoc add drop x y) →
      SameDoc add drop (.arr xs) (.arr ys)
  /-- the same names in the same order -/
  | dict {xs ys} : xs.map Prod.fst = ys.map Prod.fst →
      (∀ (i : Nat) x y, xs[i]? = some x → ys[i]? = some y → SameDoc add drop x.2 y.2) → SameDoc add drop (.obj xs) (.obj ys)
  /-- the same members except those that are `null`, in any order -/
  | record {xs ys} : (ys.map Prod.fst).Nodup →
      (∀ k x y, Present xs k x → lookupKey k ys = some y → SameDoc add drop x y) →
      (drop = true ∨ ∀ k x, Present xs k x → ∃ y, lookupKey k ys = some y) →
      (add = true ∨ ∀ k y, lookupKey k ys = some y → ∃ x, Present xs k x) → SameDoc add drop (.obj xs) (.obj ys)

/-- Two objects have the same members except those that are `null`, in any order. -/
structure SameRecord (add drop : Bool) (xs ys : List (Str × Json)) : Prop where
  nodup : (ys.map Prod.fst).Nodup
  same : ∀ k x y, Present xs k x → lookupKey k ys = some y → SameDoc add drop x y
  kept : drop = true ∨ ∀ k x, Present xs k x → ∃ y, lookupKey k ys = some y
  known : add = true ∨ ∀ k y, lookupKey k ys = some y → ∃ x, Present xs k x

theorem SameRecord.obj {add drop : Bool} {xs ys : List (Str × Json)} (h : SameRecord add drop xs ys) :
    SameDoc add drop (.obj xs) (.obj ys) := .record h.nodup h.same h.kept h.known

/-- Types of documents: texts, numbers and truth values as they are, lists, tuples and dictionaries with text keys, literals,
enumerations by their values, unions, and the classes in `G`. -/
inductive DocTy (env : Env) (G : Nat → Prop) : Ty → Prop
  | none : DocTy env G .none
  | bool : DocTy env G .bool
  | int : DocTy env G .int
  | float : DocTy env G .float
  | str : DocTy env G .str
  | literal {ls} : (∀ l ∈ ls, ∀ i, l ≠ .int i) → (∀ l ∈ ls, ∀ e m, l ≠ .enum e m) → DocTy env G (.literal ls)
  | enum {e ed} : env.enums[e]? = some ed → ed.toJson = Option.none → DocTy env G (.enum e)
  | list {t} : DocTy env G t → DocTy env G (.list t)
  | tuple {ts} : (∀ t ∈ ts, DocTy env G t) → DocTy env G (.tuple ts)
  | dict {t} : DocTy env G t → DocTy env G (.dict .str t)
  | annotated {t ms} : DocTy env G t → DocTy env G (.annotated t ms)
  | union {ts} : (∀ t ∈ ts, DocTy env G t) → DocTy env G (.union ts)
  | cls {c} : G c → DocTy env G (.cls c)

/-- Classes of documents: without methods `to_json` and `from_json`; each field is read and written under the same name, different
for each field; a field that is absent is `None` unless `add` is set, and can be written. -/
structure DocumentClass (env : Env) (G : Nat → Prop) (add : Bool) (c : Nat) (cd : ClassDef) : Prop where
  cls : env.classes[c]? = some cd
  toJson : cd.toJson = none
  custom : cd.custom = false
  kind : cd.kind ≠ .namedTuple false
  fields : cd.kind = .plain → cd.fields ≠ []
  ser : serCreate env (.cls c) = .ok ()
  props : (cd.fields.map (writeProp cd.kind)).Nodup
  same : ∀ f ∈ cd.fields, fieldProp cd.kind f = writeProp cd.kind f
  ty : ∀ f ∈ cd.fields, DocTy env G (fieldTy cd.kind f)
  absent : ∀ f ∈ cd.fields, ∀ v, absentValue cd.kind f = some v → v = .none ∨ add = true ∧ ∃ j, objectToJson env v = .ok j

end Verif
