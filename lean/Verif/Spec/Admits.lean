import Verif.Props.C50_Annotations
import Verif.Spec.SchemaValid
import Verif.Spec.All2
/-!
# The JSON values that a type stands for

`Admits` says of a type, without any schema, which JSON values its schema is to accept.
-/
namespace Verif

/-- Values of types other than containers, enumerations, literals, unions and classes.  For `IPv4Address`, `IPv6Address` and
containers without parameters these are all objects. -/
def LeafAdmits (vc : ValidatorCfg) (j : Json) : Ty → Prop
  | .none => j = .null
  | .bool => ∃ b, j = .bool b
  | .int => ∃ i, j.IsInt i
  | .float => j.IsNumber
  | .str => ∃ s, j = .str s
  | .bytes => ∃ s, j = .str s
  | .datetime => ∃ s, j = .str s ∧ vc.format c!"date-time" s = true
  | .date => ∃ s, j = .str s ∧ vc.format c!"date" s = true
  | .time => ∃ s, j = .str s ∧ vc.format c!"time" s = true
  | .timedelta => ∃ s, j = .str s ∧ vc.format c!"duration" s = true
  | .uuid => ∃ s, j = .str s ∧ vc.format c!"uuid" s = true
  | _ => ∃ kvs, j = .obj kvs

/-- Simple types, whose annotations bear on the schema. -/
def Ty.IsPlain (t : Ty) : Prop :=
  t ∈ [Ty.none, .bool, .int, .float, .str, .bytes, .datetime, .date, .time, .timedelta, .uuid]

/-- Keys of dictionaries: any text, unless keys are of an enumeration; then the text of one of its values, or a text that
matches the pattern made of these if there are many. -/
def KeyAdmits (vc : ValidatorCfg) (env : Env) (s : Str) : KeyTy → Prop
  | .enum e => ∃ ed words, env.enums[e]? = some ed ∧ All2 (fun m w => m.2.pyStr = .ok w) ed.members words ∧
      (if 4 < words.length then vc.pattern (c!"^(" ++ joinWith '|' words ++ c!")$") s = true else s ∈ words)
  | _ => True

/-- The JSON values of a type. -/
def Admits (vc : ValidatorCfg) (cfg : SchemaCfg) (env : Env) : Ty → Json → Prop
  | .annotated t ms, j => Admits vc cfg env t j ∧ (t.IsPlain → auxFormat t ms = none → MetaDemand vc cfg ms j)
  | .list t, j => ∃ xs, ∃ _ : j = .arr xs, ∀ x, (_ : x ∈ xs) → Admits vc cfg env t x
  | .set t, j => ∃ xs, ∃ _ : j = .arr xs, (∀ x, (_ : x ∈ xs) → Admits vc cfg env t x) ∧ allDistinct xs = true
  | .tuple ts, j => ∃ xs, ∃ _ : j = .arr xs, xs.length = ts.length ∧
      ∀ (i : Nat) t x, (_ : ts[i]? = some t) → (_ : xs[i]? = some x) → Admits vc cfg env t x
  | .dict k t, j => ∃ kvs, ∃ _ : j = .obj kvs, ∀ kv, (_ : kv ∈ kvs) → KeyAdmits vc env kv.1 k ∧ Admits vc cfg env t kv.2
  /- exactly one of the types -/
  | .union ts, j => ∃ (i : Nat) (t : Ty), ∃ _ : ts[i]? = some t, Admits vc cfg env t j ∧
      ∀ (k : Nat) u, k ≠ i → (_ : ts[k]? = some u) → ¬ Admits vc cfg env u j
  | .literal ls, j => ∃ l ∈ ls, ∃ s, l.scalar = some s ∧ Json.same j s.toJson = true
  | .enum e, j => ∃ ed, env.enums[e]? = some ed ∧ ∃ m ∈ ed.members, Json.same j m.2.toJson = true
  /- the properties are those of the fields, and fields that are not optional are present; any object for a class without
  fields -/
  | .cls c, j => ∃ kvs cd, ∃ _ : j = .obj kvs, env.classes[c]? = some cd ∧
      (cd.hints ≠ [] → ∀ kv, kv ∈ kvs → ∃ f ∈ cd.hints, jsonName f = kv.1) ∧
      (∀ f ∈ cd.hints, ∀ kv, (_ : kv ∈ kvs) → kv.1 = jsonName f → Admits vc cfg env f.ty.required kv.2) ∧
      ∀ f ∈ cd.hints, f.ty.isOptional = false → ∃ kv ∈ kvs, kv.1 = jsonName f
  | t, j => LeafAdmits vc j t
termination_by t j => (sizeOf j, sizeOf t)
decreasing_by
  all_goals first
    | (apply Prod.Lex.right; rw [Ty.annotated.sizeOf_spec]; omega)
    | (apply Prod.Lex.right; rename_i h; have := List.sizeOf_lt_of_mem (List.mem_of_getElem? h); simp; omega)
    | (apply Prod.Lex.left; subst_vars; rename_i h; have := List.sizeOf_lt_of_mem h; simp; omega)
    | (apply Prod.Lex.left; subst_vars; rename_i h; have := List.sizeOf_lt_of_mem (List.mem_of_getElem? h); simp; omega)
    | (apply Prod.Lex.left; subst_vars; rename_i h; have := List.sizeOf_lt_of_mem h; cases kv; simp at *; omega)
    | (apply Prod.Lex.left; subst_vars; rename_i h _; have := List.sizeOf_lt_of_mem h; cases kv; simp at *; omega)

end Verif
