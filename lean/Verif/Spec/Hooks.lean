import Verif.Spec.ClassRead
import Verif.Model.Serializer
/-!
# Which part of the data belongs to which part of a value

Positions in JSON data and in Python values, when writing and when reading.
-/
namespace Verif

/-- One step into JSON data. -/
inductive JStep where
  | idx (i : Nat)
  | key (s : Str)

/-- The part of JSON data at a position. -/
def Json.at : Json → List JStep → Option Json
  | j, [] => some j
  | .arr xs, .idx i :: p => (match xs[i]? with | some x => x.at p | none => none)
  | .obj kvs, .key s :: p => (match lookupKey s kvs with | some x => x.at p | none => none)
  | _, _ :: _ => none

/-- One step into a Python value. -/
inductive VStep where
  | idx (i : Nat)
  | key (k : Key)
  | attr (s : Str)

/-- The part of a Python value at a position (sets have no positions). -/
def Val.at : Val → List VStep → Option Val
  | v, [] => some v
  | .list vs, .idx i :: p => (match vs[i]? with | some x => x.at p | Option.none => Option.none)
  | .tuple vs, .idx i :: p => (match vs[i]? with | some x => x.at p | Option.none => Option.none)
  | .dict kvs, .key k :: p => (match lookupKey k kvs with | some x => x.at p | Option.none => Option.none)
  | .obj _ fs, .attr s :: p => (match lookupKey s fs with | some x => x.at p | Option.none => Option.none)
  | _, _ :: _ => Option.none

/-- The text of a key: strings, and members of enumerations with a string as value. -/
def keyText (env : Env) : Key → Option Str
  | .str s => some s
  | .int _ => none
  | .enum e m =>
    match env.enums[e]? with
    | none => none
    | some ed => match ed.members[m]? with
      | some (_, .str s) => some s
      | _ => none

/-- All keys are strings, or all keys are members of enumerations. -/
def SameKeys (kvs : List (Key × Val)) : Prop :=
  (∀ kv ∈ kvs, ∃ s, kv.1 = .str s) ∨ ∀ kv ∈ kvs, ∃ e m, kv.1 = .enum e m

/-- The entry is the only one with this key text. -/
def OnlyKey (env : Env) (kvs : List (Key × Val)) (kv : Key × Val) (s : Str) : Prop :=
  kv ∈ kvs ∧ keyText env kv.1 = some s ∧ ∀ kv' ∈ kvs, keyText env kv'.1 = some s → kv' = kv

/-- `WrittenAt env t v p u w`: when `v` is written as type `t`, its part `w` is written at position `p` as type `u`; a value
without declared type is written as its own type.  `None` in a field is not written; classes with `to_json` have no parts. -/
inductive WrittenAt (env : Env) : Ty → Val → List JStep → Ty → Val → Prop
  | here {t v} : WrittenAt env t v [] t v
  | union {ts v p u w} : WrittenAt env (typeOf v) v p u w → WrittenAt env (.union ts) v p u w
  | annotated {t ms v p u w} : WrittenAt env t v p u w → WrittenAt env (.annotated t ms) v p u w
  | list {t vs i x p u w} : vs[i]? = some x → WrittenAt env t x p u w → WrittenAt env (.list t) (.list vs) (.idx i :: p) u w
  | set {t vs i x p u w} : vs[i]? = some x → WrittenAt env t x p u w → WrittenAt env (.set t) (.set vs) (.idx i :: p) u w
  | tuple {ts vs i t x p u w} : ts[i]? = some t → vs[i]? = some x → WrittenAt env t x p u w →
      WrittenAt env (.tuple ts) (.tuple vs) (.idx i :: p) u w
  | dict {k t kvs kv s p u w} : OnlyKey env kvs kv s → WrittenAt env t kv.2 p u w →
      WrittenAt env (.dict k t) (.dict kvs) (.key s :: p) u w
  | bareList {vs i x p u w} : vs[i]? = some x → WrittenAt env (typeOf x) x p u w →
      WrittenAt env .bareList (.list vs) (.idx i :: p) u w
  | bareSet {vs i x p u w} : vs[i]? = some x → WrittenAt env (typeOf x) x p u w →
      WrittenAt env .bareSet (.set vs) (.idx i :: p) u w
  | bareTuple {vs i x p u w} : vs[i]? = some x → WrittenAt env (typeOf x) x p u w →
      WrittenAt env .bareTuple (.tuple vs) (.idx i :: p) u w
  | bareDict {kvs kv s p u w} : SameKeys kvs → OnlyKey env kvs kv s → WrittenAt env (typeOf kv.2) kv.2 p u w →
      WrittenAt env .bareDict (.dict kvs) (.key s :: p) u w
  | cls {c cd f c' fs x p u w} : env.classes[c]? = some cd → cd.toJson = none → cd.kind ≠ .namedTuple false → f ∈ cd.fields →
      (∀ g ∈ cd.fields, writeProp cd.kind g = writeProp cd.kind f → g = f) → lookupKey f.name fs = some x → x ≠ .none →
      WrittenAt env f.ty x p u w → WrittenAt env (.cls c) (.obj c' fs) (.key (writeProp cd.kind f) :: p) u w
  | untypedTuple {c cd f c' fs x p u w} : env.classes[c]? = some cd → cd.toJson = none → cd.kind = .namedTuple false →
      f ∈ cd.fields →
      (∀ g ∈ cd.fields, fieldToProperty g.name Option.none = fieldToProperty f.name Option.none → g = f) →
      lookupKey f.name fs = some x → WrittenAt env (typeOf x) x p u w →
      WrittenAt env (.cls c) (.obj c' fs) (.key (fieldToProperty f.name Option.none) :: p) u w
  | untyped {c cd c' fs n x p u w} : env.classes[c]? = some cd → cd.toJson = none → cd.kind = .plain → cd.fields = [] →
      (n, x) ∈ fs → (∀ kv ∈ fs, fieldToProperty kv.1 Option.none = fieldToProperty n Option.none → kv = (n, x)) →
      isReserved n = false → x ≠ .none → WrittenAt env (typeOf x) x p u w →
      WrittenAt env (.cls c) (.obj c' fs) (.key (fieldToProperty n Option.none) :: p) u w

/-- `ReadAt env skip t j p q u y`: when `j` is read as type `t`, its part `y` at position `p` is read as type `u`, for the part of
the result at position `q`.  Properties that are `null` are not read; a union is read like one of its members. -/
inductive ReadAt (env : Env) (skip : Bool) : Ty → Json → List JStep → List VStep → Ty → Json → Prop
  | here {t j} : ReadAt env skip t j [] [] t j
  | union {ts t j p q u y} : loads env skip (.union ts) j = loads env skip t j → ReadAt env skip t j p q u y →
      ReadAt env skip (.union ts) j p q u y
  | annotated {t ms j p q u y} : ReadAt env skip t j p q u y → ReadAt env skip (.annotated t ms) j p q u y
  | list {t xs i x p q u y} : xs[i]? = some x → ReadAt env skip t x p q u y →
      ReadAt env skip (.list t) (.arr xs) (.idx i :: p) (.idx i :: q) u y
  | tuple {ts xs i t x p q u y} : ts[i]? = some t → xs[i]? = some x → ReadAt env skip t x p q u y →
      ReadAt env skip (.tuple ts) (.arr xs) (.idx i :: p) (.idx i :: q) u y
  | dict {k t kvs s key x p q u y} : lookupKey s kvs = some x → keyText env key = some s →
      (match k with | .str => key = .str s | .enum e => ∃ m, key = .enum e m | .int | .other => False) →
      ReadAt env skip t x p q u y → ReadAt env skip (.dict k t) (.obj kvs) (.key s :: p) (.key key :: q) u y
  | cls {c cd f kvs x p q u y} : env.classes[c]? = some cd → cd.custom = false → f ∈ cd.hints →
      lookupKey (fieldProp cd.kind f) kvs = some x → x ≠ .null → ReadAt env skip (fieldTy cd.kind f) x p q u y →
      ReadAt env skip (.cls c) (.obj kvs) (.key (fieldProp cd.kind f) :: p) (.attr f.name :: q) u y

/-- Two programs that differ at most in the fields and kinds of classes with the same `to_json` method. -/
structure SameButHooked (env env' : Env) : Prop where
  enums : env'.enums = env.enums
  length : env'.classes.length = env.classes.length
  classes : ∀ (c : Nat) (cd cd' : ClassDef), env.classes[c]? = some cd → env'.classes[c]? = some cd' →
    cd' = cd ∨ ∃ f, cd.toJson = some f ∧ cd'.toJson = some f

end Verif
