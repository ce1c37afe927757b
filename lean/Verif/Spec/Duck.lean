import Verif.Model.Duck
import Verif.Spec.Writes
/-!
# What serializers demand of objects

As in Spec/Writes, but for objects of whatever type.
-/
namespace Verif

/-- What is obtained by iterating over an object. -/
inductive Yields (env : Env) : Val → List Val → Prop
  | items {v vs} : Elements v vs → Yields env v vs
  /-- the characters of a string -/
  | str {s} : Yields env (.str s) (s.map fun c => .str [c])
  /-- the bytes, as numbers -/
  | bytes {b} : Yields env (.bytes b) (b.map fun x => .int x.val)
  /-- the keys of a dictionary -/
  | dict {kvs} : Yields env (.dict kvs) (kvs.map fun kv => kv.1.toVal)
  /-- the members of a named tuple -/
  | tuple {c cd b fs} : env.classes[c]? = some cd → cd.kind = .namedTuple b → Yields env (.obj c fs) (fs.map Prod.snd)

/-- `DuckStep env t v u w`: when `v` is written as type `t`, the object `w` is next written as type `u`. -/
inductive DuckStep (env : Env) : Ty → Val → Ty → Val → Prop
  | annotated {t ms v} : DuckStep env (.annotated t ms) v t v
  | union {ts v} : DuckStep env (.union ts) v (typeOf v) v
  | list {t v vs x} : Yields env v vs → x ∈ vs → DuckStep env (.list t) v t x
  | set {t v vs x} : Yields env v vs → x ∈ vs → DuckStep env (.set t) v t x
  | tuple {ts v vs t x} : Yields env v vs → (t, x) ∈ ts.zip vs → DuckStep env (.tuple ts) v t x
  | bare {t v vs x} : t ∈ [Ty.bareList, .bareSet, .bareTuple] → Yields env v vs → x ∈ vs → DuckStep env t v (.union []) x
  | dict {k t kvs kv} : kv ∈ kvs → DuckStep env (.dict k t) (.dict kvs) t kv.2
  | bareDict {kvs kv} : kv ∈ kvs → DuckStep env .bareDict (.dict kvs) (.union []) kv.2
  /-- an attribute with the name of a member of the class, of an object of whatever class, unless it is `None` -/
  | field {c cd c' fs f x} : env.classes[c]? = some cd → cd.toJson = none → cd.Annotated → f ∈ cd.fields →
      lookupKey f.name fs = some x → x ≠ .none → DuckStep env (.cls c) (.obj c' fs) f.ty x
  | untypedField {c cd c' fs f x} : env.classes[c]? = some cd → cd.toJson = none → cd.kind = .namedTuple false →
      f ∈ cd.fields → lookupKey f.name fs = some x → DuckStep env (.cls c) (.obj c' fs) (.union []) x
  | attr {c cd c' fs n x} : env.classes[c]? = some cd → cd.toJson = none → cd.kind = .plain → cd.fields = [] →
      (n, x) ∈ fs → ¬ SpecialName n → x ≠ .none → DuckStep env (.cls c) (.obj c' fs) (.union []) x

/-- `DuckPart env t v u w`: when `v` is written as type `t`, its part `w` is written as type `u`. -/
inductive DuckPart (env : Env) : Ty → Val → Ty → Val → Prop
  | here {t v} : DuckPart env t v t v
  | step {t v t' v' u w} : DuckStep env t v t' v' → DuckPart env t' v' u w → DuckPart env t v u w

/-- Objects with an ISO format. -/
inductive HasIso : Val → Prop
  | datetime {d} : HasIso (.datetime d)
  | date {d} : HasIso (.date d)
  | time {t} : HasIso (.time t)

/-- `DuckFails env u w e`: `w` itself, apart from its parts, lacks what the serializer of type `u` uses, with exception `e`.  There is
no such case for `None`, `bool`, `int`, `float`, `str`, `UUID`, IP addresses, and literals that are not members of enumerations. -/
inductive DuckFails (env : Env) : Ty → Val → Err → Prop
  /-- what is wrong with objects of the type itself -/
  | same {u w e} : WriteFails env u w e → DuckFails env u w e
  | bytes {w} : (∀ b, w ≠ .bytes b) → DuckFails env .bytes w .typeError
  | naiveTime {t} : t.off = none → DuckFails env .datetime (.time t) .jsonValue
  | datetime {w} : (∀ d, w ≠ .datetime d) → (∀ t, w ≠ .time t) → DuckFails env .datetime w .attribute
  | date {w} : ¬ HasIso w → DuckFails env .date w .attribute
  | time {w} : ¬ HasIso w → DuckFails env .time w .attribute
  | timedelta {w} : (∀ d, w ≠ .timedelta d) → DuckFails env .timedelta w .attribute
  | list {t w} : (∀ vs, ¬ Yields env w vs) → DuckFails env (.list t) w .typeError
  | set {t w} : (∀ vs, ¬ Yields env w vs) → DuckFails env (.set t) w .typeError
  | tuple {ts w} : (∀ vs, ¬ Yields env w vs) → DuckFails env (.tuple ts) w .typeError
  | bare {u w} : u ∈ [Ty.bareList, .bareSet, .bareTuple] → (∀ vs, ¬ Yields env w vs) → DuckFails env u w .typeError
  | dict {k t w} : (∀ kvs, w ≠ .dict kvs) → DuckFails env (.dict k t) w .attribute
  | bareDict {w} : (∀ kvs, w ≠ .dict kvs) → DuckFails env .bareDict w .attribute
  /-- no attribute `value` -/
  | enum {n ed w} : env.enums[n]? = some ed → ed.toJson = none → (∀ e m, w ≠ .enum e m) →
      (∀ c fs x, w = .obj c fs → lookupKey c!"value" fs ≠ some x) → DuckFails env (.enum n) w .attribute
  | literal {n k ls ed w} : env.enums[n]? = some ed → ed.toJson = none → (∀ e m, w ≠ .enum e m) →
      (∀ c fs x, w = .obj c fs → lookupKey c!"value" fs ≠ some x) → DuckFails env (.literal (.enum n k :: ls)) w .attribute
  /-- an object that is no instance of a class at all -/
  | cls {c cd w} : env.classes[c]? = some cd → cd.toJson = none → cd.fields ≠ [] → (∀ c fs, w ≠ .obj c fs) →
      DuckFails env (.cls c) w .attribute

/-- An instance of a class that has one of these members. -/
def Val.HasMember (w : Val) (names : List Str) : Prop := ∃ c fs n x, w = .obj c fs ∧ (n, x) ∈ fs ∧ n ∈ names

/-- `Outside py env u w`: what `w` itself, apart from its parts, does when written as type `u` is not modelled. -/
inductive Outside (py : Builtins) (env : Env) : Ty → Val → Prop
  /-- no such class or enumeration, or no such member -/
  | noClass {c w} : env.classes[c]? = none → Outside py env (.cls c) w
  | noEnum {n w} : env.enums[n]? = none → Outside py env (.enum n) w
  | noEnum' {n k ls w} : env.enums[n]? = none → Outside py env (.literal (.enum n k :: ls)) w
  | noMember {n e m} : enumValue env e m = .error .outOfModel → Outside py env (.enum n) (.enum e m)
  | noMember' {n k ls e m} : enumValue env e m = .error .outOfModel → Outside py env (.literal (.enum n k :: ls)) (.enum e m)
  /-- a method `to_json` applied to something else than a member of its enumeration -/
  | foreign {n ed f w} : env.enums[n]? = some ed → ed.toJson = some f → (∀ m, w ≠ .enum n m) → Outside py env (.enum n) w
  | foreign' {n k ls ed f w} : env.enums[n]? = some ed → ed.toJson = some f → (∀ m, w ≠ .enum n m) →
      Outside py env (.literal (.enum n k :: ls)) w
  /-- objects with members named like the methods and attributes that serializers use -/
  | names {u w} : u ∈ [Ty.datetime, .date, .time, .timedelta, .bareDict] ∨ (∃ k t, u = .dict k t) →
      w.HasMember [c!"tzinfo", c!"isoformat", c!"days", c!"items", c!"keys"] → Outside py env u w
  /-- key types for which there is no serializer -/
  | keyType {t kvs} : Outside py env (.dict .int t) (.dict kvs)
  | keyType' {t kvs} : Outside py env (.dict .other t) (.dict kvs)
  /-- keys that are members of enumerations with values other than `str` and `int` -/
  | keyValue {n t kvs e m x} : (.enum e m, x) ∈ kvs → (∀ s, enumValue env e m ≠ .ok (.str s)) → (∀ i, enumValue env e m ≠ .ok (.int i)) →
      Outside py env (.dict (.enum n) t) (.dict kvs)
  | bareKeyValue {kvs e m x} : (.enum e m, x) ∈ kvs → (∀ s, enumValue env e m ≠ .ok (.str s)) → (∀ i, enumValue env e m ≠ .ok (.int i)) →
      Outside py env .bareDict (.dict kvs)
  /-- attributes of objects of built-in types -/
  | attributes {c cd w} : env.classes[c]? = some cd → cd.toJson = none → (∀ c fs, w ≠ .obj c fs) → cd.kind = .plain → cd.fields = [] →
      Outside py env (.cls c) w
  | attr {c cd fd r w} : env.classes[c]? = some cd → cd.toJson = none → (∀ c fs, w ≠ .obj c fs) → cd.fields = fd :: r →
      py.has (typeOf w) fd.name = true → Outside py env (.cls c) w

/-- No visited part fails. -/
def CanDuck (env : Env) (t : Ty) (v : Val) : Prop := ∀ u w e, DuckPart env t v u w → ¬ DuckFails env u w e

/-- All visited parts are modelled. -/
def InModel (py : Builtins) (env : Env) (t : Ty) (v : Val) : Prop := ∀ u w, DuckPart env t v u w → ¬ Outside py env u w

/-- Python objects that are JSON values. -/
inductive Val.IsJson : Val → Prop
  | none : IsJson .none
  | bool {b} : IsJson (.bool b)
  | int {i} : IsJson (.int i)
  | float {f} : IsJson (.float f)
  | str {s} : IsJson (.str s)
  | list {vs} : (∀ v ∈ vs, IsJson v) → IsJson (.list vs)
  | dict {kvs} : (∀ kv ∈ kvs, ∃ s, kv.1 = .str s) → (∀ kv ∈ kvs, IsJson kv.2) → IsJson (.dict kvs)

/-- `x` is passed on as it is when `w` is written as type `u`. -/
inductive PassedOn : Ty → Val → Val → Prop
  | plain {u w} : u ∈ [Ty.bool, .int, .float, .str] → PassedOn u w w
  | literal {ls w} : (∀ n k r, ls ≠ .enum n k :: r) → (∀ r, ls ≠ .none :: r) → PassedOn (.literal ls) w w
  | value {n c fs x} : lookupKey c!"value" fs = some x → PassedOn (.enum n) (.obj c fs) x
  | literalValue {n k ls c fs x} : lookupKey c!"value" fs = some x → PassedOn (.literal (.enum n k :: ls)) (.obj c fs) x

/-- The keys of a dictionary become strings when it is written as type `u`. -/
def TextKeys (env : Env) (u : Ty) (kvs : List (Key × Val)) : Prop :=
  ∀ kv ∈ kvs, (∀ i, kv.1 = .int i → u = .bareDict) ∧
    (∀ e m, kv.1 = .enum e m → (∃ s, enumValue env e m = .ok (.str s)) ∧ ∀ t, u ≠ .dict .str t)

/-- What is passed on is JSON, and keys become texts. -/
def CleanParts (env : Env) (t : Ty) (v : Val) : Prop :=
  (∀ u w x, DuckPart env t v u w → PassedOn u w x → x.IsJson) ∧ ∀ u kvs, DuckPart env t v u (.dict kvs) → TextKeys env u kvs

/-- What `str` returns for unique identifiers and addresses. -/
structure Builtins.Fits (py : Builtins) : Prop where
  uuid : ∀ n, py.str (.uuid n) = uuidStr n
  ipv4 : ∀ n, py.str (.ipv4 n) = ipv4Str n
  ipv6 : ∀ n s, py.str (.ipv6 n s) = ipv6StrScope n s

end Verif
