import Verif.Model.Schema
import Verif.Spec.JsonSchema
/-!
# References in schemas

`HasRef` (Spec/JsonSchema) tells which references a schema holds.
-/
namespace Verif

/-- The entries under `definitions`. -/
def definitionsOf (root : Sch) : List (Str × Json) :=
  match lookupKey c!"definitions" root with
  | some (.obj ds) => ds
  | _ => []

/-- `RefReaches ds s path n`: references lead from schema `s`, by way of definitions among `ds`, to the definition `n`. -/
inductive RefReaches (ds : List (Str × Json)) (s : Json) (path : Str) : Str → Prop
  | direct {n} : HasRef s (path ++ n) → RefReaches ds s path n
  | step {m n d} : RefReaches ds s path m → lookupKey m ds = some d → HasRef d (path ++ n) → RefReaches ds s path n

/-- `Occurs i t k b`: the class or enumeration `k` occurs in type `t`; `b` tells if it is directly inside a container or
an annotation (`i` is the same for `t` itself). -/
inductive Occurs : Bool → Ty → RegKey → Bool → Prop
  | enum {i e} : Occurs i (.enum e) (.enum e) i
  | cls {i c} : Occurs i (.cls c) (.cls c) i
  | annotated {i t ms k b} : Occurs true t k b → Occurs i (.annotated t ms) k b
  | union {i ts t k b} : t ∈ ts → Occurs false t k b → Occurs i (.union ts) k b
  | list {i t k b} : Occurs true t k b → Occurs i (.list t) k b
  | dict {i kt t k b} : Occurs true t k b → Occurs i (.dict kt t) k b
  | set {i t k b} : Occurs true t k b → Occurs i (.set t) k b
  | tuple {i ts t k b} : t ∈ ts → Occurs true t k b → Occurs i (.tuple ts) k b

/-- `Expands cat skip t c`: class `c` is part of type `t` and not replaced by a reference, because it is not registered or
because it is directly inside an annotation.  (`skip` tells the latter of `t` itself.) -/
inductive Expands (cat : SchemaCatalog) : Bool → Ty → Nat → Prop
  | cls {skip c} : skip = true ∨ lookupKey (RegKey.cls c) cat.byType = none → Expands cat skip (.cls c) c
  | annotated {skip t ms c} : Expands cat true t c → Expands cat skip (.annotated t ms) c
  | union {skip ts t c} : t ∈ ts → Expands cat false t c → Expands cat skip (.union ts) c
  | list {skip t c} : Expands cat false t c → Expands cat skip (.list t) c
  | dict {skip kt t c} : Expands cat false t c → Expands cat skip (.dict kt t) c
  | set {skip t c} : Expands cat false t c → Expands cat skip (.set t) c
  | tuple {skip ts t c} : t ∈ ts → Expands cat false t c → Expands cat skip (.tuple ts) c

/-- The annotation of the field is evaluated: it is not a string and has no strings inside (only annotations of data class
fields are not evaluated). -/
def FieldDef.Evaluated (kind : ClassKind) (f : FieldDef) : Prop :=
  ∀ frozen, kind = .dataclass frozen → f.strAnn = false ∧ f.fwd = false

/-- The schema of class `c` contains that of class `d` in full. -/
def Inlines (env : Env) (cat : SchemaCatalog) (c d : Nat) : Prop :=
  ∃ cd, env.classes[c]? = some cd ∧ ∃ f ∈ cd.hints, f.Evaluated cd.kind ∧ Expands cat false f.ty.required d

/-- The loop of `classdef_to_schema`, schema.py:529-540, without any bound on the number of rounds: from the types used
and defined it ends with the result given, unless it raises. -/
inductive LoopEnds (cfg : SchemaCfg) (env : Env) (cat : SchemaCatalog) :
    List (Str × UseTy) → List (Str × Sch) → Res (List (Str × Sch)) → Prop
  | stop {used defined} : ¬ defined.length < used.length → LoopEnds cfg env cat used defined (.ok defined)
  | raise {used defined e} : defined.length < used.length →
      defineAll cfg env cat (used.filter fun u => (lookupKey u.1 defined).isNone) used defined = .error e →
      LoopEnds cfg env cat used defined (.error e)
  | round {used defined used' defined' r} : defined.length < used.length →
      defineAll cfg env cat (used.filter fun u => (lookupKey u.1 defined).isNone) used defined = .ok (used', defined') →
      LoopEnds cfg env cat used' defined' r → LoopEnds cfg env cat used defined r

/-- All references that are made while schemas are generated are recorded. -/
structure RefsRecorded (env : Env) (cat : SchemaCatalog) : Prop where
  /-- No annotation of a data class field is a string that names a class or an enumeration. -/
  strings : ∀ cd ∈ env.classes, ∀ f ∈ cd.hints, strField cd.kind f = true → f.ty.regKey = none
  /-- Classes and enumerations that are given by name inside an annotation are known by that name, and they are not
  directly inside a container or `Annotated`. -/
  names : ∀ cd ∈ env.classes, ∀ f ∈ cd.hints, fwdField cd.kind f = true → ∀ k b, Occurs false f.ty.required k b →
    b = false ∧ ∃ n, k.typeName env = some n ∧ (lookupKey n cat.byName).isSome
  /-- Schemas given by the user have no references. -/
  explicit : ∀ r e s, cat.get r = .ok e → e.schema = some s → ∀ x, ¬ HasRef (.obj s) x

end Verif
