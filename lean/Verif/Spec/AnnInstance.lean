import Verif.Model.AnnInstance
import Verif.Spec.AnnMeaning
/-!
# Objects of types
-/
namespace Verif

/-- The object is of the type; `L` says which lengths of tuples go together. -/
inductive Objects.BelongsBy (P : Objects) (L : Nat → Nat → Prop) : AnnVal → AnnObj → Prop
  | noneType : BelongsBy P L .none .noneType
  | cls : P.isInst v c = true → BelongsBy P L v (.cls c)
  | bareList {vs : List AnnVal} : f.IsColl .list → BelongsBy P L (.list vs) (.form f)
  | bareSet {vs : List AnnVal} : f.IsColl .set → BelongsBy P L (.set vs) (.form f)
  | bareDict {kvs : List (AnnVal × AnnVal)} : f.IsColl .dict → BelongsBy P L (.dict kvs) (.form f)
  | bareTuple {vs : List AnnVal} : f.IsColl .tuple → BelongsBy P L (.tuple vs) (.form f)
  | list {vs : List AnnVal} : f.IsColl .list → (∀ v ∈ vs, BelongsBy P L v t) → BelongsBy P L (.list vs) (.gen f [t])
  | set {vs : List AnnVal} : f.IsColl .set → (∀ v ∈ vs, BelongsBy P L v t) → BelongsBy P L (.set vs) (.gen f [t])
  | dict {kvs : List (AnnVal × AnnVal)} : f.IsColl .dict → (∀ kv ∈ kvs, BelongsBy P L kv.1 k) → (∀ kv ∈ kvs, BelongsBy P L kv.2 t) →
      BelongsBy P L (.dict kvs) (.gen f [k, t])
  | tuple {vs : List AnnVal} {ts : List AnnObj} : f.IsColl .tuple → L vs.length ts.length →
      (∀ (i : Nat) v t, vs[i]? = some v → ts[i]? = some t → BelongsBy P L v t) → BelongsBy P L (.tuple vs) (.gen f ts)
  | member {ts : List AnnObj} : (f = .union ∨ f = .pipe) → t ∈ ts → BelongsBy P L v t → BelongsBy P L v (.gen f ts)
  | annotated {ms : List AnnObj} : BelongsBy P L v t → BelongsBy P L v (.gen .annotated (t :: ms))
  | literal {os : List AnnObj} : o ∈ os → P.isLit v o = true → BelongsBy P L v (.gen .literal os)

/-- The object is of the type: tuples have as many items as the type says. -/
def Objects.Belongs (P : Objects) (v : AnnVal) (t : AnnObj) : Prop := P.BelongsBy (· = ·) v t

/-- Names that the library knows as the caller does. -/
def AnnWorld.KnownTo (w : AnnWorld) (lib : Nat) (d : Str → Option AnnObj) : Prop :=
  ∀ n o, d n = some o → n ∉ [c!"obj", c!"typ", c!"fwd", c!"identifier"] ∧
    firstOf [w.inModule lib, fun n => lookupKey n w.builtins] n = some o

/-- Annotations that `is_generic_instance` has an answer for: names stand for classes, and are within quotes only as forward references;
no `Annotated`, no `Literal`, no `|`, no `None` inside `list` etc.; tuples of fixed length only if `T`. -/
inductive AnnWorld.Asked (w : AnnWorld) (d : Str → Option AnnObj) (T : Prop) : AnnObj → Prop
  | noneType : Asked w d T .noneType
  | cls : Asked w d T (.cls c)
  | untyped : Asked w d T (.form (.builtin c))
  | tupleForm : Asked w d T (.form (.typing .tuple))
  | ref : w.parse s = some e → annEval d w.inModule e = .ok o → (o = .noneType ∨ (∃ c, o = .cls c) ∨ ∃ c, o = .form (.builtin c)) →
      Asked w d T (.ref s)
  | list : f.IsColl .list → Asked w d T o → Asked w d T (.gen f [o])
  | set : f.IsColl .set → Asked w d T o → Asked w d T (.gen f [o])
  | dict : f.IsColl .dict → Asked w d T k → Asked w d T o → Asked w d T (.gen f [k, o])
  | tuple {os : List AnnObj} : T → f.IsColl .tuple → (∀ o ∈ os, Asked w d T o) → Asked w d T (.gen f os)
  | union {os : List AnnObj} : (∀ o ∈ os, Asked w d T o) → Asked w d T (.gen .union os)

end Verif
