import Verif.Spec.Typing
/-!
# Specification of the type helpers and of the recursive checks of values
-/
namespace Verif

/-! ### Types -/

/-- `t` is `Annotated[core, *ms]`, or `core` itself without annotations. -/
inductive Ty.Parts : Ty → Ty → List Meta → Prop
  | annotated {t ms} : Ty.Parts (.annotated t ms) t ms
  | plain {t} : (∀ u ms, t ≠ .annotated u ms) → Ty.Parts t t []

/-- The members of a union as Python keeps them: at least two, all different, none of them a union. -/
def UnionOk (ts : List Ty) : Prop := 2 ≤ ts.length ∧ ts.Nodup ∧ ∀ t ∈ ts, ∀ us, t ≠ .union us

/-- A type as Python represents it, as far as the outermost layers are concerned. -/
def Ty.Norm (t : Ty) : Prop :=
  ∀ core ms, Ty.Parts t core ms → (∀ u ns, ms ≠ [] → core ≠ .annotated u ns) ∧ ∀ ts, core = .union ts → UnionOk ts

/-! ### Instances -/

/-- The items of a tuple; named tuples are tuples. -/
inductive TupleLike (env : Env) : Val → List Val → Prop
  | tuple {vs} : TupleLike env (.tuple vs) vs
  | named {c cd fs typed} : env.classes[c]? = some cd → cd.kind = .namedTuple typed →
      TupleLike env (.obj c fs) (fs.map Prod.snd)

/-- A key is an instance of a key type. -/
inductive KeyInst : Key → KeyTy → Prop
  | str {s} : KeyInst (.str s) .str
  | int {i} : KeyInst (.int i) .int
  | enum {e m} : KeyInst (.enum e m) (.enum e)

/-- `v` is an instance of `t`, with the subclasses of Python: `bool` of `int`, `datetime` of `date`, named tuples of
`tuple`.  `L` relates the lengths of a tuple and of its type: equality, except for describing what the code does. -/
inductive InstOf (env : Env) (L : Nat → Nat → Prop) : Val → Ty → Prop
  | none : InstOf env L .none .none
  | bool {b} : InstOf env L (.bool b) .bool
  | int {i} : InstOf env L (.int i) .int
  | boolInt {b} : InstOf env L (.bool b) .int
  | float {f} : InstOf env L (.float f) .float
  | str {s} : InstOf env L (.str s) .str
  | bytes {b} : InstOf env L (.bytes b) .bytes
  | datetime {d} : InstOf env L (.datetime d) .datetime
  | date {d} : InstOf env L (.date d) .date
  | datetimeDate {d} : InstOf env L (.datetime d) .date
  | time {t} : InstOf env L (.time t) .time
  | timedelta {d} : InstOf env L (.timedelta d) .timedelta
  | uuid {n} : InstOf env L (.uuid n) .uuid
  | ipv4 {n} : InstOf env L (.ipv4 n) .ipv4
  | ipv6 {n s} : InstOf env L (.ipv6 n s) .ipv6
  | bareList {vs} : InstOf env L (.list vs) .bareList
  | bareSet {vs} : InstOf env L (.set vs) .bareSet
  | bareDict {kvs} : InstOf env L (.dict kvs) .bareDict
  | bareTuple {v vs} : TupleLike env v vs → InstOf env L v .bareTuple
  | enum {e m} : InstOf env L (.enum e m) (.enum e)
  | cls {c fs} : InstOf env L (.obj c fs) (.cls c)
  | list {vs t} : (∀ v ∈ vs, InstOf env L v t) → InstOf env L (.list vs) (.list t)
  | set {vs t} : (∀ v ∈ vs, InstOf env L v t) → InstOf env L (.set vs) (.set t)
  | dict {kvs k t} : (∀ kv ∈ kvs, KeyInst kv.1 k) → (∀ kv ∈ kvs, InstOf env L kv.2 t) → InstOf env L (.dict kvs) (.dict k t)
  | tuple {v vs ts} : TupleLike env v vs → L vs.length ts.length →
      (∀ (i : Nat) w t, vs[i]? = some w → ts[i]? = some t → InstOf env L w t) → InstOf env L v (.tuple ts)
  | union {v ts t} : t ∈ ts → InstOf env L v t → InstOf env L v (.union ts)
  | annotated {v t ms} : InstOf env L v t → InstOf env L v (.annotated t ms)
  | literal {v ls l} : l ∈ ls → v = l.toVal → InstOf env L v (.literal ls)

/-- `v` is a value of the type `t`. -/
abbrev Instance (env : Env) (v : Val) (t : Ty) : Prop := InstOf env (fun m n => m = n) v t

/-- Types without `Annotated` and `Literal`, with modelled key types, and with fixed-length tuples only if `tup`. -/
inductive PlainTy (tup : Prop) : Ty → Prop
  | atom {t} : t.isType = true → PlainTy tup t
  | list {t} : PlainTy tup t → PlainTy tup (.list t)
  | set {t} : PlainTy tup t → PlainTy tup (.set t)
  | dict {k t} : k ≠ .other → PlainTy tup t → PlainTy tup (.dict k t)
  | tuple {ts} : tup → (∀ t ∈ ts, PlainTy tup t) → PlainTy tup (.tuple ts)
  | union {ts} : (∀ t ∈ ts, PlainTy tup t) → PlainTy tup (.union ts)

/-! ### Members -/

/-- Types of scalars. -/
inductive ScalarTy : Ty → Prop
  | none : ScalarTy .none
  | bool : ScalarTy .bool
  | int : ScalarTy .int
  | float : ScalarTy .float
  | str : ScalarTy .str
  | bytes : ScalarTy .bytes
  | datetime : ScalarTy .datetime
  | date : ScalarTy .date
  | time : ScalarTy .time
  | timedelta : ScalarTy .timedelta
  | uuid : ScalarTy .uuid
  | ipv4 : ScalarTy .ipv4
  | ipv6 : ScalarTy .ipv6

/-- The type of a value when nothing is declared. -/
inductive OwnTy : Val → Ty → Prop
  | none : OwnTy .none .none
  | bool {b} : OwnTy (.bool b) .bool
  | int {i} : OwnTy (.int i) .int
  | float {f} : OwnTy (.float f) .float
  | str {s} : OwnTy (.str s) .str
  | bytes {b} : OwnTy (.bytes b) .bytes
  | datetime {d} : OwnTy (.datetime d) .datetime
  | date {d} : OwnTy (.date d) .date
  | time {t} : OwnTy (.time t) .time
  | timedelta {d} : OwnTy (.timedelta d) .timedelta
  | uuid {n} : OwnTy (.uuid n) .uuid
  | ipv4 {n} : OwnTy (.ipv4 n) .ipv4
  | ipv6 {n s} : OwnTy (.ipv6 n s) .ipv6
  | enum {e m} : OwnTy (.enum e m) (.enum e)
  | list {vs} : OwnTy (.list vs) .bareList
  | set {vs} : OwnTy (.set vs) .bareSet
  | dict {kvs} : OwnTy (.dict kvs) .bareDict
  | tuple {vs} : OwnTy (.tuple vs) .bareTuple
  | obj {c fs} : OwnTy (.obj c fs) (.cls c)

/-- `PartOf env t v t' v'`: the value `v` of type `t` contains `v'` of type `t'`, which is a scalar, a member of an
enumeration, or has a union or literal type.  Items without a declared type have their own type. -/
inductive PartOf (env : Env) : Ty → Val → Ty → Val → Prop
  | scalar {t v} : ScalarTy t → PartOf env t v t v
  | enum {e v} : PartOf env (.enum e) v (.enum e) v
  | union {ts v} : PartOf env (.union ts) v (.union ts) v
  | literal {ls v} : PartOf env (.literal ls) v (.literal ls) v
  | annotated {t ms v t' v'} : PartOf env t v t' v' → PartOf env (.annotated t ms) v t' v'
  | list {t vs w t' v'} : w ∈ vs → PartOf env t w t' v' → PartOf env (.list t) (.list vs) t' v'
  | set {t vs w t' v'} : w ∈ vs → PartOf env t w t' v' → PartOf env (.set t) (.set vs) t' v'
  | dict {k t kvs kv t' v'} : kv ∈ kvs → PartOf env t kv.2 t' v' → PartOf env (.dict k t) (.dict kvs) t' v'
  | tuple {ts vs t w t' v'} (i : Nat) : ts[i]? = some t → vs[i]? = some w → PartOf env t w t' v' →
      PartOf env (.tuple ts) (.tuple vs) t' v'
  | field {c cd fs f w t' v'} (i : Nat) : env.classes[c]? = some cd → cd.kind ≠ .namedTuple false → cd.fields[i]? = some f →
      fs[i]? = some w → PartOf env f.ty w.2 t' v' → PartOf env (.cls c) (.obj c fs) t' v'
  | untyped {c cd fs w u t' v'} : env.classes[c]? = some cd → cd.kind = .namedTuple false → w ∈ fs → OwnTy w.2 u →
      PartOf env u w.2 t' v' → PartOf env (.cls c) (.obj c fs) t' v'
  | bareList {vs w u t' v'} : w ∈ vs → OwnTy w u → PartOf env u w t' v' → PartOf env .bareList (.list vs) t' v'
  | bareSet {vs w u t' v'} : w ∈ vs → OwnTy w u → PartOf env u w t' v' → PartOf env .bareSet (.set vs) t' v'
  | bareTuple {vs w u t' v'} : w ∈ vs → OwnTy w u → PartOf env u w t' v' → PartOf env .bareTuple (.tuple vs) t' v'
  | bareDict {kvs kv u t' v'} : kv ∈ kvs → OwnTy kv.2 u → PartOf env u kv.2 t' v' →
      PartOf env .bareDict (.dict kvs) t' v'

/-- Types that the checker looks into: scalars but IP addresses, enumerations, unions, containers with declared item types,
and classes of the set `G`. -/
inductive CheckTy (G : Nat → Prop) : Ty → Prop
  | scalar {t} : ScalarTy t → t ≠ .ipv4 → t ≠ .ipv6 → CheckTy G t
  | enum {e} : CheckTy G (.enum e)
  | union {ts} : CheckTy G (.union ts)
  | list {t} : CheckTy G t → CheckTy G (.list t)
  | set {t} : CheckTy G t → CheckTy G (.set t)
  | dict {k t} : CheckTy G t → CheckTy G (.dict k t)
  | tuple {ts} : (∀ t ∈ ts, CheckTy G t) → CheckTy G (.tuple ts)
  | cls {c} : G c → CheckTy G (.cls c)

mutual
/-- No annotations at any level. -/
inductive NoAnn : Ty → Prop
  | atom {t} : t.isType = true → NoAnn t
  | literal {ls} : NoAnn (.literal ls)
  | list {t} : NoAnn t → NoAnn (.list t)
  | set {t} : NoAnn t → NoAnn (.set t)
  | dict {k t} : NoAnn t → NoAnn (.dict k t)
  | tuple {ts} : NoAnnL ts → NoAnn (.tuple ts)
  | union {ts} : NoAnnL ts → NoAnn (.union ts)
/-- The same for all types of a list. -/
inductive NoAnnL : List Ty → Prop
  | nil : NoAnnL []
  | cons {t ts} : NoAnn t → NoAnnL ts → NoAnnL (t :: ts)
end

/-- The classes of `G` have fields that the checker looks into; those of named tuples have no annotations. -/
structure CheckEnv (env : Env) (G : Nat → Prop) : Prop where
  names : ∀ c cd, G c → env.classes[c]? = some cd → (cd.fields.map FieldDef.name).Nodup
  fields : ∀ c cd, G c → env.classes[c]? = some cd → ∀ f ∈ cd.fields, CheckTy G f.ty
  typed : ∀ c cd, G c → env.classes[c]? = some cd → cd.kind ≠ .namedTuple false
  noAnn : ∀ c cd, G c → env.classes[c]? = some cd → cd.kind = .namedTuple true → ∀ f ∈ cd.fields, NoAnn f.ty

end Verif
