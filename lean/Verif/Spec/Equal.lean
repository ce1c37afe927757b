import Verif.Spec.Typing
import Verif.Model.Serializer
/-!
# Equal Python objects and equal JSON values

What `a is b or a == b` means for the objects that can be written, and for JSON values, stated without the serializer.
-/
namespace Verif

/-- `v is w or v == w` in Python, for the objects of the model.  Numbers compare by value, containers by their members, data
classes with the generated `__eq__` by their attributes in order if they are of the same class, instances of other classes only
to themselves.  With `cross = false` the following are left out: times and date-times with different UTC offsets, sets that are
iterated in a different order, and named tuples compared with tuples or with named tuples of another class. -/
inductive PyEqual (env : Env) (cross : Bool) : Val → Val → Prop
  | same {v} : PyEqual env cross v v
  | scalar {v w a b} : v.scalar = some a → w.scalar = some b → a.pyEq b = true → PyEqual env cross v w
  | datetime {a b} : cross = true → dateTimeEq a b = true → PyEqual env cross (.datetime a) (.datetime b)
  | time {a b} : cross = true → timeEq a b = true → PyEqual env cross (.time a) (.time b)
  | list {vs ws} : vs.length = ws.length →
      (∀ (i : Nat) v w, vs[i]? = some v → ws[i]? = some w → PyEqual env cross v w) → PyEqual env cross (.list vs) (.list ws)
  | tuple {vs ws} : vs.length = ws.length →
      (∀ (i : Nat) v w, vs[i]? = some v → ws[i]? = some w → PyEqual env cross v w) → PyEqual env cross (.tuple vs) (.tuple ws)
  | set {vs ws} : vs.length = ws.length →
      (∀ (i : Nat) v w, vs[i]? = some v → ws[i]? = some w → PyEqual env cross v w) → PyEqual env cross (.set vs) (.set ws)
  | sets {vs ws us} : cross = true → ws.Perm us → vs.length = us.length →
      (∀ (i : Nat) v w, vs[i]? = some v → us[i]? = some w → PyEqual env cross v w) → PyEqual env cross (.set vs) (.set ws)
  | dict {kvs kws} : (kvs.map Prod.fst).Perm (kws.map Prod.fst) →
      (∀ k v w, (k, v) ∈ kvs → (k, w) ∈ kws → PyEqual env cross v w) → PyEqual env cross (.dict kvs) (.dict kws)
  | dataclass {c frozen fs gs} : env.kind c = some (.dataclass frozen) → fs.length = gs.length →
      (∀ (i : Nat) v w, fs[i]? = some v → gs[i]? = some w → PyEqual env cross v.2 w.2) → PyEqual env cross (.obj c fs) (.obj c gs)
  | named {c typed fs gs} : env.kind c = some (.namedTuple typed) → fs.length = gs.length →
      (∀ (i : Nat) v w, fs[i]? = some v → gs[i]? = some w → PyEqual env cross v.2 w.2) → PyEqual env cross (.obj c fs) (.obj c gs)
  | nameds {c d typed typed' fs gs} : cross = true → env.kind c = some (.namedTuple typed) →
      env.kind d = some (.namedTuple typed') → fs.length = gs.length →
      (∀ (i : Nat) v w, fs[i]? = some v → gs[i]? = some w → PyEqual env cross v.2 w.2) → PyEqual env cross (.obj c fs) (.obj d gs)
  | namedTuple {c typed fs ws} : cross = true → env.kind c = some (.namedTuple typed) → fs.length = ws.length →
      (∀ (i : Nat) v w, fs[i]? = some v → ws[i]? = some w → PyEqual env cross v.2 w) → PyEqual env cross (.obj c fs) (.tuple ws)
  | tupleNamed {c typed vs gs} : cross = true → env.kind c = some (.namedTuple typed) → vs.length = gs.length →
      (∀ (i : Nat) v w, vs[i]? = some v → gs[i]? = some w → PyEqual env cross v w.2) → PyEqual env cross (.tuple vs) (.obj c gs)

/-- `j is k or j == k` for JSON values: objects do not have an order. -/
inductive JsonEqual : Json → Json → Prop
  | same {j} : JsonEqual j j
  | scalar {j k a b} : j.scalar = some a → k.scalar = some b → a.pyEq b = true → JsonEqual j k
  | arr {xs ys} : xs.length = ys.length → (∀ (i : Nat) x y, xs[i]? = some x → ys[i]? = some y → JsonEqual x y) →
      JsonEqual (.arr xs) (.arr ys)
  | obj {ps qs} : (∀ s, s ∈ ps.map Prod.fst ↔ s ∈ qs.map Prod.fst) →
      (∀ s x y, lookupKey s ps = some x → lookupKey s qs = some y → JsonEqual x y) → JsonEqual (.obj ps) (.obj qs)

/-- Both calls return, equal JSON, or both raise. -/
def EqualOutcome (r s : Res Json) : Prop :=
  (∃ j k, r = .ok j ∧ s = .ok k ∧ JsonEqual j k) ∨ ∃ e e', r = .error e ∧ s = .error e'

/-- The keys of a dictionary are of one kind: all strings, all integers, or all members of one enumeration. -/
def KeysAlike (env : Env) (ks : List Key) : Prop :=
  (∀ k ∈ ks, ∃ s, k = .str s) ∨ (∀ k ∈ ks, ∃ i, k = .int i) ∨
    ∃ e ed, env.enums[e]? = some ed ∧ ∀ k ∈ ks, ∃ m, k = .enum e m ∧ m < ed.members.length

/-- Instances of classes in a value have the attributes that their class declares, and the keys of dictionaries are distinct and
of one kind. -/
inductive Tidy (env : Env) : Val → Prop
  | leaf {v} : (∀ vs, v ≠ .list vs) → (∀ vs, v ≠ .set vs) → (∀ vs, v ≠ .tuple vs) → (∀ kvs, v ≠ .dict kvs) →
      (∀ c fs, v ≠ .obj c fs) → Tidy env v
  | list {vs} : (∀ v ∈ vs, Tidy env v) → Tidy env (.list vs)
  | set {vs} : (∀ v ∈ vs, Tidy env v) → Tidy env (.set vs)
  | tuple {vs} : (∀ v ∈ vs, Tidy env v) → Tidy env (.tuple vs)
  | dict {kvs} : (kvs.map Prod.fst).Nodup → KeysAlike env (kvs.map Prod.fst) → (∀ kv ∈ kvs, Tidy env kv.2) →
      Tidy env (.dict kvs)
  | obj {c fs} : HasTy env (.obj c fs) (.cls c) → (∀ kv ∈ fs, Tidy env kv.2) → Tidy env (.obj c fs)

/-- The `to_json` methods of a program do not distinguish equal objects. -/
def Env.HooksRespect (env : Env) : Prop :=
  ∀ cd ∈ env.classes, ∀ f, cd.toJson = some f → ∀ v w, PyEqual env false v w → EqualOutcome (f v) (f w)

end Verif
