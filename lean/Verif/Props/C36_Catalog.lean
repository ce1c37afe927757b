import Verif.Lemmas.Catalog
/-!
# C36: the schema catalog is a write-once map

All theorems quantify over every sequence of calls of `register_schema`, starting from the empty catalog, with successful
and failing calls in any order, and over every naming function.
-/
namespace Verif

variable {κ σ ε : Type} [DecidableEq κ] (nameOf : TypeRef κ → Res Str)

/-- C36, full statement: a type is known iff it was registered; a lookup gives the first registration; registering a known
type raises `ValueError` and changes nothing; two types do not share a name. -/
def C36_statement (nameOf : TypeRef κ → Res Str) (h : List (RegCall κ σ ε)) : Prop :=
  let cat := registerAll nameOf h Catalog.empty
  (∀ t, cat.contains (.ty t) = true ↔ EverReg nameOf h t) ∧
  (∀ t e, cat.get (.ty t) = .ok e ↔ FirstReg nameOf h t e) ∧
  (∀ c t n, c.Is nameOf t n → EverReg nameOf h t → register nameOf c cat = (.error .valueError, cat)) ∧
  (∀ t t' e e', cat.get (.ty t) = .ok e → cat.get (.ty t') = .ok e' → e.identifier = e'.identifier → t = t')

/-- C36: a type is known iff some call of the history registered it. -/
theorem C36_known (h : List (RegCall κ σ ε)) (t : κ) :
    (registerAll nameOf h Catalog.empty).contains (.ty t) = true ↔ EverReg nameOf h t := by
  have := (registerAll_lookup (nameOf := nameOf) h).1 t
  simp only [Catalog.contains]
  cases hl : lookupKey t (registerAll nameOf h Catalog.empty).byType with
  | none => simp [this.mp hl]
  | some e =>
    simp only [Option.isSome_some, true_iff]
    refine Classical.byContradiction fun hn => ?_
    rw [this.mpr hn] at hl; cases hl

/-- C36: looking up a type gives what its first registration says, and `KeyError` if there is none. -/
theorem C36_lookup (h : List (RegCall κ σ ε)) (t : κ) :
    (∀ e, (registerAll nameOf h Catalog.empty).get (.ty t) = .ok e ↔ FirstReg nameOf h t e) ∧
    (∀ e, (registerAll nameOf h Catalog.empty).get (.ty t) = .error e ↔ e = .key ∧ ¬ EverReg nameOf h t) := by
  obtain ⟨h1, h2, -⟩ := registerAll_lookup (nameOf := nameOf) h
  simp only [Catalog.get]
  constructor
  · intro e
    rw [← h2]
    cases lookupKey t (registerAll nameOf h Catalog.empty).byType <;> simp
  · intro e
    rw [← h1]
    cases lookupKey t (registerAll nameOf h Catalog.empty).byType <;> simp [eq_comm]

/-- C36: a call for a new type succeeds; a call for a known type raises `ValueError` and changes nothing. -/
theorem C36_write_once (h : List (RegCall κ σ ε)) (c : RegCall κ σ ε) (t : κ) (n : Str) (hc : c.Is nameOf t n) :
    (EverReg nameOf h t → register nameOf c (registerAll nameOf h Catalog.empty) =
      (.error .valueError, registerAll nameOf h Catalog.empty)) ∧
    (¬ EverReg nameOf h t → (register nameOf c (registerAll nameOf h Catalog.empty)).1 = .ok ()) := by
  obtain ⟨h1, -, -⟩ := registerAll_lookup (nameOf := nameOf) h
  generalize registerAll nameOf h Catalog.empty = cat at h1 ⊢
  rcases register_cases (nameOf := nameOf) c cat with ⟨t', n', hi, hn, hr, -⟩ | ⟨er, hr1, hr2, he⟩
  · have := hi.ty_unique hc
    subst this
    exact ⟨fun hr => absurd hr ((h1 t').mp hn), fun _ => hr⟩
  · obtain ⟨rfl, hne⟩ := he t n hc
    constructor
    · intro _
      exact Prod.ext hr1 hr2
    · intro hr
      exact absurd ((h1 t).mpr hr) hne

/-- C36: whatever a call does, it does not change what is known about the types registered before. -/
theorem C36_stable (h h' : List (RegCall κ σ ε)) (t : κ) (e : CatEntry σ ε)
    (hg : (registerAll nameOf h Catalog.empty).get (.ty t) = .ok e) :
    (registerAll nameOf (h ++ h') Catalog.empty).get (.ty t) = .ok e := by
  rw [(C36_lookup nameOf _ t).1] at hg ⊢
  obtain ⟨pre, c, post, rfl, h2, h3⟩ := hg
  exact ⟨pre, c, post ++ h', by simp, h2, h3⟩

/-- C36: a forward reference is looked up by name and gives the latest type registered under this name. -/
theorem C36_by_name (h : List (RegCall κ σ ε)) (n : Str) (e : CatEntry σ ε) :
    (registerAll nameOf h Catalog.empty).get (.fwd n) = .ok e ↔ LastNamed nameOf h n e := by
  rw [← (registerAll_lookup (nameOf := nameOf) h).2.2]
  simp only [Catalog.get]
  cases lookupKey n (registerAll nameOf h Catalog.empty).byName <;> simp

/-- C36: the identifier of a type is the name of its first registration; a type that was not registered has none. -/
theorem C36_identifier (h : List (RegCall κ σ ε)) (t : κ) :
    (∀ n, getSchemaIdentifier (registerAll nameOf h Catalog.empty) (.ty t) = .ok (some n) ↔
      ∃ e, FirstReg nameOf h t e ∧ e.identifier = n) ∧
    (getSchemaIdentifier (registerAll nameOf h Catalog.empty) (.ty t) = .ok none ↔ ¬ EverReg nameOf h t) := by
  have hk := C36_known nameOf h t
  have hl := C36_lookup nameOf h t
  unfold getSchemaIdentifier
  cases hg : (registerAll nameOf h Catalog.empty).get (.ty t) with
  | ok e =>
    have hf := (hl.1 e).1 hg
    have hu : ∀ e', FirstReg nameOf h t e' → e' = e := fun e' h' => by
      have := (hl.1 e').2 h'; rw [hg] at this; cases this; rfl
    have he : EverReg nameOf h t := by
      obtain ⟨pre, c, post, rfl, h4, -⟩ := hf
      exact ⟨c, by simp, _, h4.1⟩
    rw [if_pos (hk.2 he)]
    refine ⟨fun n => ⟨fun h' => ⟨e, hf, by cases h'; rfl⟩, ?_⟩, ⟨fun h' => by simp at h', fun h' => absurd he h'⟩⟩
    rintro ⟨e', h', rfl⟩
    rw [hu e' h']
  | error er =>
    obtain ⟨-, hn⟩ := (hl.2 er).1 hg
    rw [if_neg fun h' => hn (hk.1 h')]
    refine ⟨fun n => ⟨fun h' => by simp at h', ?_⟩, ⟨fun _ => hn, fun _ => rfl⟩⟩
    rintro ⟨e', h', -⟩
    have := (hl.1 e').2 h'
    rw [hg] at this
    cases this

/-- C36: a forward reference cannot be registered. -/
theorem C36_forward (h : List (RegCall κ σ ε)) (c : RegCall κ σ ε) (n : Str) (hc : c.ty = .fwd n) :
    ∃ e, register nameOf c (registerAll nameOf h Catalog.empty) = (.error e, registerAll nameOf h Catalog.empty) ∧
      (c.name ≠ none → e = .typeError) := by
  unfold register
  cases hn : c.name with
  | some m => exact ⟨.typeError, by simp [Catalog.add, hc], fun _ => rfl⟩
  | none =>
    cases hm : nameOf c.ty with
    | ok m => exact ⟨.typeError, by simp [Catalog.add, hc], fun h => absurd rfl h⟩
    | error e => exact ⟨e, by simp, fun h => absurd rfl h⟩

/-- C36 in part: if the history never uses a name for two types, the full statement holds, and looking up by name is the
same as looking up by type.  Missing: types registered under the same name, see `C36_violated`. -/
theorem C36_partial (h : List (RegCall κ σ ε))
    (hn : ∀ c ∈ h, ∀ c' ∈ h, ∀ t t' n, c.Is nameOf t n → c'.Is nameOf t' n → t = t') :
    C36_statement nameOf h ∧
    ∀ t e, (registerAll nameOf h Catalog.empty).get (.ty t) = .ok e →
      (registerAll nameOf h Catalog.empty).get (.fwd e.identifier) = .ok e := by
  refine ⟨⟨C36_known nameOf h, fun t => (C36_lookup nameOf h t).1, fun c t n hc => (C36_write_once nameOf h c t n hc).1,
    fun t t' e e' h1 h2 h3 => ?_⟩, fun t e h1 => ?_⟩
  · rw [(C36_lookup nameOf _ _).1] at h1 h2
    obtain ⟨pre, c, post, rfl, h4, -⟩ := h1
    obtain ⟨pre', c', post', h5, h6, -⟩ := h2
    exact hn c (by simp) c' (by rw [h5]; simp) t t' _ h4.1 (h3 ▸ h6.1)
  · rw [C36_by_name]
    rw [(C36_lookup nameOf _ _).1] at h1
    obtain ⟨pre, c, post, rfl, h4, h5⟩ := h1
    refine ⟨pre, c, post, t, rfl, h4, rfl, h5, ?_⟩
    rintro pre' c' post' t' rfl hi
    have := hn c (by simp) c' (by simp) t t' _ h4.1 hi
    subst this
    exact ⟨c, by simp, _, h4.1⟩

/-- C36 is violated in general: two types with the same short name, say classes `Item` of two modules, get the same
identifier, and the later one takes over the name. -/
theorem C36_violated : ∃ (nameOf : TypeRef Nat → Res Str) (h : List (RegCall Nat Unit Unit)), ¬ C36_statement nameOf h ∧
    ∃ e e', (registerAll nameOf h Catalog.empty).get (.ty 1) = .ok e ∧
      (registerAll nameOf h Catalog.empty).get (.fwd e.identifier) = .ok e' ∧ e.schema ≠ e'.schema := by
  refine ⟨fun _ => .ok c!"Item", [{ ty := .ty 1 }, { ty := .ty 2, schema := some () }], ?_,
    ⟨none, c!"Item", none⟩, ⟨some (), c!"Item", none⟩, rfl, rfl, by simp⟩
  intro hs
  have := hs.2.2.2 1 2 ⟨none, c!"Item", none⟩ ⟨some (), c!"Item", none⟩ rfl rfl rfl
  simp at this

/-! ### Examples -/

/-- Three calls, the last of which fails. -/
def exampleCalls : List (RegCall Nat Str Unit) :=
  [{ ty := .ty 1, name := some c!"A" }, { ty := .ty 2, schema := some c!"s", name := some c!"B" },
   { ty := .ty 1, schema := some c!"t", name := some c!"C" }]

example : (registerAll (fun _ => .error .typeError) exampleCalls Catalog.empty).get (.ty 1) =
    .ok ⟨none, c!"A", none⟩ := rfl
example : (registerAll (fun _ => .error .typeError) exampleCalls Catalog.empty).get (.fwd c!"C") = .error .key := rfl
example : (registerAll (fun _ => .error .typeError) exampleCalls Catalog.empty).get (.fwd c!"B") =
    .ok ⟨some c!"s", c!"B", none⟩ := rfl
example : ∀ c ∈ exampleCalls, ∀ c' ∈ exampleCalls, ∀ t t' n, c.Is (fun _ => .error .typeError) t n →
    c'.Is (fun _ => .error .typeError) t' n → t = t' := by
  intro c hc c' hc' t t' n h h'
  obtain ⟨h1, h2⟩ := h
  obtain ⟨h1', h2'⟩ := h'
  simp only [exampleCalls, List.mem_cons, List.not_mem_nil, or_false] at hc hc'
  rcases hc with rfl | rfl | rfl <;> rcases hc' with rfl | rfl | rfl <;> simp_all [TypeRef.ty.injEq] <;>
    first | omega | (subst h2; simp at h2')

end Verif
