import Verif.Spec.SchemaRefs
import Verif.Spec.Env
import Verif.Lemmas.Schema
import Verif.Lemmas.SchemaMeta
/-!
# Lemmas on references in generated schemas
-/
namespace Verif

/-! ### References and keywords -/

/-- Keywords that hold references or schemas. -/
def refKeys : List Str :=
  [c!"$ref", c!"items", c!"additionalProperties", c!"propertyNames", c!"oneOf", c!"prefixItems", c!"properties"]

theorem hasRef_mono {a b : List (Str × Json)} (h : ∀ k ∈ refKeys, ∀ x, (k, x) ∈ a → (k, x) ∈ b) {r : Str}
    (hr : HasRef (.obj a) r) : HasRef (.obj b) r := by
  cases hr with
  | here h1 => exact .here (h _ (by decide) _ h1)
  | single h1 h2 h3 =>
    refine .single h1 (h _ ?_ _ h2) h3
    simp only [List.mem_cons, List.not_mem_nil, or_false] at h1
    rcases h1 with rfl | rfl | rfl <;> decide
  | many h1 h2 h3 h4 =>
    refine .many h1 (h _ ?_ _ h2) h3 h4
    simp only [List.mem_cons, List.not_mem_nil, or_false] at h1
    rcases h1 with rfl | rfl <;> decide
  | property h1 h2 h3 => exact .property (h _ (by decide) _ h1) h2 h3

theorem not_hasRef {a : List (Str × Json)} (h : ∀ k ∈ refKeys, k ∉ a.map Prod.fst) (r : Str) : ¬ HasRef (.obj a) r := by
  intro hr
  have : HasRef (.obj []) r := hasRef_mono (fun k hk x hx => absurd (List.mem_map.2 ⟨_, hx, rfl⟩) (h k hk)) hr
  cases this with
  | here h => cases h
  | single _ h => cases h
  | many _ h => cases h
  | property h => cases h

theorem not_hasRef_bool (b : Bool) (r : Str) : ¬ HasRef (.bool b) r := by intro h; cases h

theorem mem_upsert_other {k k' : Str} {v x : Json} {l : List (Str × Json)} (h : k ≠ k') :
    (k', x) ∈ upsert k v l ↔ (k', x) ∈ l := by
  induction l with
  | nil => simp [upsert, Ne.symm h]
  | cons p l ih =>
    obtain ⟨k2, v2⟩ := p
    simp only [upsert]
    split
    · rename_i he
      subst he
      simp [Ne.symm h]
    · simp [ih]

theorem hasRef_upsert {k : Str} {v : Json} {l : List (Str × Json)} (h : k ∉ refKeys) (r : Str) :
    HasRef (.obj (upsert k v l)) r ↔ HasRef (.obj l) r := by
  constructor
  · exact hasRef_mono fun k' hk' x hx => (mem_upsert_other (by rintro rfl; exact h hk')).1 hx
  · exact hasRef_mono fun k' hk' x hx => (mem_upsert_other (by rintro rfl; exact h hk')).2 hx

theorem hasRef_ref (r r' : Str) : HasRef (.obj [(c!"$ref", .str r')]) r ↔ r = r' := by
  constructor
  · intro h
    cases h with
    | here h => simp at h; exact h
    | single h1 h2 => simp at h2; obtain ⟨rfl, _⟩ := h2; exact absurd h1 (by decide)
    | many h1 h2 => simp at h2
    | property h => simp at h
  · rintro rfl; exact .here (by simp)

theorem hasRef_items {s : Json} {l : List (Str × Json)} {k r : Str}
    (hk : k ∈ [c!"items", c!"additionalProperties", c!"propertyNames"]) (hm : (k, s) ∈ l)
    (ho : ∀ k' ∈ refKeys, ∀ x, (k', x) ∈ l → k' = k ∧ x = s) : HasRef (.obj l) r ↔ HasRef s r := by
  have hne : k ≠ c!"$ref" ∧ k ≠ c!"oneOf" ∧ k ≠ c!"prefixItems" ∧ k ≠ c!"properties" := by
    simp only [List.mem_cons, List.not_mem_nil, or_false] at hk
    rcases hk with rfl | rfl | rfl <;> decide
  constructor
  · intro h
    cases h with
    | here h => exact absurd (ho _ (by decide) _ h).1.symm hne.1
    | single h1 h2 h3 =>
      have := (ho _ (by
        simp only [List.mem_cons, List.not_mem_nil, or_false] at h1
        rcases h1 with rfl | rfl | rfl <;> decide) _ h2).2
      exact this ▸ h3
    | many h1 h2 =>
      simp only [List.mem_cons, List.not_mem_nil, or_false] at h1
      rcases h1 with rfl | rfl
      · exact absurd (ho _ (by decide) _ h2).1.symm hne.2.1
      · exact absurd (ho _ (by decide) _ h2).1.symm hne.2.2.1
    | property h => exact absurd (ho _ (by decide) _ h).1.symm hne.2.2.2
  · intro h; exact .single hk hm h

theorem hasRef_many {ss : List Json} {l : List (Str × Json)} {k r : Str}
    (hk : k ∈ [c!"oneOf", c!"prefixItems"]) (hm : (k, Json.arr ss) ∈ l)
    (ho : ∀ k' ∈ refKeys, ∀ x, (k', x) ∈ l → k' = k ∧ x = .arr ss) : HasRef (.obj l) r ↔ ∃ s ∈ ss, HasRef s r := by
  have hne : k ≠ c!"$ref" ∧ k ≠ c!"items" ∧ k ≠ c!"additionalProperties" ∧ k ≠ c!"propertyNames" ∧ k ≠ c!"properties" := by
    simp only [List.mem_cons, List.not_mem_nil, or_false] at hk
    rcases hk with rfl | rfl <;> decide
  constructor
  · intro h
    cases h with
    | here h => exact absurd (ho _ (by decide) _ h).1.symm hne.1
    | single h1 h2 h3 =>
      simp only [List.mem_cons, List.not_mem_nil, or_false] at h1
      rcases h1 with rfl | rfl | rfl
      · exact absurd (ho _ (by decide) _ h2).1.symm hne.2.1
      · exact absurd (ho _ (by decide) _ h2).1.symm hne.2.2.1
      · exact absurd (ho _ (by decide) _ h2).1.symm hne.2.2.2.1
    | many h1 h2 h3 h4 =>
      have := (ho _ (by
        simp only [List.mem_cons, List.not_mem_nil, or_false] at h1
        rcases h1 with rfl | rfl <;> decide) _ h2).2
      cases this
      exact ⟨_, h3, h4⟩
    | property h => exact absurd (ho _ (by decide) _ h).1.symm hne.2.2.2.2
  · rintro ⟨s, hs, h⟩; exact .many hk hm hs h

theorem hasRef_properties {ps : List (Str × Json)} {l : List (Str × Json)} {r : Str} (hm : (c!"properties", Json.obj ps) ∈ l)
    (ho : ∀ k' ∈ refKeys, ∀ x, (k', x) ∈ l →
      (k' = c!"properties" ∧ x = .obj ps) ∨ (k' = c!"additionalProperties" ∧ x = .bool false)) :
    HasRef (.obj l) r ↔ ∃ n s, (n, s) ∈ ps ∧ HasRef s r := by
  constructor
  · intro h
    cases h with
    | here h => rcases ho _ (by decide) _ h with h | h <;> exact absurd h.1 (by decide)
    | single h1 h2 h3 =>
      have := ho _ (by
        simp only [List.mem_cons, List.not_mem_nil, or_false] at h1
        rcases h1 with rfl | rfl | rfl <;> decide) _ h2
      rcases this with h | h
      · rw [h.1] at h1; exact absurd h1 (by decide)
      · rw [h.2] at h3; cases h3
    | many h1 h2 =>
      have := ho _ (by
        simp only [List.mem_cons, List.not_mem_nil, or_false] at h1
        rcases h1 with rfl | rfl <;> decide) _ h2
      rcases this with h | h <;> (rw [h.1] at h1; exact absurd h1 (by decide))
    | property h h2 h3 =>
      rcases ho _ (by decide) _ h with h | h
      · cases h.2; exact ⟨_, _, h2, h3⟩
      · exact absurd h.1 (by decide)
  · rintro ⟨n, s, h1, h2⟩; exact .property hm h1 h2

/-! ### An induction principle for generated schemas -/

/-- The argument is as the keyword demands, so that the check is decided without regard to other schemas. -/
def ArgOk (k : Str) (a : Json) : Prop :=
  a.Wf ∧ ∀ vc root f s v, (keywordCheck vc root f s (keywordOf k) a v).isSome = true

/-- Schemas without references and subschemas. -/
structure PlainSch (s : Sch) : Prop where
  nodup : (s.map Prod.fst).Nodup
  plain : ∀ k ∈ refKeys, k ∉ s.map Prod.fst
  other : c!"definitions" ∉ s.map Prod.fst ∧ c!"$schema" ∉ s.map Prod.fst
  args : ∀ ka ∈ s, ArgOk ka.1 ka.2

/-- A relation between schemas and recorded uses that is preserved by the steps of schema generation. -/
structure SchClosed (cfg : SchemaCfg) (env : Env) (cat : SchemaCatalog) (P : Sch → List TypeUse → Prop) : Prop where
  plain : ∀ s, PlainSch s → P s []
  ref : ∀ k t e, Ty.regKey t = some k → lookupKey k cat.byType = some e →
    P (refSch cfg e.identifier) [⟨e.identifier, .ty t, false⟩]
  list : ∀ s us, P s us → P [(c!"type", js c!"array"), (c!"items", .obj s)] us
  set : ∀ s us, P s us → P [(c!"type", js c!"array"), (c!"items", .obj s), (c!"uniqueItems", .bool true)] us
  dict : ∀ k s us s', P s us → dictSchema env k s = .ok s' → P s' us
  union : ∀ ps : List (Sch × List TypeUse), (∀ p ∈ ps, P p.1 p.2) →
    P [(c!"oneOf", .arr (ps.map fun p => .obj p.1))] (ps.map Prod.snd).flatten
  tuple : ∀ (n m : Int) (ps : List (Sch × List TypeUse)), (∀ p ∈ ps, P p.1 p.2) →
    P [(c!"type", js c!"array"), (c!"minItems", .int n), (c!"maxItems", .int m),
      (c!"prefixItems", .arr (ps.map fun p => .obj p.1))] (ps.map Prod.snd).flatten

theorem PlainSch.ofKeys {s : Sch} {ks : List Str} (hn : (s.map Prod.fst).Nodup) (hk : ∀ k ∈ s.map Prod.fst, k ∈ ks)
    (h : ∀ k ∈ c!"definitions" :: c!"$schema" :: refKeys, k ∉ ks) (ha : ∀ ka ∈ s, ArgOk ka.1 ka.2) : PlainSch s :=
  ⟨hn, fun k hk' hm => h k (by simp [hk']) (hk k hm), ⟨fun hm => h _ (by simp) (hk _ hm), fun hm => h _ (by simp) (hk _ hm)⟩, ha⟩

/-- Names of the JSON types. -/
def jsonTypeNames : List Str :=
  [c!"null", c!"boolean", c!"integer", c!"number", c!"string", c!"array", c!"object"]

theorem argOk_type {n : Str} (h : n ∈ jsonTypeNames) : ArgOk c!"type" (js n) := by
  refine ⟨.str, fun vc root f s v => ?_⟩
  simp only [jsonTypeNames, List.mem_cons, List.not_mem_nil, or_false] at h
  rcases h with rfl | rfl | rfl | rfl | rfl | rfl | rfl <;> rfl

theorem argOk_format (n : Str) : ArgOk c!"format" (js n) :=
  ⟨.str, by intro vc root f s v; cases v <;> rfl⟩

theorem argOk_pattern (n : Str) : ArgOk c!"pattern" (js n) :=
  ⟨.str, by intro vc root f s v; cases v <;> rfl⟩

theorem scalarTypeName_mem (s : Scalar) : scalarTypeName s ∈ jsonTypeNames := by
  cases s <;> simp [scalarTypeName, jsonTypeNames]

theorem args_simple {t : Ty} {s : Sch} (h : simpleSchema t = some s) : ∀ ka ∈ s, ArgOk ka.1 ka.2 := by
  cases t <;> simp only [simpleSchema, Option.some.injEq, reduceCtorEq] at h <;> subst h <;> intro ka hka <;>
    simp only [List.mem_cons, List.not_mem_nil, or_false] at hka
  all_goals first
    | (subst hka; exact argOk_type (by decide))
    | (rcases hka with rfl | rfl
       · exact argOk_type (by decide)
       · first | exact argOk_format _ | exact ⟨.str, fun _ _ _ _ _ => rfl⟩)

theorem args_upsert {k : Str} {a : Json} {s : Sch} (hs : ∀ ka ∈ s, ArgOk ka.1 ka.2) (ha : ArgOk k a) :
    ∀ ka ∈ upsert k a s, ArgOk ka.1 ka.2 := by
  intro ka hka
  rcases upsert_mem hka with rfl | h
  · exact ha
  · exact hs ka h

theorem args_update : ∀ (o s : Sch), (∀ ka ∈ s, ArgOk ka.1 ka.2) → (∀ ka ∈ o, ArgOk ka.1 ka.2) →
    ∀ ka ∈ updateSch s o, ArgOk ka.1 ka.2 := by
  intro o
  induction o with
  | nil => intro s h _; exact h
  | cons kv o ih => intro s h ho; exact ih _ (args_upsert h (ho kv (by simp))) (fun ka hka => ho ka (by simp [hka]))

theorem powTen_wf (cfg : SchemaCfg) (n : Int) : (powTen cfg n).Wf := by
  unfold powTen
  split
  · exact .int
  · exact .float

theorem negNum_wf {j : Json} (h : j.Wf) : (negNum j).Wf := by
  unfold negNum
  split
  · exact .int
  · exact .float
  · exact .float
  · exact h

theorem scalar_wf (s : Scalar) : s.toJson.Wf := by cases s <;> constructor

theorem args_withMeta (cfg : SchemaCfg) : ∀ (ms : List Meta) (s : Sch), (∀ ka ∈ s, ArgOk ka.1 ka.2) →
    ∀ ka ∈ withMeta cfg s ms, ArgOk ka.1 ka.2 := by
  intro ms
  induction ms with
  | nil => intro s h; exact h
  | cons m ms ih =>
    intro s h
    refine ih _ (args_update _ _ h ?_)
    intro ka hka
    cases m <;> simp only [metaSchema, List.mem_cons, List.not_mem_nil, or_false] at hka
    · rcases hka with rfl | rfl <;> refine ⟨.int, fun vc root f s v => ?_⟩ <;> cases v <;> rfl
    · rcases hka with rfl | rfl | rfl
      · exact ⟨powTen_wf _ _, fun vc root f s v => by cases v <;> rfl⟩
      · exact ⟨negNum_wf (powTen_wf _ _), fun vc root f s v => by cases v <;> rfl⟩
      · exact ⟨powTen_wf _ _, fun vc root f s v => by cases v <;> rfl⟩
    · subst hka; exact ⟨.int, fun vc root f s v => by cases v <;> rfl⟩
    · subst hka; exact ⟨.int, fun vc root f s v => by cases v <;> rfl⟩

/-- Keywords of schemas without references and subschemas. -/
def plainKeys : List Str :=
  [c!"type", c!"contentEncoding", c!"format", c!"enum", c!"const", c!"minimum", c!"maximum", c!"multipleOf",
   c!"exclusiveMinimum", c!"exclusiveMaximum", c!"minLength", c!"maxLength"]

theorem plainKeys_ok : ∀ k ∈ c!"definitions" :: c!"$schema" :: refKeys, k ∉ plainKeys := by decide

theorem plain_simple {t : Ty} {s : Sch} (h : simpleSchema t = some s) :
    (s.map Prod.fst).Nodup ∧ ∀ k ∈ s.map Prod.fst, k ∈ plainKeys := by
  cases t <;> simp only [simpleSchema, Option.some.injEq, reduceCtorEq] at h <;> subst h <;> decide

theorem updateSch_keys : ∀ (o s : Sch) (k : Str), k ∈ (updateSch s o).map Prod.fst →
    k ∈ s.map Prod.fst ∨ k ∈ o.map Prod.fst := by
  intro o
  induction o with
  | nil => intro s k h; exact Or.inl h
  | cons kv o ih =>
    intro s k h
    rcases ih _ _ h with h | h
    · rw [show (upsert kv.1 kv.2 s).map Prod.fst = _ from upsert_keys] at h
      split at h
      · exact Or.inl h
      · rcases List.mem_append.1 h with h | h
        · exact Or.inl h
        · simp at h; simp [h]
    · simp [h]

theorem plain_withMeta (cfg : SchemaCfg) : ∀ (ms : List Meta) (s : Sch), (∀ k ∈ s.map Prod.fst, k ∈ plainKeys) →
    ∀ k ∈ (withMeta cfg s ms).map Prod.fst, k ∈ plainKeys := by
  intro ms
  induction ms with
  | nil => intro s h; exact h
  | cons m ms ih =>
    intro s h
    refine ih _ ?_
    intro k hk
    rcases updateSch_keys _ _ _ hk with hk | hk
    · exact h k hk
    · clear h ih
      cases m <;> simp only [metaSchema, List.map_cons, List.map_nil, List.mem_cons, List.not_mem_nil, or_false] at hk
      · rcases hk with rfl | rfl <;> decide
      · rcases hk with rfl | rfl | rfl <;> decide
      · subst hk; decide
      · subst hk; decide

theorem plain_enumSchema {env : Env} {e : Nat} {s : Sch} (h : enumSchema env e = .ok s) : PlainSch s := by
  unfold enumSchema at h
  split at h
  · cases h
  · split at h
    · split at h
      · cases h
        refine PlainSch.ofKeys (ks := plainKeys) (by decide) (by decide) plainKeys_ok ?_
        intro ka hka
        rcases List.mem_singleton.1 hka with rfl
        exact argOk_type (by decide)
      · cases h
        refine PlainSch.ofKeys (ks := plainKeys) (by simp) (by simp [plainKeys]) plainKeys_ok ?_
        intro ka hka
        simp only [List.mem_cons, List.not_mem_nil, or_false] at hka
        rcases hka with rfl | rfl
        · exact argOk_type (scalarTypeName_mem _)
        · exact ⟨.arr fun x hx => by obtain ⟨m, _, rfl⟩ := List.mem_map.1 hx; exact scalar_wf _, fun _ _ _ _ _ => rfl⟩
      · cases h
    · cases h

theorem plain_litSchema {l : Lit} {s : Sch} (h : litSchema l = .ok s) : PlainSch s := by
  unfold litSchema at h
  split at h
  · cases h
  · cases h
    refine PlainSch.ofKeys (ks := plainKeys) (by simp) (by simp [plainKeys]) plainKeys_ok ?_
    intro ka hka
    simp only [List.mem_cons, List.not_mem_nil, or_false] at hka
    rcases hka with rfl | rfl
    · exact argOk_type (scalarTypeName_mem _)
    · exact ⟨scalar_wf _, fun _ _ _ _ _ => rfl⟩

variable {cfg : SchemaCfg} {env : Env} {cat : SchemaCatalog} {cls : Nat → SchRes Sch}

mutual
theorem tySchema_rec {P : Sch → List TypeUse → Prop} {OkName : RegKey → Bool → Prop} {fwd : Bool}
    (hP : SchClosed cfg env cat P) (hcls : ∀ c s us, cls c = .ok (s, us) → P s us)
    (hname : ∀ k b s us, OkName k b → nameSchema cfg env cat b k = .ok (s, us) → P s us) :
    ∀ (t : Ty) (skip : Bool) (s : Sch) (us : List TypeUse), (fwd = true → ∀ k b, Occurs skip t k b → OkName k b) →
      tySchema cfg env cat cls fwd skip t = .ok (s, us) → P s us
  | .annotated t ms, skip, s, us, ho, h => by
    have ih := tySchema_rec (fwd := fwd) hP hcls hname t true
    simp only [tySchema] at h
    split at h
    · rename_i s0 hs
      obtain ⟨h1, h2⟩ := plain_simple hs
      split at h
      · cases h
        refine hP.plain _ (PlainSch.ofKeys (ks := plainKeys) (upsert_nodup h1) ?_ plainKeys_ok
          (args_upsert (args_simple hs) (argOk_format _)))
        intro k hk
        rw [show (upsert _ _ s0).map Prod.fst = _ from upsert_keys] at hk
        split at hk
        · exact h2 k hk
        · rcases List.mem_append.1 hk with hk | hk
          · exact h2 k hk
          · simp at hk; rw [hk]; decide
      · cases h
        exact hP.plain _ (PlainSch.ofKeys (withMeta_nodup cfg ms s0 h1) (plain_withMeta cfg ms s0 h2) plainKeys_ok
          (args_withMeta cfg ms s0 (args_simple hs)))
    · exact ih s us (fun hf k b hk => ho hf k b (.annotated hk)) h
  | .enum e, skip, s, us, ho, h => by
    simp only [tySchema] at h
    split at h
    · rename_i hf
      exact hname _ _ _ _ (ho hf _ _ .enum) h
    · split at h
      · rename_i hl
        cases h
        split at hl
        · cases hl
        · exact hP.ref _ _ _ rfl hl
      · split at h
        · cases h
        · rename_i hs; cases h; exact hP.plain _ (plain_enumSchema hs)
  | .cls c, skip, s, us, ho, h => by
    simp only [tySchema] at h
    split at h
    · rename_i hf
      exact hname _ _ _ _ (ho hf _ _ .cls) h
    · split at h
      · rename_i hl
        cases h
        split at hl
        · cases hl
        · exact hP.ref _ _ _ rfl hl
      · exact hcls _ _ _ h
  | .union ts, skip, s, us, ho, h => by
    have ih := tySchemas_rec (fwd := fwd) hP hcls hname ts false
    simp only [tySchema] at h
    split at h
    · rw [SchRes.map_ok] at h
      obtain ⟨ss, h1, h2⟩ := h
      cases h2
      obtain ⟨ps, rfl, rfl, h3⟩ := ih ss us (fun hf k b t ht hk => ho hf k b (.union ht hk)) h1
      rw [List.map_map]
      exact hP.union ps h3
    · cases h
  | .list t, skip, s, us, ho, h => by
    have ih := tySchema_rec (fwd := fwd) hP hcls hname t fwd
    simp only [tySchema] at h
    rw [SchRes.map_ok] at h
    obtain ⟨s1, h1, h2⟩ := h
    cases h2
    exact hP.list _ _ (ih s1 us (fun hf k b hk => ho hf k b (.list (hf ▸ hk))) h1)
  | .dict kt t, skip, s, us, ho, h => by
    have ih := tySchema_rec (fwd := fwd) hP hcls hname t fwd
    simp only [tySchema] at h
    replace h := (ite_error_ok.1 h).2
    rw [SchRes.map_ok] at h
    obtain ⟨s1, h1, h2⟩ := h
    exact hP.dict _ _ _ _ (ih s1 us (fun hf k b hk => ho hf k b (.dict (hf ▸ hk))) h1) h2
  | .set t, skip, s, us, ho, h => by
    have ih := tySchema_rec (fwd := fwd) hP hcls hname t fwd
    simp only [tySchema] at h
    rw [SchRes.map_ok] at h
    obtain ⟨s1, h1, h2⟩ := h
    cases h2
    exact hP.set _ _ (ih s1 us (fun hf k b hk => ho hf k b (.set (hf ▸ hk))) h1)
  | .tuple ts, skip, s, us, ho, h => by
    have ih := tySchemas_rec (fwd := fwd) hP hcls hname ts fwd
    simp only [tySchema] at h
    rw [SchRes.map_ok] at h
    obtain ⟨ss, h1, h2⟩ := h
    cases h2
    obtain ⟨ps, rfl, rfl, h3⟩ := ih ss us (fun hf k b t ht hk => ho hf k b (.tuple ht (hf ▸ hk))) h1
    rw [List.map_map]
    exact hP.tuple ts.length ts.length ps h3
  | .literal ls, skip, s, us, ho, h => by
    simp only [tySchema] at h
    split at h
    · split at h
      · cases h
      · rename_i hs; cases h; exact hP.plain _ (plain_litSchema hs)
    · cases h
  | .none, _, _, _, _, h | .bool, _, _, _, _, h | .int, _, _, _, _, h | .float, _, _, _, _, h | .str, _, _, _, _, h
  | .bytes, _, _, _, _, h | .datetime, _, _, _, _, h | .date, _, _, _, _, h | .time, _, _, _, _, h
  | .timedelta, _, _, _, _, h | .uuid, _, _, _, _, h | .ipv4, _, _, _, _, h | .ipv6, _, _, _, _, h
  | .bareList, _, _, _, _, h | .bareDict, _, _, _, _, h | .bareSet, _, _, _, _, h | .bareTuple, _, _, _, _, h => by
    simp only [tySchema, simpleSchema] at h
    cases h
    refine hP.plain _ (PlainSch.ofKeys (ks := plainKeys) (by decide) (by decide) plainKeys_ok ?_)
    first
      | exact args_simple (t := .none) rfl | exact args_simple (t := .bool) rfl | exact args_simple (t := .int) rfl
      | exact args_simple (t := .float) rfl | exact args_simple (t := .str) rfl | exact args_simple (t := .bytes) rfl
      | exact args_simple (t := .datetime) rfl | exact args_simple (t := .date) rfl | exact args_simple (t := .time) rfl
      | exact args_simple (t := .timedelta) rfl | exact args_simple (t := .uuid) rfl
      | (intro ka hka; rcases List.mem_singleton.1 hka with rfl; exact argOk_type (by decide))
theorem tySchemas_rec {P : Sch → List TypeUse → Prop} {OkName : RegKey → Bool → Prop} {fwd : Bool}
    (hP : SchClosed cfg env cat P) (hcls : ∀ c s us, cls c = .ok (s, us) → P s us)
    (hname : ∀ k b s us, OkName k b → nameSchema cfg env cat b k = .ok (s, us) → P s us) :
    ∀ (ts : List Ty) (skip : Bool) (ss : List Sch) (us : List TypeUse),
      (fwd = true → ∀ k b, ∀ t ∈ ts, Occurs skip t k b → OkName k b) →
      tySchemas cfg env cat cls fwd skip ts = .ok (ss, us) →
      ∃ ps : List (Sch × List TypeUse), ss = ps.map Prod.fst ∧ us = (ps.map Prod.snd).flatten ∧ ∀ p ∈ ps, P p.1 p.2
  | [], _, ss, us, _, h => by
    simp only [tySchemas] at h
    cases h
    exact ⟨[], rfl, rfl, by simp⟩
  | t :: ts, skip, ss, us, ho, h => by
    have ih1 := tySchema_rec (fwd := fwd) hP hcls hname t skip
    have ih2 := tySchemas_rec (fwd := fwd) hP hcls hname ts skip
    simp only [tySchemas] at h
    cases ht : tySchema cfg env cat cls fwd skip t with
    | error e => rw [ht] at h; cases h
    | ok p =>
      obtain ⟨s, us1⟩ := p
      rw [ht] at h
      simp only at h
      cases hts : tySchemas cfg env cat cls fwd skip ts with
      | error e => rw [hts] at h; cases h
      | ok p =>
        obtain ⟨ss2, us2⟩ := p
        rw [hts] at h
        simp only at h
        cases h
        have h1 := ih1 s us1 (fun hf k b hk => ho hf k b t (by simp) hk) ht
        obtain ⟨ps, rfl, rfl, h2⟩ := ih2 ss2 us2 (fun hf k b t' ht' hk => ho hf k b t' (by simp [ht']) hk) hts
        refine ⟨(s, us1) :: ps, rfl, rfl, ?_⟩
        intro p hp
        rcases List.mem_cons.1 hp with rfl | hp
        · exact h1
        · exact h2 p hp
end

/-- The same for classes. -/
structure ClsClosed (cfg : SchemaCfg) (env : Env) (cat : SchemaCatalog) (P : Sch → List TypeUse → Prop)
    (OkName : RegKey → Bool → Prop) : Prop extends SchClosed cfg env cat P where
  name : ∀ k b s us, OkName k b → nameSchema cfg env cat b k = .ok (s, us) → P s us
  occurs : ∀ cd ∈ env.classes, ∀ f ∈ cd.hints, fwdField cd.kind f = true → ∀ k b, Occurs false f.ty.required k b → OkName k b
  str : ∀ cd ∈ env.classes, ∀ f ∈ cd.hints, strField cd.kind f = true → ∀ s us, strSchema cfg env f.ty = .ok (s, us) → P s us
  dflt : ∀ j s us, (∃ v, objectToJson env v = .ok j) → P s us → P (upsert c!"default" j s) us
  cls : ∀ cd ∈ env.classes, ∀ ps us req, (ps.map Prod.fst).Nodup →
    (∀ k x, (k, x) ∈ ps → ∃ s us', x = .obj s ∧ P s us' ∧ ∀ u ∈ us', u ∈ us) →
    (∀ u ∈ us, ∃ s us', P s us' ∧ u ∈ us' ∧ ((cd.hints.map (schemaProp cd.kind)).Nodup → ∃ k, (k, .obj s) ∈ ps)) →
    P (classSchema ps req) us

theorem withDefault_ok {kind : ClassKind} {f : FieldDef} {s s' : Sch} (h : withDefault env kind f s = .ok s') :
    s' = s ∨ ∃ j, (∃ v, objectToJson env v = .ok j) ∧ s' = upsert c!"default" j s := by
  unfold withDefault at h
  split at h
  · cases h; exact Or.inl rfl
  · split at h
    · split at h
      · cases h
      · rename_i hj; cases h; exact Or.inr ⟨_, ⟨_, hj⟩, rfl⟩
    · cases h; exact Or.inl rfl

theorem clsSchema_rec {P : Sch → List TypeUse → Prop} {OkName : RegKey → Bool → Prop} (hP : ClsClosed cfg env cat P OkName) :
    ∀ n c s us, clsSchema cfg env cat n c = .ok (s, us) → P s us := by
  intro n
  induction n with
  | zero => intro c s us h; cases h
  | succ n ih =>
    intro c s us h
    cases hc : env.classes[c]? with
    | none => simp only [clsSchema, hc] at h; cases h
    | some cd =>
      obtain ⟨ps, h1, rfl⟩ := clsSchema_ok hc h
      have hcd := List.mem_of_getElem? hc
      have hprop : ∀ f ∈ cd.hints, ∀ s us, propSchema cfg env cat (clsSchema cfg env cat n) cd.kind f = .ok (s, us) → P s us := by
        intro f hf s us h
        unfold propSchema at h
        rw [SchRes.map_ok] at h
        obtain ⟨s0, h2, h3⟩ := h
        have h4 : P s0 us := by
          split at h2
          · rename_i hs; exact hP.str cd hcd f hf hs _ _ h2
          · exact tySchema_rec hP.toSchClosed ih hP.name _ _ _ _ (fun hfw => hP.occurs cd hcd f hf hfw) h2
        rcases withDefault_ok h3 with rfl | ⟨j, hj, rfl⟩
        · exact h4
        · exact hP.dflt _ _ _ hj h4
      obtain ⟨a1, a2, a3, a4, a5⟩ := propSchemas_ok h1
      have hnd := a3 (by simp)
      refine hP.cls cd hcd ps us _ hnd ?_ ?_
      · intro k x hx
        rcases a1 k x (lookupKey_of_mem hnd hx) with h | ⟨f, hf, _, s, us', h2, h3, h4⟩
        · cases h
        · exact ⟨s, us', h3, hprop f hf _ _ h2, h4⟩
      · intro u hu
        obtain ⟨f, hf, s, us', h2, h3⟩ := a4 u hu
        refine ⟨s, us', hprop f hf _ _ h2, h3, ?_⟩
        intro hn
        obtain ⟨s2, us2, h4, h5, _⟩ := (a5 (fun _ _ => rfl) hn).2 f hf
        rw [h2] at h4
        cases h4
        exact ⟨_, lookupKey_some_mem h5⟩

theorem typeToSchema_rec {P : Sch → List TypeUse → Prop} {OkName : RegKey → Bool → Prop} (hP : ClsClosed cfg env cat P OkName)
    {force : Bool} {t : Ty} {s : Sch} {us : List TypeUse} (h : typeToSchema cfg env cat force t = .ok (s, us)) : P s us :=
  tySchema_rec hP.toSchClosed (clsSchema_rec hP _) hP.name t force s us (fun h => by cases h) h

/-! ### Keywords of generated schemas -/

/-- Keywords are distinct and none of those added by `classdef_to_schema`. -/
def KeysOk (s : Sch) : Prop :=
  (s.map Prod.fst).Nodup ∧ c!"definitions" ∉ s.map Prod.fst ∧ c!"$schema" ∉ s.map Prod.fst

theorem dictSchema_cases {k : KeyTy} {s s' : Sch} (h : dictSchema env k s = .ok s') :
    s' = [(c!"type", js c!"object"), (c!"additionalProperties", .obj s)] ∨
    (∃ pat, s' = [(c!"type", js c!"object"), (c!"propertyNames", .obj [(c!"pattern", js pat)]),
      (c!"additionalProperties", .obj s)]) ∨
    (∃ e ed names, k = .enum e ∧ env.enums[e]? = some ed ∧ mapRes (fun m => m.2.pyStr) ed.members = .ok names ∧
      s' = [(c!"type", js c!"object"), (c!"properties", .obj (names.foldl (fun ps n => upsert n (.obj s) ps) [])),
        (c!"additionalProperties", .bool false)]) := by
  unfold dictSchema at h
  split at h
  · rename_i e
    split at h
    · cases h
    · rename_i ed hed
      split at h
      · cases h
      · rename_i names hn
        split at h
        · cases h; exact Or.inr (Or.inl ⟨_, rfl⟩)
        · cases h; exact Or.inr (Or.inr ⟨e, ed, names, rfl, hed, hn, rfl⟩)
  · cases h; exact Or.inl rfl

theorem foldl_upsert_lookup (x : Json) (n : Str) : ∀ (names : List Str) (acc : List (Str × Json)),
    lookupKey n (names.foldl (fun ps n => upsert n x ps) acc) = if n ∈ names then some x else lookupKey n acc := by
  intro names
  induction names with
  | nil => intro acc; simp
  | cons m names ih =>
    intro acc
    simp only [List.foldl_cons]
    rw [ih, lookupKey_upsert]
    by_cases h1 : n ∈ names
    · simp [h1]
    · by_cases h2 : m = n
      · simp [h2]
      · simp [h1, h2, Ne.symm h2]

theorem foldl_upsert_nodup (x : Json) : ∀ (names : List Str) (acc : List (Str × Json)), (acc.map Prod.fst).Nodup →
    ((names.foldl (fun ps n => upsert n x ps) acc).map Prod.fst).Nodup := by
  intro names
  induction names with
  | nil => intro acc h; exact h
  | cons m names ih => intro acc h; exact ih _ (upsert_nodup h)

/-- The value schema of a dictionary with a limited set of keys. -/
theorem mem_foldl_upsert {x y : Json} {n : Str} {names : List Str} :
    (n, y) ∈ names.foldl (fun ps n => upsert n x ps) [] ↔ n ∈ names ∧ y = x := by
  have hn := foldl_upsert_nodup x names [] (by simp)
  constructor
  · intro h
    have := lookupKey_of_mem hn h
    rw [foldl_upsert_lookup] at this
    split at this
    · rename_i h1; cases this; exact ⟨h1, rfl⟩
    · cases this
  · rintro ⟨h1, rfl⟩
    refine lookupKey_some_mem ?_
    rw [foldl_upsert_lookup, if_pos h1]

theorem KeysOk.default {j : Json} {s : Sch} {k : Str} (hk : k ≠ c!"definitions" ∧ k ≠ c!"$schema") (h : KeysOk s) :
    KeysOk (upsert k j s) := by
  obtain ⟨h1, h2, h3⟩ := h
  refine ⟨upsert_nodup h1, ?_, ?_⟩ <;> rw [show (upsert _ _ s).map Prod.fst = _ from upsert_keys] <;> split
  · exact h2
  · simp only [List.mem_append, List.mem_singleton, not_or]; exact ⟨h2, hk.1.symm⟩
  · exact h3
  · simp only [List.mem_append, List.mem_singleton, not_or]; exact ⟨h3, hk.2.symm⟩

theorem classSchema_keys (ps : List (Str × Json)) (req : List Str) : KeysOk (classSchema ps req) := by
  unfold classSchema
  split <;> split <;> refine ⟨by simp, by simp, by simp⟩

theorem keys_closed : ClsClosed cfg env cat (fun s _ => KeysOk s) (fun _ _ => True) where
  plain _ h := ⟨h.nodup, h.other.1, h.other.2⟩
  ref _ _ _ _ _ := ⟨by simp [refSch], by simp [refSch], by simp [refSch]⟩
  list _ _ _ := ⟨by simp, by simp, by simp⟩
  set _ _ _ := ⟨by simp, by simp, by simp⟩
  dict k s us s' _ h := by
    rcases dictSchema_cases h with rfl | ⟨_, rfl⟩ | ⟨_, _, _, _, _, _, rfl⟩ <;> exact ⟨by simp, by simp, by simp⟩
  union _ _ := ⟨by simp, by simp, by simp⟩
  tuple _ _ _ _ := ⟨by simp, by simp, by simp⟩
  name k b s us _ h := by
    unfold nameSchema at h
    split at h
    · cases h
    · split at h <;> cases h <;> exact ⟨by simp [refSch], by simp [refSch], by simp [refSch]⟩
  occurs _ _ _ _ _ _ _ _ := trivial
  str cd _ f _ _ s us h := by
    unfold strSchema at h
    split at h
    · split at h
      · cases h
      · cases h; exact ⟨by simp [refSch], by simp [refSch], by simp [refSch]⟩
    · split at h
      · cases h
      · cases h; exact ⟨by simp [refSch], by simp [refSch], by simp [refSch]⟩
    · cases h; exact ⟨by simp [refSch], by simp [refSch], by simp [refSch]⟩
    · cases h; exact ⟨by simp [refSch], by simp [refSch], by simp [refSch]⟩
    · cases h; exact ⟨by simp [refSch], by simp [refSch], by simp [refSch]⟩
    · cases h; exact ⟨by simp [refSch], by simp [refSch], by simp [refSch]⟩
    · cases h; exact ⟨by simp [refSch], by simp [refSch], by simp [refSch]⟩
    · cases h
  dflt j s us _ h := h.default (by decide)
  cls _ _ ps _ req _ _ _ := classSchema_keys ps req

/-! ### References and uses -/

/-- All references are recorded. -/
def RefsIn (cfg : SchemaCfg) (s : Sch) (us : List TypeUse) : Prop :=
  ∀ r, HasRef (.obj s) r → ∃ u ∈ us, r = cfg.definitionsPath ++ u.name

/-- All uses recorded are references. -/
def RefsOut (cfg : SchemaCfg) (s : Sch) (us : List TypeUse) : Prop :=
  ∀ u ∈ us, HasRef (.obj s) (cfg.definitionsPath ++ u.name)

theorem hasRef_list (s : Json) (r : Str) : HasRef (.obj [(c!"type", js c!"array"), (c!"items", s)]) r ↔ HasRef s r :=
  hasRef_items (k := c!"items") (by simp) (by simp) (by
    intro k' hk' x hx
    simp only [List.mem_cons, List.not_mem_nil, or_false, Prod.mk.injEq] at hx
    rcases hx with ⟨rfl, _⟩ | ⟨rfl, rfl⟩
    · exact absurd hk' (by decide)
    · exact ⟨rfl, rfl⟩)

theorem hasRef_set (s : Json) (r : Str) :
    HasRef (.obj [(c!"type", js c!"array"), (c!"items", s), (c!"uniqueItems", .bool true)]) r ↔ HasRef s r :=
  hasRef_items (k := c!"items") (by simp) (by simp) (by
    intro k' hk' x hx
    simp only [List.mem_cons, List.not_mem_nil, or_false, Prod.mk.injEq] at hx
    rcases hx with ⟨rfl, _⟩ | ⟨rfl, rfl⟩ | ⟨rfl, _⟩
    · exact absurd hk' (by decide)
    · exact ⟨rfl, rfl⟩
    · exact absurd hk' (by decide))

theorem hasRef_dict (s : Json) (r : Str) :
    HasRef (.obj [(c!"type", js c!"object"), (c!"additionalProperties", s)]) r ↔ HasRef s r :=
  hasRef_items (k := c!"additionalProperties") (by simp) (by simp) (by
    intro k' hk' x hx
    simp only [List.mem_cons, List.not_mem_nil, or_false, Prod.mk.injEq] at hx
    rcases hx with ⟨rfl, _⟩ | ⟨rfl, rfl⟩
    · exact absurd hk' (by decide)
    · exact ⟨rfl, rfl⟩)

theorem hasRef_dictPattern (s : Json) (pat r : Str) :
    HasRef (.obj [(c!"type", js c!"object"), (c!"propertyNames", .obj [(c!"pattern", js pat)]), (c!"additionalProperties", s)]) r ↔
      HasRef s r := by
  constructor
  · intro h
    cases h with
    | here h => simp at h
    | single h1 h2 h3 =>
      simp only [List.mem_cons, List.not_mem_nil, or_false, Prod.mk.injEq] at h2
      rcases h2 with ⟨rfl, _⟩ | ⟨rfl, rfl⟩ | ⟨rfl, rfl⟩
      · exact absurd h1 (by decide)
      · exact absurd h3 (not_hasRef (by simp [refKeys]) r)
      · exact h3
    | many h1 h2 =>
      simp only [List.mem_cons, List.not_mem_nil, or_false, Prod.mk.injEq] at h2
      rcases h2 with ⟨rfl, _⟩ | ⟨rfl, _⟩ | ⟨rfl, _⟩ <;> exact absurd h1 (by decide)
    | property h => simp at h
  · intro h; exact .single (k := c!"additionalProperties") (by simp) (by simp) h

theorem hasRef_props (ps : List (Str × Json)) (r : Str) :
    HasRef (.obj [(c!"type", js c!"object"), (c!"properties", .obj ps), (c!"additionalProperties", .bool false)]) r ↔
      ∃ n s, (n, s) ∈ ps ∧ HasRef s r :=
  hasRef_properties (by simp) (by
    intro k' hk' x hx
    simp only [List.mem_cons, List.not_mem_nil, or_false, Prod.mk.injEq] at hx
    rcases hx with ⟨rfl, _⟩ | h | h
    · exact absurd hk' (by decide)
    · exact Or.inl h
    · exact Or.inr h)

theorem hasRef_union (ss : List Json) (r : Str) : HasRef (.obj [(c!"oneOf", .arr ss)]) r ↔ ∃ s ∈ ss, HasRef s r :=
  hasRef_many (k := c!"oneOf") (by simp) (by simp) (by
    intro k' hk' x hx
    simpa using hx)

theorem hasRef_tuple (n m : Json) (ss : List Json) (r : Str) :
    HasRef (.obj [(c!"type", js c!"array"), (c!"minItems", n), (c!"maxItems", m), (c!"prefixItems", .arr ss)]) r ↔
      ∃ s ∈ ss, HasRef s r :=
  hasRef_many (k := c!"prefixItems") (by simp) (by simp) (by
    intro k' hk' x hx
    simp only [List.mem_cons, List.not_mem_nil, or_false, Prod.mk.injEq] at hx
    rcases hx with ⟨rfl, _⟩ | ⟨rfl, _⟩ | ⟨rfl, _⟩ | h
    · exact absurd hk' (by decide)
    · exact absurd hk' (by decide)
    · exact absurd hk' (by decide)
    · exact h)

theorem hasRef_class (ps : List (Str × Json)) (req : List Str) (r : Str) :
    HasRef (.obj (classSchema ps req)) r ↔ ∃ n s, (n, s) ∈ ps ∧ HasRef s r := by
  by_cases hp : ps = []
  · subst hp
    constructor
    · intro h
      refine absurd h (not_hasRef ?_ r)
      unfold classSchema
      simp only [List.isEmpty_nil, if_true, List.append_nil]
      split <;> simp [refKeys]
    · rintro ⟨n, s, h, _⟩; cases h
  · refine hasRef_properties ?_ ?_
    · exact lookupKey_some_mem (classSchema_properties ps req hp)
    · intro k' hk' x hx
      have hp' : ps.isEmpty = false := by cases ps with | nil => exact absurd rfl hp | cons => rfl
      unfold classSchema at hx
      rw [hp'] at hx
      simp only [List.mem_append, List.mem_cons, List.not_mem_nil, or_false, Prod.mk.injEq, Bool.false_eq_true, if_false] at hx
      rcases hx with (⟨rfl, _⟩ | h | h) | h
      · exact absurd hk' (by decide)
      · exact Or.inl h
      · exact Or.inr h
      · split at h
        · cases h
        · simp only [List.mem_cons, List.not_mem_nil, or_false, Prod.mk.injEq] at h
          rw [h.1] at hk'
          exact absurd hk' (by decide)

theorem dict_refs {k : KeyTy} {s s' : Sch} (h : dictSchema env k s = .ok s') (r : Str) :
    (HasRef (.obj s') r → HasRef (.obj s) r) ∧
    ((∀ ed ∈ env.enums, ed.members ≠ []) → HasRef (.obj s) r → HasRef (.obj s') r) := by
  rcases dictSchema_cases h with rfl | ⟨_, rfl⟩ | ⟨e, ed, names, _, hed, hn, rfl⟩
  · rw [hasRef_dict]; exact ⟨id, fun _ => id⟩
  · rw [hasRef_dictPattern]; exact ⟨id, fun _ => id⟩
  · rw [hasRef_props]
    refine ⟨?_, ?_⟩
    · rintro ⟨n, x, h1, h2⟩
      rw [mem_foldl_upsert] at h1
      rwa [h1.2] at h2
    · intro he hr
      have hne : names ≠ [] := by
        intro h0
        have := he ed (List.mem_of_getElem? hed)
        cases hm : ed.members with
        | nil => exact this hm
        | cons m ms =>
          rw [hm, h0] at hn
          unfold mapRes at hn
          split at hn
          · cases hn
          · split at hn <;> cases hn
      obtain ⟨n, hnm⟩ := List.exists_mem_of_ne_nil _ hne
      exact ⟨n, .obj s, mem_foldl_upsert.2 ⟨hnm, rfl⟩, hr⟩

theorem refsIn_closed (h : RefsRecorded env cat) : ClsClosed cfg env cat (RefsIn cfg)
    (fun k b => b = false ∧ ∃ n, k.typeName env = some n ∧ (lookupKey n cat.byName).isSome) where
  plain s h r hr := absurd hr (not_hasRef h.plain r)
  ref k t e _ _ r hr := by
    rw [refSch, hasRef_ref] at hr
    exact ⟨_, List.mem_singleton.2 rfl, hr⟩
  list s us h r hr := h r ((hasRef_list _ _).1 hr)
  set s us h r hr := h r ((hasRef_set _ _).1 hr)
  dict k s us s' h hd r hr := h r ((dict_refs hd r).1 hr)
  union ps h r hr := by
    obtain ⟨s, hs, hr⟩ := (hasRef_union _ _).1 hr
    obtain ⟨p, hp, rfl⟩ := List.mem_map.1 hs
    obtain ⟨u, hu, he⟩ := h p hp r hr
    exact ⟨u, List.mem_flatten.2 ⟨p.2, List.mem_map.2 ⟨p, hp, rfl⟩, hu⟩, he⟩
  tuple n m ps h r hr := by
    obtain ⟨s, hs, hr⟩ := (hasRef_tuple _ _ _ _).1 hr
    obtain ⟨p, hp, rfl⟩ := List.mem_map.1 hs
    obtain ⟨u, hu, he⟩ := h p hp r hr
    exact ⟨u, List.mem_flatten.2 ⟨p.2, List.mem_map.2 ⟨p, hp, rfl⟩, hu⟩, he⟩
  name k b s us h hn r hr := by
    obtain ⟨rfl, n, h1, h2⟩ := h
    simp only [nameSchema, h1, Bool.false_eq_true, if_false] at hn
    cases hl : lookupKey n cat.byName with
    | none => rw [hl] at h2; cases h2
    | some e =>
      rw [hl] at hn
      cases hn
      rw [refSch, hasRef_ref] at hr
      exact ⟨_, List.mem_singleton.2 rfl, hr⟩
  occurs cd hcd f hf hfw k b ho := h.names cd hcd f hf hfw k b ho
  str cd hcd f hf hs s us hst r hr := by
    have hk := h.strings cd hcd f hf hs
    unfold strSchema at hst
    split at hst
    · rename_i he; rw [he] at hk; cases hk
    · rename_i he; rw [he] at hk; cases hk
    all_goals first
      | (cases hst; rw [refSch, hasRef_ref] at hr; exact ⟨_, List.mem_singleton.2 rfl, hr⟩)
      | cases hst
  dflt j s us _ h r hr := h r ((hasRef_upsert (by decide) r).1 hr)
  cls cd _ ps us req _ h _ r hr := by
    obtain ⟨n, x, hm, hr⟩ := (hasRef_class _ _ _).1 hr
    obtain ⟨s, us', rfl, hp, hu⟩ := h n x hm
    obtain ⟨u, hu', he⟩ := hp r hr
    exact ⟨u, hu u hu', he⟩

theorem refsOut_closed (hn : ∀ cd ∈ env.classes, (cd.hints.map (schemaProp cd.kind)).Nodup)
    (he : ∀ ed ∈ env.enums, ed.members ≠ []) : ClsClosed cfg env cat (RefsOut cfg) (fun _ _ => True) where
  plain s _ u hu := by cases hu
  ref k t e _ _ u hu := by
    simp only [List.mem_singleton] at hu
    subst hu
    rw [refSch, hasRef_ref]
  list s us h u hu := (hasRef_list _ _).2 (h u hu)
  set s us h u hu := (hasRef_set _ _).2 (h u hu)
  dict k s us s' h hd u hu := (dict_refs hd _).2 he (h u hu)
  union ps h u hu := by
    obtain ⟨us, hus, hu⟩ := List.mem_flatten.1 hu
    obtain ⟨p, hp, rfl⟩ := List.mem_map.1 hus
    exact (hasRef_union _ _).2 ⟨_, List.mem_map.2 ⟨p, hp, rfl⟩, h p hp u hu⟩
  tuple n m ps h u hu := by
    obtain ⟨us, hus, hu⟩ := List.mem_flatten.1 hu
    obtain ⟨p, hp, rfl⟩ := List.mem_map.1 hus
    exact (hasRef_tuple _ _ _ _).2 ⟨_, List.mem_map.2 ⟨p, hp, rfl⟩, h p hp u hu⟩
  name k b s us _ h u hu := by
    unfold nameSchema at h
    split at h
    · cases h
    · split at h
      · cases h
        simp only [List.mem_singleton] at hu
        subst hu
        rw [refSch, hasRef_ref]
      · cases h; cases hu
  occurs _ _ _ _ _ _ _ _ := trivial
  str cd hcd f hf hs s us hst u hu := by
    unfold strSchema at hst
    split at hst
    · split at hst
      · cases hst
      · cases hst; cases hu
    · split at hst
      · cases hst
      · cases hst; cases hu
    all_goals first
      | (cases hst
         simp only [List.mem_singleton] at hu
         subst hu
         rw [refSch, hasRef_ref])
      | cases hst
  dflt j s us _ h u hu := (hasRef_upsert (by decide) _).2 (h u hu)
  cls cd hcd ps us req _ _ h u hu := by
    obtain ⟨s, us', h1, h2, h3⟩ := h u hu
    obtain ⟨k, hk⟩ := h3 (hn cd hcd)
    exact (hasRef_class _ _ _).2 ⟨k, _, hk, h1 u h2⟩

/-- The type of a use is not in the catalog, or its name is the identifier of a registered type. -/
def UseKnown (cat : SchemaCatalog) (u : TypeUse) : Prop :=
  u.ty.ref = none ∨ ∃ k e, lookupKey k cat.byType = some e ∧ e.identifier = u.name

theorem known_closed (hcat : ∀ n e, lookupKey n cat.byName = some e → ∃ k e', lookupKey k cat.byType = some e' ∧
    e'.identifier = e.identifier) :
    ClsClosed cfg env cat (fun _ us => ∀ u ∈ us, UseKnown cat u) (fun _ _ => True) where
  plain s _ u hu := by cases hu
  ref k t e _ hl u hu := by
    simp only [List.mem_singleton] at hu
    subst hu
    exact Or.inr ⟨k, e, hl, rfl⟩
  list s us h := h
  set s us h := h
  dict k s us s' h _ := h
  union ps h u hu := by
    obtain ⟨us, hus, hu⟩ := List.mem_flatten.1 hu
    obtain ⟨p, hp, rfl⟩ := List.mem_map.1 hus
    exact h p hp u hu
  tuple n m ps h u hu := by
    obtain ⟨us, hus, hu⟩ := List.mem_flatten.1 hu
    obtain ⟨p, hp, rfl⟩ := List.mem_map.1 hus
    exact h p hp u hu
  name k b s us _ h u hu := by
    unfold nameSchema at h
    split at h
    · cases h
    · split at h
      · rename_i hl
        cases h
        simp only [List.mem_singleton] at hu
        subst hu
        split at hl
        · cases hl
        · exact Or.inr (hcat _ _ hl)
      · cases h; cases hu
  occurs _ _ _ _ _ _ _ _ := trivial
  str cd hcd f hf hs s us hst u hu := by
    unfold strSchema at hst
    split at hst
    · split at hst
      · cases hst
      · cases hst; cases hu
    · split at hst
      · cases hst
      · cases hst; cases hu
    all_goals first
      | (cases hst
         simp only [List.mem_singleton] at hu
         subst hu
         exact Or.inl rfl)
      | cases hst
  dflt j s us _ h := h
  cls cd hcd ps us req _ _ h u hu := by
    obtain ⟨s, us', h1, h2, _⟩ := h u hu
    exact h1 u h2

end Verif
