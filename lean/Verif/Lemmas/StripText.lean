import Verif.Spec.StripText
import Verif.Lemmas.MetaValid
/-!
# Removing descriptive text
-/
namespace Verif

variable {fmt : Str → Str → Bool}

theorem stripList_eq : ∀ xs : List Json, stripList xs = xs.map stripText
  | [] => rfl
  | x :: xs => by rw [stripList, stripList_eq xs]; rfl

theorem stripMap_eq : ∀ kvs : List (Str × Json), stripMap kvs = kvs.map fun kv => (kv.1, stripText kv.2)
  | [] => rfl
  | (k, x) :: kvs => by rw [stripMap, stripMap_eq kvs]; rfl

theorem stripText_obj (kvs : List (Str × Json)) : stripText (.obj kvs) = .obj (stripKws kvs) := by
  unfold stripText; rw [stripArg]

theorem stripText_other {j : Json} (h : ∀ kvs, j ≠ .obj kvs) : stripText j = j := by
  unfold stripText
  cases j with
  | obj kvs => exact absurd rfl (h kvs)
  | _ => simp only [stripArg]

/-- Kinds of keywords with schemas in their arguments. -/
def MetaKind.hasSchemas : MetaKind → Bool
  | .schema | .schemas | .schemaMap | .schemaPatterns | .dependencies => true
  | _ => false

theorem stripArg_flat {K : MetaKind} (h : K.hasSchemas = false) (a : Json) : stripArg (some K) a = a := by
  cases a <;> cases K <;> first | (simp only [stripArg]; done) | (simp only [MetaKind.hasSchemas] at h; cases h)

theorem stripArg_none (a : Json) : stripArg none a = a := by
  cases a <;> simp only [stripArg]

theorem stripArg_schema (a : Json) : stripArg (some .schema) a = stripText a := rfl

theorem stripArg_schemas (xs : List Json) : stripArg (some .schemas) (.arr xs) = .arr (xs.map stripText) := by
  rw [stripArg, stripList_eq]

theorem stripArg_schemaMap (kvs : List (Str × Json)) :
    stripArg (some .schemaMap) (.obj kvs) = .obj (kvs.map fun kv => (kv.1, stripText kv.2)) := by
  rw [stripArg, stripMap_eq]

/-- The arguments of a keyword with and without text. -/
abbrev stripOf (k : Str) (a : Json) : Json := stripArg (lookupKey k metaKeywords) a

theorem stripKws_text {k : Str} (h : k ∈ descriptiveKeywords) (a : Json) (r : Sch) : stripKws ((k, a) :: r) = stripKws r := by
  rw [stripKws, if_pos h]

theorem stripKws_cons {k : Str} (h : k ∉ descriptiveKeywords) (a : Json) (r : Sch) :
    stripKws ((k, a) :: r) = (k, stripOf k a) :: stripKws r := by
  rw [stripKws, if_neg h]

theorem stripKws_nil : stripKws [] = [] := by rw [stripKws]

theorem stripKws_append (s r : Sch) : stripKws (s ++ r) = stripKws s ++ stripKws r := by
  induction s with
  | nil => rw [stripKws_nil]; rfl
  | cons kv s ih =>
    obtain ⟨k, a⟩ := kv
    by_cases h : k ∈ descriptiveKeywords
    · rw [List.cons_append, stripKws_text h, stripKws_text h, ih]
    · rw [List.cons_append, stripKws_cons h, stripKws_cons h, ih, List.cons_append]

theorem mem_stripKws {k : Str} {b : Json} {s : Sch} :
    (k, b) ∈ stripKws s ↔ k ∉ descriptiveKeywords ∧ ∃ a, (k, a) ∈ s ∧ b = stripOf k a := by
  induction s with
  | nil => rw [stripKws_nil]; simp
  | cons kv s ih =>
    obtain ⟨k', a'⟩ := kv
    by_cases h : k' ∈ descriptiveKeywords
    · rw [stripKws_text h, ih]
      constructor
      · rintro ⟨h1, a, h2, h3⟩; exact ⟨h1, a, by simp [h2], h3⟩
      · rintro ⟨h1, a, h2, h3⟩
        rcases List.mem_cons.1 h2 with h2 | h2
        · cases h2; exact absurd h h1
        · exact ⟨h1, a, h2, h3⟩
    · rw [stripKws_cons h, List.mem_cons, ih]
      constructor
      · rintro (h1 | ⟨h1, a, h2, h3⟩)
        · cases h1; exact ⟨h, a', by simp, rfl⟩
        · exact ⟨h1, a, by simp [h2], h3⟩
      · rintro ⟨h1, a, h2, h3⟩
        rcases List.mem_cons.1 h2 with h2 | h2
        · cases h2; exact Or.inl (by rw [h3])
        · exact Or.inr ⟨h1, a, h2, h3⟩

theorem lookup_stripKws {k : Str} (hk : k ∉ descriptiveKeywords) (s : Sch) :
    lookupKey k (stripKws s) = (lookupKey k s).map (stripOf k) := by
  induction s with
  | nil => rw [stripKws_nil]; rfl
  | cons kv s ih =>
    obtain ⟨k', a'⟩ := kv
    by_cases h : k' ∈ descriptiveKeywords
    · have hne : k' ≠ k := by rintro rfl; exact hk h
      rw [stripKws_text h, ih]
      simp [lookupKey, hne]
    · rw [stripKws_cons h]
      by_cases he : k' = k
      · subst he; simp [lookupKey]
      · simp [lookupKey, he, ih]

theorem lookup_stripKws_text {k : Str} (hk : k ∈ descriptiveKeywords) (s : Sch) : lookupKey k (stripKws s) = none := by
  rw [lookupKey_none_iff']
  intro h
  obtain ⟨⟨k', b⟩, h1, rfl⟩ := List.mem_map.1 h
  exact (mem_stripKws.1 h1).1 hk

theorem stripKws_upsert_text {k : Str} (hk : k ∈ descriptiveKeywords) (a : Json) (s : Sch) : stripKws (upsert k a s) = stripKws s := by
  induction s with
  | nil => show stripKws [(k, a)] = _; rw [stripKws_text hk]
  | cons kv s ih =>
    obtain ⟨k', a'⟩ := kv
    by_cases he : k' = k
    · subst he; rw [upsert, if_pos rfl, stripKws_text hk, stripKws_text hk]
    · rw [upsert, if_neg he]
      by_cases h : k' ∈ descriptiveKeywords
      · rw [stripKws_text h, stripKws_text h, ih]
      · rw [stripKws_cons h, stripKws_cons h, ih]

theorem stripKws_upsert {k : Str} (hk : k ∉ descriptiveKeywords) (a : Json) (s : Sch) :
    stripKws (upsert k a s) = upsert k (stripOf k a) (stripKws s) := by
  induction s with
  | nil => show stripKws [(k, a)] = _; rw [stripKws_cons hk, stripKws_nil]; rfl
  | cons kv s ih =>
    obtain ⟨k', a'⟩ := kv
    by_cases he : k' = k
    · subst he; rw [upsert, if_pos rfl, stripKws_cons hk, stripKws_cons hk, upsert, if_pos rfl]
    · rw [upsert, if_neg he]
      by_cases h : k' ∈ descriptiveKeywords
      · rw [stripKws_text h, stripKws_text h, ih]
      · rw [stripKws_cons h, stripKws_cons h, ih, upsert, if_neg he]

theorem stripKws_pop {k : Str} (hk : k ∈ descriptiveKeywords) (s : Sch) : stripKws (s.filter fun kv => kv.1 ≠ k) = stripKws s := by
  induction s with
  | nil => rfl
  | cons kv s ih =>
    obtain ⟨k', a'⟩ := kv
    by_cases he : k' = k
    · subst he; rw [List.filter_cons_of_neg (by simp), ih, stripKws_text hk]
    · rw [List.filter_cons_of_pos (by simpa using he)]
      by_cases h : k' ∈ descriptiveKeywords
      · rw [stripKws_text h, stripKws_text h, ih]
      · rw [stripKws_cons h, stripKws_cons h, ih]

/-- Text that is put into a schema does not show when text is removed. -/
theorem stripKws_addText : ∀ (o s : Sch), (∀ kv ∈ o, kv.1 ∈ descriptiveKeywords) → stripKws (updateSch s o) = stripKws s := by
  intro o
  induction o with
  | nil => intro s _; rfl
  | cons kv o ih =>
    intro s h
    show stripKws (updateSch (upsert kv.1 kv.2 s) o) = _
    rw [ih _ (fun kv hkv => h kv (by simp [hkv])), stripKws_upsert_text (h kv (by simp))]

theorem stripKws_updateSch : ∀ (o s : Sch), stripKws (updateSch s o) = updateSch (stripKws s) (stripKws o) := by
  intro o
  induction o with
  | nil => intro s; rw [stripKws_nil]; rfl
  | cons kv o ih =>
    intro s
    obtain ⟨k, a⟩ := kv
    show stripKws (updateSch (upsert k a s) o) = _
    by_cases hk : k ∈ descriptiveKeywords
    · rw [ih, stripKws_upsert_text hk, stripKws_text hk]
    · rw [ih, stripKws_upsert hk, stripKws_cons hk]
      rfl

/-! ### The meta-schema -/

theorem SubSchema.strip {K : MetaKind} {a j : Json} (h : SubSchema K a j) : SubSchema K (stripArg (some K) a) (stripText j) := by
  cases h with
  | self => exact .self
  | item h => rw [stripArg, stripList_eq]; exact .item (List.mem_map.2 ⟨_, h, rfl⟩)
  | member h => rw [stripArg, stripMap_eq]; exact .member (List.mem_map.2 ⟨_, h, rfl⟩)
  | patterned h => rw [stripArg, stripMap_eq]; exact .patterned (List.mem_map.2 ⟨_, h, rfl⟩)
  | dependent h h' =>
    rw [stripArg, stripMap_eq]
    refine .dependent (List.mem_map.2 ⟨_, h, rfl⟩) ?_
    intro xs he
    cases j with
    | arr ys => exact h' ys rfl
    | obj kvs => rw [stripText_obj] at he; cases he
    | _ => rw [stripText_other (by intro _ h; cases h)] at he; cases he

theorem SubSchema.unstrip {K : MetaKind} {a x : Json} (h : SubSchema K (stripArg (some K) a) x) :
    ∃ j, SubSchema K a j ∧ x = stripText j := by
  generalize hb : stripArg (some K) a = b at h
  cases h with
  | self => exact ⟨a, .self, hb.symm⟩
  | item h =>
    cases a with
    | arr ys =>
      rw [stripArg, stripList_eq] at hb
      cases hb
      obtain ⟨y, hy, rfl⟩ := List.mem_map.1 h
      exact ⟨y, .item hy, rfl⟩
    | _ => simp [stripArg] at hb
  | member h =>
    cases a with
    | obj ys =>
      rw [stripArg, stripMap_eq] at hb
      cases hb
      obtain ⟨⟨k, y⟩, hy, he⟩ := List.mem_map.1 h
      cases he
      exact ⟨y, .member hy, rfl⟩
    | _ => simp [stripArg] at hb
  | patterned h =>
    cases a with
    | obj ys =>
      rw [stripArg, stripMap_eq] at hb
      cases hb
      obtain ⟨⟨k, y⟩, hy, he⟩ := List.mem_map.1 h
      cases he
      exact ⟨y, .patterned hy, rfl⟩
    | _ => simp [stripArg] at hb
  | dependent h h' =>
    cases a with
    | obj ys =>
      rw [stripArg, stripMap_eq] at hb
      cases hb
      obtain ⟨⟨k, y⟩, hy, he⟩ := List.mem_map.1 h
      cases he
      refine ⟨y, .dependent hy ?_, rfl⟩
      rintro xs rfl
      exact h' xs (stripText_other (by intro _ h; cases h))
    | _ => simp [stripArg] at hb

theorem stripText_arr {j : Json} {xs : List Json} : stripText j = .arr xs ↔ j = .arr xs := by
  cases j with
  | obj kvs => rw [stripText_obj]; simp
  | _ => rw [stripText_other (by intro _ h; cases h)]

theorem shape_strip (K : MetaKind) (a : Json) : K.Shape fmt (stripArg (some K) a) ↔ K.Shape fmt a := by
  by_cases hK : K.hasSchemas = false
  · rw [stripArg_flat hK]
  · cases K with
    | schema => exact Iff.rfl
    | schemas =>
      cases a with
      | arr xs => rw [stripArg_schemas]; simp [MetaKind.Shape]
      | _ => simp only [stripArg]
    | schemaMap =>
      cases a with
      | obj xs => rw [stripArg_schemaMap]; simp [MetaKind.Shape]
      | _ => simp only [stripArg]
    | schemaPatterns =>
      cases a with
      | obj xs =>
        rw [stripArg, stripMap_eq]
        simp only [MetaKind.Shape, Json.obj.injEq, exists_eq_left', List.mem_map, forall_exists_index, and_imp,
          forall_apply_eq_imp_iff₂]
      | _ => simp only [stripArg]
    | dependencies =>
      cases a with
      | obj xs =>
        rw [stripArg, stripMap_eq]
        simp only [MetaKind.Shape, Json.obj.injEq, exists_eq_left', List.mem_map, forall_exists_index, and_imp,
          forall_apply_eq_imp_iff₂, stripText_arr]
        constructor
        · intro h kv hkv xs hx
          have h0 := h kv hkv xs hx
          rw [stripText_other (by rw [hx]; intro _ h; cases h)] at h0
          exact h0
        · intro h kv hkv xs hx
          have h0 := h kv hkv xs hx
          rw [stripText_other (by rw [hx]; intro _ h; cases h)]
          exact h0
      | _ => simp only [stripArg]
    | _ => exact absurd rfl hK

/-- What descriptive text there is in a schema is text. -/
inductive TextOk : Json → Prop
  | obj {kvs} : (∀ k a, lookupKey k kvs = some a → k ∈ descriptiveKeywords → ∃ s, a = .str s) →
      (∀ k K a j, lookupKey k kvs = some a → lookupKey k metaKeywords = some K → SubSchema K a j → TextOk j) → TextOk (.obj kvs)
  | other {j} : (∀ kvs, j ≠ .obj kvs) → TextOk j

theorem text_kind {k : Str} (hk : k ∈ descriptiveKeywords) : lookupKey k metaKeywords = some .string := by
  simp only [descriptiveKeywords, List.mem_cons, List.not_mem_nil, or_false] at hk
  rcases hk with rfl | rfl <;> simp [metaKeywords, lookupKey]

theorem metaValid_unstrip {j : Json} (h : TextOk j) : MetaValid fmt (stripText j) → MetaValid fmt j := by
  induction h with
  | other h => intro hv; rwa [stripText_other h] at hv
  | @obj kvs h1 h2 ih =>
    intro hv
    rw [stripText_obj] at hv
    cases hv with
    | obj h3 h4 =>
      refine .obj ?_ ?_
      · intro k K a hk ha
        have hl := lookupKey_of_mem metaKeywords_nodup hk
        by_cases ht : k ∈ descriptiveKeywords
        · rw [text_kind ht] at hl
          cases hl
          exact h1 k a ha ht
        · have := h3 k K (stripOf k a) hk (by rw [lookup_stripKws ht, ha]; rfl)
          rw [stripOf, hl, shape_strip] at this
          exact this
      · intro k K a j hk ha hj
        have hl := lookupKey_of_mem metaKeywords_nodup hk
        by_cases ht : k ∈ descriptiveKeywords
        · rw [text_kind ht] at hl
          cases hl
          cases hj
        · refine ih k K a j ha hl hj (h4 k K (stripOf k a) _ hk (by rw [lookup_stripKws ht, ha]; rfl) ?_)
          rw [stripOf, hl]
          exact hj.strip

theorem metaValid_strip {j : Json} (h : MetaValid fmt j) : MetaValid fmt (stripText j) := by
  induction h with
  | bool b => exact .bool b
  | @obj kvs h1 h2 ih =>
    rw [stripText_obj]
    refine .obj ?_ ?_
    · intro k K b hk hb
      have hl := lookupKey_of_mem metaKeywords_nodup hk
      by_cases ht : k ∈ descriptiveKeywords
      · rw [lookup_stripKws_text ht] at hb; cases hb
      · rw [lookup_stripKws ht] at hb
        obtain ⟨a, ha, rfl⟩ := Option.map_eq_some_iff.1 hb
        rw [stripOf, hl, shape_strip]
        exact h1 k K a hk ha
    · intro k K b x hk hb hx
      have hl := lookupKey_of_mem metaKeywords_nodup hk
      by_cases ht : k ∈ descriptiveKeywords
      · rw [lookup_stripKws_text ht] at hb; cases hb
      · rw [lookup_stripKws ht] at hb
        obtain ⟨a, ha, rfl⟩ := Option.map_eq_some_iff.1 hb
        rw [stripOf, hl] at hx
        obtain ⟨j, hj, rfl⟩ := hx.unstrip
        exact ih k K a j hk ha hj

theorem TextOk.of_valid {j : Json} (h : MetaValid fmt j) : TextOk j := by
  induction h with
  | bool b => exact .other (by intro _ h; cases h)
  | @obj kvs h1 h2 ih =>
    refine .obj ?_ ?_
    · intro k a ha ht
      exact h1 k .string a (lookupKey_some_mem (text_kind ht)) ha
    · intro k K a j ha hK hj
      exact ih k K a j (lookupKey_some_mem hK) ha hj

/-- Text, or an argument in which all text is text. -/
def TextArg (k : Str) (a : Json) : Prop :=
  (k ∈ descriptiveKeywords → ∃ s, a = .str s) ∧ ∀ K j, lookupKey k metaKeywords = some K → SubSchema K a j → TextOk j

def TextArgs (s : Sch) : Prop := ∀ kv ∈ s, TextArg kv.1 kv.2

theorem TextArgs.text {s : Sch} (h : TextArgs s) : TextOk (.obj s) :=
  .obj (fun k a ha ht => (h (k, a) (lookupKey_some_mem ha)).1 ht)
    (fun k K a j ha hK hj => (h (k, a) (lookupKey_some_mem ha)).2 K j hK hj)

theorem textArg_of_meta {k : Str} {a : Json} (h : MetaArg fmt k a) : TextArg k a := by
  refine ⟨fun ht => (h .string (lookupKey_some_mem (text_kind ht))).1, ?_⟩
  intro K j hK hj
  exact .of_valid ((h K (lookupKey_some_mem hK)).2 j hj)

theorem textArg_str (k s : Str) : TextArg k (.str s) := by
  refine ⟨fun _ => ⟨s, rfl⟩, ?_⟩
  intro K j _ hj
  cases hj
  exact .other (by intro _ h; cases h)

theorem TextArgs.upsert {s : Sch} {k : Str} {a : Json} (hs : TextArgs s) (ha : TextArg k a) : TextArgs (upsert k a s) := by
  induction s with
  | nil => intro kv hkv; cases List.mem_singleton.1 hkv; exact ha
  | cons kv s ih =>
    obtain ⟨k', a'⟩ := kv
    intro kv hkv
    rw [Verif.upsert] at hkv
    split at hkv
    · rename_i he
      subst he
      rcases List.mem_cons.1 hkv with rfl | h
      · exact ha
      · exact hs kv (by simp [h])
    · rcases List.mem_cons.1 hkv with rfl | h
      · exact hs _ (by simp)
      · exact ih (fun kv h => hs kv (by simp [h])) kv h

theorem TextArgs.update {s o : Sch} (hs : TextArgs s) (ho : TextArgs o) : TextArgs (updateSch s o) := by
  induction o generalizing s with
  | nil => exact hs
  | cons kv o ih => exact ih (hs.upsert (ho kv (by simp))) (fun kv h => ho kv (by simp [h]))

/-- The argument holds no text that is removed. -/
def FixedArg (k : Str) (a : Json) : Prop := k ∉ descriptiveKeywords ∧ stripOf k a = a ∧ TextArg k a

theorem fixed_flat {k : Str} (a : Json) (ht : k ∉ descriptiveKeywords) (h : ∀ K, lookupKey k metaKeywords = some K → K.hasSchemas = false) :
    FixedArg k a := by
  refine ⟨ht, ?_, fun h' => absurd h' ht, ?_⟩
  · unfold stripOf
    cases hK : lookupKey k metaKeywords with
    | none => exact stripArg_none a
    | some K => exact stripArg_flat (h K hK) a
  · intro K j hK hj
    have := h K hK
    cases hj <;> cases this

end Verif
