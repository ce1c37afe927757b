import Verif.Lemmas.SchemaRefs
/-!
# Lemmas on the loop of `classdef_to_schema`
-/
namespace Verif

variable {cfg : SchemaCfg} {env : Env} {cat : SchemaCatalog}

theorem nodup_length_le : ∀ {l m : List Str}, l.Nodup → (∀ x ∈ l, x ∈ m) → l.length ≤ m.length := by
  intro l
  induction l with
  | nil => intro m _ _; exact Nat.zero_le _
  | cons a l ih =>
    intro m hn hs
    rw [List.nodup_cons] at hn
    have h1 : a ∈ m := hs a (by simp)
    have h2 := ih (m := m.erase a) hn.2 (fun x hx => (List.mem_erase_of_ne (by rintro rfl; exact hn.1 hx)).2 (hs x (by simp [hx])))
    have h3 := List.length_erase_of_mem h1
    have h4 : 0 < m.length := List.length_pos_of_mem h1
    simp only [List.length_cons]
    omega

theorem nodup_subset_full {l m : List Str} (hl : l.Nodup) (hs : ∀ x ∈ l, x ∈ m) (hm : m.Nodup) (h : m.length ≤ l.length) :
    ∀ x ∈ m, x ∈ l := by
  intro x hx
  refine Classical.byContradiction fun hc => ?_
  have h1 := nodup_length_le (l := l) (m := m.erase x) hl
    (fun y hy => (List.mem_erase_of_ne (by rintro rfl; exact hc hy)).2 (hs y hy))
  have h3 := List.length_erase_of_mem hx
  have h4 : 0 < m.length := List.length_pos_of_mem hx
  omega

/-! ### The record of types used -/

theorem mem_keys_iff {κ : Type} [DecidableEq κ] {α : Type} {k : κ} {l : List (κ × α)} : k ∈ l.map Prod.fst ↔ (lookupKey k l).isSome := by
  cases h : lookupKey k l with
  | none => simp only [Option.isSome_none, Bool.false_eq_true, iff_false]; exact lookupKey_none_iff'.1 h
  | some x =>
    simp only [Option.isSome_some, iff_true]
    exact List.mem_map.2 ⟨_, lookupKey_some_mem h, rfl⟩

theorem mem_upsert_keys {κ : Type} [DecidableEq κ] {α : Type} {k k' : κ} {v : α} {l : List (κ × α)} :
    k' ∈ (upsert k v l).map Prod.fst ↔ k' = k ∨ k' ∈ l.map Prod.fst := by
  rw [mem_keys_iff, lookupKey_upsert, mem_keys_iff]
  by_cases h : k = k'
  · simp [h]
  · simp [h, Ne.symm h]

theorem addUses_spec : ∀ (us : List TypeUse) (used : List (Str × UseTy)),
    (∀ n, n ∈ (addUses used us).map Prod.fst ↔ n ∈ used.map Prod.fst ∨ ∃ u ∈ us, u.name = n) ∧
    ((used.map Prod.fst).Nodup → ((addUses used us).map Prod.fst).Nodup) ∧
    (∀ n t, (n, t) ∈ addUses used us → (n, t) ∈ used ∨ ∃ u ∈ us, u.name = n ∧ u.ty = t) := by
  intro us
  induction us with
  | nil => intro used; exact ⟨by simp [addUses], id, fun n t h => Or.inl h⟩
  | cons u us ih =>
    intro used
    have hstep : addUses used (u :: us) =
        addUses (if u.overwrite || (lookupKey u.name used).isNone then upsert u.name u.ty used else used) us := rfl
    rw [hstep]
    split
    · obtain ⟨h1, h2, h3⟩ := ih (upsert u.name u.ty used)
      refine ⟨?_, fun hn => h2 (upsert_nodup hn), ?_⟩
      · intro n
        rw [h1, mem_upsert_keys]
        constructor
        · rintro ((rfl | h) | ⟨v, hv, rfl⟩)
          · exact Or.inr ⟨u, by simp, rfl⟩
          · exact Or.inl h
          · exact Or.inr ⟨v, by simp [hv], rfl⟩
        · rintro (h | ⟨v, hv, rfl⟩)
          · exact Or.inl (Or.inr h)
          · rcases List.mem_cons.1 hv with rfl | hv
            · exact Or.inl (Or.inl rfl)
            · exact Or.inr ⟨v, hv, rfl⟩
      · intro n t h
        rcases h3 n t h with h | ⟨v, hv, he⟩
        · rcases upsert_mem h with h | h
          · cases h; exact Or.inr ⟨u, by simp, rfl, rfl⟩
          · exact Or.inl h
        · exact Or.inr ⟨v, by simp [hv], he⟩
    · rename_i hc
      obtain ⟨h1, h2, h3⟩ := ih used
      have hm : u.name ∈ used.map Prod.fst := by
        rw [mem_keys_iff]
        simp only [Bool.or_eq_true, not_or] at hc
        cases hl : lookupKey u.name used with
        | none => rw [hl] at hc; exact absurd rfl hc.2
        | some x => rfl
      refine ⟨?_, h2, ?_⟩
      · intro n
        rw [h1]
        constructor
        · rintro (h | ⟨v, hv, rfl⟩)
          · exact Or.inl h
          · exact Or.inr ⟨v, by simp [hv], rfl⟩
        · rintro (h | ⟨v, hv, rfl⟩)
          · exact Or.inl h
          · rcases List.mem_cons.1 hv with rfl | hv
            · exact Or.inl hm
            · exact Or.inr ⟨v, hv, rfl⟩
      · intro n t h
        rcases h3 n t h with h | ⟨v, hv, he⟩
        · exact Or.inl h
        · exact Or.inr ⟨v, by simp [hv], he⟩

/-! ### Looking up a schema -/

theorem schemaWithLookup_rec {P : Sch → List TypeUse → Prop} {OkName : RegKey → Bool → Prop} (hP : ClsClosed cfg env cat P OkName)
    (hexp : ∀ r e s, cat.get r = .ok e → e.schema = some s → P s [])
    (hex : ∀ j s us, (∃ r e xs, cat.get r = .ok e ∧ e.examples = some xs ∧ j = .arr xs) → P s us →
      P (upsert c!"examples" j s) us)
    {t : UseTy} {s : Sch} {us : List TypeUse} (h : schemaWithLookup cfg env cat t = .ok (s, us)) :
    t.ref ≠ none ∧ P s us := by
  unfold schemaWithLookup at h
  split at h
  · cases h
  · rename_i r hr
    refine ⟨by rw [hr]; simp, ?_⟩
    split at h
    · cases h
    · rename_i entry he
      rw [SchRes.map_ok] at h
      obtain ⟨s0, h1, h2⟩ := h
      have h3 : P s0 us := by
        unfold entrySchema at h1
        split at h1
        · cases t with
          | ty t => exact typeToSchema_rec hP h1
          | fwd n => cases h1
        · rename_i hs; cases h1; exact hexp r entry _ he hs
      cases h2
      unfold withExamples
      split
      · rename_i hx
        split
        · exact hex _ _ _ ⟨_, _, _, he, hx, rfl⟩ h3
        · exact h3
      · exact h3

theorem defineAll_rec {P : List (Str × UseTy) → List (Str × Sch) → Prop} :
    ∀ (l used : List (Str × UseTy)) (defined : List (Str × Sch)) (r : List (Str × UseTy) × List (Str × Sch)),
    (∀ n t used defined s us, (n, t) ∈ l → P used defined → n ∉ defined.map Prod.fst → n ∈ used.map Prod.fst →
      schemaWithLookup cfg env cat t = .ok (s, us) → P (addUses used us) (upsert n s defined)) →
    (l.map Prod.fst).Nodup → (∀ n ∈ l.map Prod.fst, n ∉ defined.map Prod.fst ∧ n ∈ used.map Prod.fst) →
    P used defined → defineAll cfg env cat l used defined = .ok r →
    P r.1 r.2 ∧ (∀ n, n ∈ r.2.map Prod.fst ↔ n ∈ defined.map Prod.fst ∨ n ∈ l.map Prod.fst) := by
  intro l
  induction l with
  | nil =>
    intro used defined r _ _ _ hp h
    cases h
    exact ⟨hp, by simp⟩
  | cons x l ih =>
    intro used defined r hstep hn hl hp h
    obtain ⟨n, t⟩ := x
    rw [List.map_cons, List.nodup_cons] at hn
    simp only [defineAll] at h
    cases hs : schemaWithLookup cfg env cat t with
    | error e => rw [hs] at h; cases h
    | ok p =>
      obtain ⟨s, us⟩ := p
      rw [hs] at h
      have h1 := hl n (by simp)
      obtain ⟨h2, h3⟩ := ih (addUses used us) (upsert n s defined) r
        (fun n t used defined s us hm => hstep n t used defined s us (by simp [hm])) hn.2
        (by
          intro m hm
          refine ⟨?_, ((addUses_spec us used).1 m).2 (Or.inl (hl m (List.mem_cons_of_mem _ hm)).2)⟩
          rw [mem_upsert_keys]
          rintro (rfl | h)
          · exact hn.1 hm
          · exact (hl m (List.mem_cons_of_mem _ hm)).1 h)
        (hstep n t used defined s us (by simp) hp h1.1 h1.2 hs) h
      refine ⟨h2, ?_⟩
      intro m
      rw [h3, mem_upsert_keys]
      simp only [List.map_cons, List.mem_cons]
      constructor
      · rintro ((h | h) | h)
        · exact Or.inr (Or.inl h)
        · exact Or.inl h
        · exact Or.inr (Or.inr h)
      · rintro (h | h | h)
        · exact Or.inl (Or.inr h)
        · exact Or.inl (Or.inl h)
        · exact Or.inr h

/-- The types that are used and not yet defined. -/
abbrev undefinedTypes (used : List (Str × UseTy)) (defined : List (Str × Sch)) : List (Str × UseTy) :=
  used.filter fun u => (lookupKey u.1 defined).isNone

theorem mem_undefined {used : List (Str × UseTy)} {defined : List (Str × Sch)} {n : Str} :
    n ∈ (undefinedTypes used defined).map Prod.fst ↔ n ∈ used.map Prod.fst ∧ n ∉ defined.map Prod.fst := by
  simp only [undefinedTypes, List.mem_map, List.mem_filter]
  constructor
  · rintro ⟨p, ⟨h1, h2⟩, rfl⟩
    refine ⟨⟨p, h1, rfl⟩, ?_⟩
    have : p.1 ∉ defined.map Prod.fst := lookupKey_none_iff'.1 (Option.isNone_iff_eq_none.1 h2)
    simpa using this
  · rintro ⟨⟨p, h1, rfl⟩, h2⟩
    refine ⟨p, ⟨h1, ?_⟩, rfl⟩
    rw [lookupKey_none_iff'.2]
    · rfl
    · simpa using h2

theorem undefined_nodup {used : List (Str × UseTy)} {defined : List (Str × Sch)} (h : (used.map Prod.fst).Nodup) :
    ((undefinedTypes used defined).map Prod.fst).Nodup :=
  h.sublist (List.Sublist.map _ List.filter_sublist)

/-- The invariant of the loop without regard to references. -/
structure LoopShape (used : List (Str × UseTy)) (defined : List (Str × Sch)) : Prop where
  usedNodup : (used.map Prod.fst).Nodup
  definedNodup : (defined.map Prod.fst).Nodup
  sub : ∀ n ∈ defined.map Prod.fst, n ∈ used.map Prod.fst

theorem LoopShape.step {used : List (Str × UseTy)} {defined : List (Str × Sch)} {n : Str} {s : Sch} {us : List TypeUse}
    (h : LoopShape used defined) (hn : n ∈ used.map Prod.fst) : LoopShape (addUses used us) (upsert n s defined) := by
  obtain ⟨h1, h2, _⟩ := addUses_spec us used
  refine ⟨h2 h.usedNodup, upsert_nodup h.definedNodup, ?_⟩
  intro m hm
  rw [h1]
  rcases mem_upsert_keys.1 hm with rfl | hm
  · exact Or.inl hn
  · exact Or.inl (h.sub m hm)

theorem LoopShape.round {P : List (Str × UseTy) → List (Str × Sch) → Prop} {used used' : List (Str × UseTy)}
    {defined defined' : List (Str × Sch)}
    (hstep : ∀ n t used2 defined2 s us, (n, t) ∈ used → P used2 defined2 → LoopShape used2 defined2 →
      n ∉ defined2.map Prod.fst → n ∈ used2.map Prod.fst → schemaWithLookup cfg env cat t = .ok (s, us) →
      P (addUses used2 us) (upsert n s defined2))
    (h : LoopShape used defined) (hp : P used defined)
    (hd : defineAll cfg env cat (undefinedTypes used defined) used defined = .ok (used', defined')) :
    LoopShape used' defined' ∧ P used' defined' ∧ (∀ n ∈ used.map Prod.fst, n ∈ defined'.map Prod.fst) ∧
      ∀ n ∈ defined.map Prod.fst, n ∈ defined'.map Prod.fst := by
  obtain ⟨⟨h1, h2⟩, h3⟩ := defineAll_rec (P := fun u d => LoopShape u d ∧ P u d) (undefinedTypes used defined) used defined
    (used', defined')
    (fun n t used2 defined2 s us hm ⟨hs, hp⟩ hd hu hl =>
      ⟨hs.step hu, hstep n t used2 defined2 s us (List.mem_filter.1 hm).1 hp hs hd hu hl⟩)
    (undefined_nodup h.usedNodup) (fun n hn => ⟨(mem_undefined.1 hn).2, (mem_undefined.1 hn).1⟩) ⟨h, hp⟩ hd
  refine ⟨h1, h2, ?_, fun n hn => (h3 n).2 (Or.inl hn)⟩
  intro n hn
  rw [h3]
  by_cases hm : n ∈ defined.map Prod.fst
  · exact Or.inl hm
  · exact Or.inr (mem_undefined.2 ⟨hn, hm⟩)

theorem defineLoop_rec {P : List (Str × UseTy) → List (Str × Sch) → Prop}
    (hstep : ∀ n t used defined s us, (∃ used0 defined0, P used0 defined0 ∧ (n, t) ∈ used0) → P used defined →
      LoopShape used defined → n ∉ defined.map Prod.fst → n ∈ used.map Prod.fst →
      schemaWithLookup cfg env cat t = .ok (s, us) → P (addUses used us) (upsert n s defined)) :
    ∀ (m : Nat) (used : List (Str × UseTy)) (defined r : List (Str × Sch)), LoopShape used defined → P used defined →
      defineLoop cfg env cat m used defined = .ok r →
      ∃ used', LoopShape used' r ∧ P used' r ∧ ∀ n ∈ used'.map Prod.fst, n ∈ r.map Prod.fst := by
  intro m
  induction m with
  | zero =>
    intro used defined r hs hp h
    unfold defineLoop at h
    split at h
    · cases h
    · rename_i hl
      cases h
      refine ⟨used, hs, hp, nodup_subset_full hs.definedNodup hs.sub hs.usedNodup ?_⟩
      simpa using hl
  | succ m ih =>
    intro used defined r hs hp h
    unfold defineLoop at h
    split at h
    · cases hd : defineAll cfg env cat (undefinedTypes used defined) used defined with
      | error e => simp only [undefinedTypes] at hd; simp only [hd] at h; cases h
      | ok p =>
        obtain ⟨used', defined'⟩ := p
        obtain ⟨h1, h2, _⟩ := hs.round (P := P) (fun n t u d s us hm hp' hs => hstep n t u d s us ⟨_, _, hp, hm⟩ hp' hs) hp hd
        simp only [undefinedTypes] at hd
        simp only [hd] at h
        exact ih used' defined' r h1 h2 h
    · rename_i hl
      cases h
      refine ⟨used, hs, hp, nodup_subset_full hs.definedNodup hs.sub hs.usedNodup ?_⟩
      simpa using hl

end Verif
