import Verif.Spec.Catalog
import Verif.Lemmas.Core
/-! # Lemmas about the schema catalog -/
namespace Verif

variable {κ σ ε : Type} [DecidableEq κ] {nameOf : TypeRef κ → Res Str}

theorem registerAll_append (h h' : List (RegCall κ σ ε)) (cat : Catalog κ σ ε) :
    registerAll nameOf (h ++ h') cat = registerAll nameOf h' (registerAll nameOf h cat) := by
  induction h generalizing cat with
  | nil => rfl
  | cons c h ih => simp only [List.cons_append, registerAll, ih]

omit [DecidableEq κ] in
theorem RegCall.Is.unique {c : RegCall κ σ ε} {t n n'} (h : c.Is nameOf t n) (h' : c.Is nameOf t n') : n = n' := by
  obtain ⟨h1, h2⟩ := h
  obtain ⟨_, h2'⟩ := h'
  rcases h2 with h2 | ⟨h2, h3⟩ <;> rcases h2' with h2' | ⟨h2', h3'⟩ <;> simp_all

omit [DecidableEq κ] in
theorem everReg_snoc {h : List (RegCall κ σ ε)} {c t} :
    EverReg nameOf (h ++ [c]) t ↔ EverReg nameOf h t ∨ ∃ n, c.Is nameOf t n := by
  simp only [EverReg, List.mem_append, List.mem_singleton]
  constructor
  · rintro ⟨c', h1 | rfl, h2⟩
    · exact .inl ⟨c', h1, h2⟩
    · exact .inr h2
  · rintro (⟨c', h1, h2⟩ | h2)
    · exact ⟨c', .inl h1, h2⟩
    · exact ⟨c, .inr rfl, h2⟩

/-- Effect of one call. -/
theorem register_cases (c : RegCall κ σ ε) (cat : Catalog κ σ ε) :
    (∃ t n, c.Is nameOf t n ∧ lookupKey t cat.byType = none ∧ (register nameOf c cat).1 = .ok () ∧
      (register nameOf c cat).2 = ⟨upsert t ⟨c.schema, n, c.examples⟩ cat.byType,
        upsert n ⟨c.schema, n, c.examples⟩ cat.byName⟩) ∨
    (∃ e, (register nameOf c cat).1 = .error e ∧ (register nameOf c cat).2 = cat ∧
      ∀ t n, c.Is nameOf t n → e = .valueError ∧ lookupKey t cat.byType ≠ none) := by
  have add : ∀ n, (∀ t, c.ty = .ty t → c.Is nameOf t n) → register nameOf c cat = cat.add c.ty c.schema n c.examples →
      ((∃ t n, c.Is nameOf t n ∧ lookupKey t cat.byType = none ∧ (register nameOf c cat).1 = .ok () ∧
        (register nameOf c cat).2 = ⟨upsert t ⟨c.schema, n, c.examples⟩ cat.byType,
          upsert n ⟨c.schema, n, c.examples⟩ cat.byName⟩) ∨
      (∃ e, (register nameOf c cat).1 = .error e ∧ (register nameOf c cat).2 = cat ∧
        ∀ t n, c.Is nameOf t n → e = .valueError ∧ lookupKey t cat.byType ≠ none)) := by
    intro n hn hr
    rw [hr]
    unfold Catalog.add
    cases ht : c.ty with
    | fwd m => exact .inr ⟨_, rfl, rfl, fun t n' hi => by rw [hi.1] at ht; cases ht⟩
    | ty t =>
      cases hl : lookupKey t cat.byType with
      | none => exact .inl ⟨t, n, hn t ht, hl, by simp [hl], by simp [hl]⟩
      | some e =>
        refine .inr ⟨.valueError, by simp [hl], by simp [hl], fun t' n' hi => ⟨rfl, ?_⟩⟩
        rw [hi.1] at ht; cases ht
        simp [hl]
  cases hname : c.name with
  | some n => exact add n (fun t ht => ⟨ht, .inl hname⟩) (by simp [register, hname])
  | none =>
    cases hnm : nameOf c.ty with
    | ok n => exact add n (fun t ht => ⟨ht, .inr ⟨hname, ht ▸ hnm⟩⟩) (by simp [register, hname, hnm])
    | error e =>
      refine .inr ⟨e, by simp [register, hname, hnm], by simp [register, hname, hnm], fun t n hi => ?_⟩
      rcases hi.2 with h | ⟨_, h⟩
      · rw [hname] at h; cases h
      · rw [hi.1, h] at hnm; cases hnm

/-- Reverse induction on lists. -/
theorem snocRec {P : List α → Prop} (nil : P []) (snoc : ∀ l a, P l → P (l ++ [a])) (l : List α) : P l := by
  have : ∀ l : List α, P l.reverse := by
    intro l
    induction l with
    | nil => exact nil
    | cons a l ih => rw [List.reverse_cons]; exact snoc _ _ ih
  have := this l.reverse
  rwa [List.reverse_reverse] at this

omit [DecidableEq κ] in
theorem firstReg_snoc {h : List (RegCall κ σ ε)} {c t e} :
    FirstReg nameOf (h ++ [c]) t e ↔ FirstReg nameOf h t e ∨ (¬ EverReg nameOf h t ∧ c.Says nameOf t e) := by
  constructor
  · rintro ⟨pre, c', post, h1, h2, h3⟩
    rcases List.eq_nil_or_concat post with rfl | ⟨post', d, rfl⟩
    · have := List.append_inj' h1 rfl
      obtain ⟨rfl, h5⟩ := this
      cases h5
      exact .inr ⟨h3, h2⟩
    · have h1 : h ++ [c] = (pre ++ c' :: post') ++ [d] := by rw [h1]; simp
      obtain ⟨rfl, h5⟩ := List.append_inj' h1 rfl
      exact .inl ⟨pre, c', post', rfl, h2, h3⟩
  · rintro (⟨pre, c', post, rfl, h2, h3⟩ | ⟨h1, h2⟩)
    · exact ⟨pre, c', post ++ [c], by simp, h2, h3⟩
    · exact ⟨h, c, [], rfl, h2, h1⟩

omit [DecidableEq κ] in
theorem firstReg_everReg {h : List (RegCall κ σ ε)} {t e} (hf : FirstReg nameOf h t e) : EverReg nameOf h t := by
  obtain ⟨pre, c, post, rfl, h2, -⟩ := hf
  exact ⟨c, by simp, _, h2.1⟩

omit [DecidableEq κ] in
theorem lastNamed_snoc {h : List (RegCall κ σ ε)} {c n e} :
    LastNamed nameOf (h ++ [c]) n e ↔
      (∃ t, ¬ EverReg nameOf h t ∧ c.Says nameOf t e ∧ e.identifier = n) ∨
      ((∀ t, c.Is nameOf t n → EverReg nameOf h t) ∧ LastNamed nameOf h n e) := by
  constructor
  · rintro ⟨pre, c', post, t, h1, h2, h3, h4, h5⟩
    rcases List.eq_nil_or_concat post with rfl | ⟨post', d, rfl⟩
    · have := List.append_inj' h1 rfl
      obtain ⟨rfl, h6⟩ := this
      cases h6
      exact .inl ⟨t, h4, h2, h3⟩
    · have h1 : h ++ [c] = (pre ++ c' :: post') ++ [d] := by rw [h1]; simp
      obtain ⟨rfl, h6⟩ := List.append_inj' h1 rfl
      cases h6
      refine .inr ⟨fun t' ht' => h5 post' c [] t' (by simp) ht', pre, c', post', t, rfl, h2, h3, h4, ?_⟩
      intro pre' c'' post'' t' hp hi
      exact h5 pre' c'' (post'' ++ [c]) t' (by rw [hp]; simp) hi
  · rintro (⟨t, h1, h2, h3⟩ | ⟨h1, pre, c', post, t, rfl, h2, h3, h4, h5⟩)
    · refine ⟨h, c, [], t, rfl, h2, h3, h1, ?_⟩
      intro pre' c' post' t' hp
      simp at hp
    · refine ⟨pre, c', post ++ [c], t, by simp, h2, h3, h4, ?_⟩
      intro pre' c'' post' t' hp hi
      rcases List.eq_nil_or_concat post' with rfl | ⟨post'', d, rfl⟩
      · obtain ⟨rfl, h6⟩ := List.append_inj' hp rfl
        cases h6
        exact h1 t' hi
      · have hp : post ++ [c] = (pre' ++ c'' :: post'') ++ [d] := by rw [hp]; simp
        obtain ⟨rfl, h6⟩ := List.append_inj' hp rfl
        exact h5 pre' c'' post'' t' rfl hi

omit [DecidableEq κ] in
theorem RegCall.Is.says {c : RegCall κ σ ε} {t n} (h : c.Is nameOf t n) : c.Says nameOf t ⟨c.schema, n, c.examples⟩ :=
  ⟨h, rfl, rfl⟩

omit [DecidableEq κ] in
theorem RegCall.Says.eq {c : RegCall κ σ ε} {t n e} (h : c.Says nameOf t e) (hi : c.Is nameOf t n) :
    e = ⟨c.schema, n, c.examples⟩ := by
  obtain ⟨s, i, x⟩ := e
  obtain ⟨h1, h2, h3⟩ := h
  have := h1.unique hi
  simp_all

omit [DecidableEq κ] in
theorem RegCall.Is.ty_unique {c : RegCall κ σ ε} {t t' n n'} (h : c.Is nameOf t n) (h' : c.Is nameOf t' n') : t = t' := by
  have := h.1.symm.trans h'.1
  cases this; rfl

/-- Contents of the catalog after a history. -/
theorem registerAll_lookup (h : List (RegCall κ σ ε)) :
    (∀ t, lookupKey t (registerAll nameOf h Catalog.empty).byType = none ↔ ¬ EverReg nameOf h t) ∧
    (∀ t e, lookupKey t (registerAll nameOf h Catalog.empty).byType = some e ↔ FirstReg nameOf h t e) ∧
    (∀ n e, lookupKey n (registerAll nameOf h Catalog.empty).byName = some e ↔ LastNamed nameOf h n e) := by
  induction h using snocRec with
  | nil =>
    refine ⟨fun t => by simp [registerAll, Catalog.empty, lookupKey, EverReg], fun t e => ?_, fun n e => ?_⟩
    · simp [registerAll, Catalog.empty, lookupKey, FirstReg]
    · simp [registerAll, Catalog.empty, lookupKey, LastNamed]
  | snoc h c ih =>
    obtain ⟨ih1, ih2, ih3⟩ := ih
    rw [registerAll_append]
    simp only [registerAll]
    generalize hcat : registerAll nameOf h Catalog.empty = cat at ih1 ih2 ih3 ⊢
    rcases register_cases (nameOf := nameOf) c cat with ⟨t, n, hi, hn, -, hr⟩ | ⟨er, -, hr, he⟩
    · rw [hr]
      have hnot := (ih1 t).mp hn
      refine ⟨fun t' => ?_, fun t' e => ?_, fun n' e => ?_⟩
      · rw [lookupKey_upsert, everReg_snoc]
        by_cases htt : t' = t
        · subst htt; simp only [if_true]
          exact ⟨fun h => by simp at h, fun h => absurd (.inr ⟨n, hi⟩) h⟩
        · simp only [Ne.symm htt, if_false, ih1]
          constructor
          · rintro h1 (h2 | ⟨m, h2⟩)
            · exact h1 h2
            · exact htt (h2.ty_unique hi)
          · exact fun h1 h2 => h1 (.inl h2)
      · rw [lookupKey_upsert, firstReg_snoc]
        by_cases htt : t' = t
        · subst htt; simp only [if_true, Option.some.injEq]
          constructor
          · rintro rfl; exact .inr ⟨hnot, hi.says⟩
          · rintro (h1 | ⟨-, h1⟩)
            · exact absurd (firstReg_everReg h1) hnot
            · exact (h1.eq hi).symm
        · simp only [Ne.symm htt, if_false, ih2]
          constructor
          · exact .inl
          · rintro (h1 | ⟨-, h1⟩)
            · exact h1
            · exact absurd (h1.1.ty_unique hi) htt
      · rw [lookupKey_upsert, lastNamed_snoc]
        by_cases hnn : n' = n
        · subst hnn; simp only [if_true, Option.some.injEq]
          constructor
          · rintro rfl; exact .inl ⟨t, hnot, hi.says, rfl⟩
          · rintro (⟨t', -, h1, -⟩ | ⟨h1, -⟩)
            · have := h1.1.ty_unique hi
              subst this
              exact (h1.eq hi).symm
            · exact absurd (h1 t hi) hnot
        · simp only [Ne.symm hnn, if_false, ih3]
          constructor
          · refine fun h1 => .inr ⟨fun t' h2 => ?_, h1⟩
            have := h2.ty_unique hi
            subst this
            exact absurd (h2.unique hi) hnn
          · rintro (⟨t', -, h1, h2⟩ | ⟨-, h1⟩)
            · have := h1.1.ty_unique hi
              subst this
              exact absurd (h2.symm.trans (h1.1.unique hi)) hnn
            · exact h1
    · rw [hr]
      have hold : ∀ t n, c.Is nameOf t n → EverReg nameOf h t := by
        intro t n hi
        refine Classical.byContradiction fun hn => ?_
        exact (he t n hi).2 ((ih1 t).mpr hn)
      refine ⟨fun t => ?_, fun t e => ?_, fun n e => ?_⟩
      · rw [everReg_snoc, ih1]
        constructor
        · rintro h1 (h2 | ⟨n, h2⟩)
          · exact h1 h2
          · exact h1 (hold t n h2)
        · exact fun h1 h2 => h1 (.inl h2)
      · rw [firstReg_snoc, ih2]
        constructor
        · exact .inl
        · rintro (h1 | ⟨h1, h2⟩)
          · exact h1
          · exact absurd (hold t _ h2.1) h1
      · rw [lastNamed_snoc, ih3]
        constructor
        · exact fun h1 => .inr ⟨fun t ht => hold t n ht, h1⟩
        · rintro (⟨t, h1, h2, -⟩ | ⟨-, h1⟩)
          · exact absurd (hold t _ h2.1) h1
          · exact h1

end Verif
