import Verif.Model.Schema
import Verif.Lemmas.Core
/-!
# Lemmas on schema generation
-/
namespace Verif

variable {cfg : SchemaCfg} {env : Env} {cat : SchemaCatalog} {cls : Nat → SchRes Sch}

theorem ite_error_ok {p : Prop} [Decidable p] {e : Err} {r : Res α} {a : α} :
    (if p then .error e else r) = .ok a ↔ ¬ p ∧ r = .ok a := by
  by_cases h : p <;> simp [h]

theorem SchRes.map_ok {f : α → Res β} {r : SchRes α} {b : β} {us : List TypeUse} :
    r.map f = .ok (b, us) ↔ ∃ a, r = .ok (a, us) ∧ f a = .ok b := by
  cases r with
  | error e => simp [SchRes.map]
  | ok p =>
    obtain ⟨a, us'⟩ := p
    simp only [SchRes.map]
    cases h : f a with
    | error e =>
      simp only [reduceCtorEq, Except.ok.injEq, Prod.mk.injEq, false_iff]
      rintro ⟨a', ⟨rfl, rfl⟩, h'⟩
      rw [h] at h'; cases h'
    | ok b' =>
      simp only [Except.ok.injEq, Prod.mk.injEq]
      constructor
      · rintro ⟨rfl, rfl⟩; exact ⟨a, ⟨rfl, rfl⟩, h⟩
      · rintro ⟨a', ⟨rfl, rfl⟩, h'⟩; rw [h] at h'; cases h'; exact ⟨rfl, rfl⟩

theorem tySchemas_ok {fwd skip : Bool} : ∀ {ts : List Ty} {ss : List Sch} {us : List TypeUse}, tySchemas cfg env cat cls fwd skip ts = .ok (ss, us) →
    ss.length = ts.length ∧
    (∀ (i : Nat) t s, ts[i]? = some t → ss[i]? = some s → ∃ us', tySchema cfg env cat cls fwd skip t = .ok (s, us') ∧
      ∀ u ∈ us', u ∈ us) ∧
    (∀ u ∈ us, ∃ (i : Nat) (t : Ty) (s : Sch) (us' : List TypeUse), ts[i]? = some t ∧ ss[i]? = some s ∧
      tySchema cfg env cat cls fwd skip t = .ok (s, us') ∧ u ∈ us') := by
  intro ts
  induction ts with
  | nil =>
    intro ss us h
    simp only [tySchemas] at h
    cases h
    exact ⟨rfl, by simp, by simp⟩
  | cons t ts ih =>
    intro ss us h
    simp only [tySchemas] at h
    cases ht : tySchema cfg env cat cls fwd skip t with
    | error e => rw [ht] at h; cases h
    | ok p =>
      obtain ⟨s, us1⟩ := p
      rw [ht] at h
      simp only at h
      cases hts : tySchemas cfg env cat cls fwd skip ts with
      | error e => rw [hts] at h; cases h
      | ok p =>
        obtain ⟨ss2, us2⟩ := p
        rw [hts] at h
        simp only at h
        cases h
        obtain ⟨h1, h2, h3⟩ := ih hts
        refine ⟨by simp [h1], ?_, ?_⟩
        · intro i t' s' hi hs
          cases i with
          | zero =>
            simp only [List.getElem?_cons_zero, Option.some.injEq] at hi hs
            subst hi; subst hs
            exact ⟨us1, ht, fun u hu => by simp [hu]⟩
          | succ i =>
            simp only [List.getElem?_cons_succ] at hi hs
            obtain ⟨us', h4, h5⟩ := h2 i t' s' hi hs
            exact ⟨us', h4, fun u hu => by simp [h5 u hu]⟩
        · intro u hu
          rcases List.mem_append.1 hu with hu | hu
          · exact ⟨0, t, s, us1, rfl, rfl, ht, hu⟩
          · obtain ⟨i, t', s', us', h4, h5, h6, h7⟩ := h3 u hu
            exact ⟨i + 1, t', s', us', h4, h5, h6, h7⟩

/-- The loop over the properties of a class. -/
theorem propSchemas_ok {kind : ClassKind} : ∀ {fs : List FieldDef} {acc ps : List (Str × Json)} {us : List TypeUse},
    propSchemas cfg env cat cls kind fs acc = .ok (ps, us) →
    (∀ k x, lookupKey k ps = some x → lookupKey k acc = some x ∨ ∃ f ∈ fs, schemaProp kind f = k ∧ ∃ s us',
      propSchema cfg env cat cls kind f = .ok (s, us') ∧ x = .obj s ∧ ∀ u ∈ us', u ∈ us) ∧
    (∀ k, (lookupKey k ps).isSome ↔ (lookupKey k acc).isSome ∨ ∃ f ∈ fs, schemaProp kind f = k) ∧
    ((acc.map Prod.fst).Nodup → (ps.map Prod.fst).Nodup) ∧
    (∀ u ∈ us, ∃ f ∈ fs, ∃ s us', propSchema cfg env cat cls kind f = .ok (s, us') ∧ u ∈ us') ∧
    ((∀ f ∈ fs, lookupKey (schemaProp kind f) acc = none) → (fs.map (schemaProp kind)).Nodup →
      (∀ k x, lookupKey k acc = some x → lookupKey k ps = some x) ∧
      ∀ f ∈ fs, ∃ s us', propSchema cfg env cat cls kind f = .ok (s, us') ∧
        lookupKey (schemaProp kind f) ps = some (.obj s) ∧ ∀ u ∈ us', u ∈ us) := by
  intro fs
  induction fs with
  | nil =>
    intro acc ps us h
    simp only [propSchemas] at h
    cases h
    exact ⟨fun k x h => Or.inl h, by simp, id, by simp, fun _ _ => ⟨fun _ _ => id, by simp⟩⟩
  | cons f fs ih =>
    intro acc ps us h
    simp only [propSchemas] at h
    cases hf : propSchema cfg env cat cls kind f with
    | error e => rw [hf] at h; cases h
    | ok p =>
      obtain ⟨s, us1⟩ := p
      rw [hf] at h
      simp only at h
      cases hr : propSchemas cfg env cat cls kind fs (upsert (schemaProp kind f) (.obj s) acc) with
      | error e => rw [hr] at h; cases h
      | ok p =>
        obtain ⟨ps2, us2⟩ := p
        rw [hr] at h
        simp only at h
        cases h
        obtain ⟨h1, h2, h3, h4, h5⟩ := ih hr
        refine ⟨?_, ?_, ?_, ?_, ?_⟩
        · intro k x hk
          rcases h1 k x hk with h | ⟨g, hg, he, s', us', h6, h7, h8⟩
          · rw [lookupKey_upsert] at h
            split at h
            · rename_i he
              cases h
              exact Or.inr ⟨f, by simp, he, s, us1, hf, rfl, fun u hu => by simp [hu]⟩
            · exact Or.inl h
          · exact Or.inr ⟨g, by simp [hg], he, s', us', h6, h7, fun u hu => by simp [h8 u hu]⟩
        · intro k
          rw [h2, lookupKey_upsert]
          by_cases he : schemaProp kind f = k
          · simp [he]
          · simp [he]
        · intro hn; exact h3 (upsert_nodup hn)
        · intro u hu
          rcases List.mem_append.1 hu with hu | hu
          · exact ⟨f, by simp, s, us1, hf, hu⟩
          · obtain ⟨g, hg, s', us', h6, h7⟩ := h4 u hu
            exact ⟨g, by simp [hg], s', us', h6, h7⟩
        · intro hfresh hnd
          rw [List.map_cons, List.nodup_cons] at hnd
          obtain ⟨h6, h7⟩ := h5 (by
            intro g hg
            rw [lookupKey_upsert, if_neg]
            · exact hfresh g (by simp [hg])
            · intro he
              exact hnd.1 (List.mem_map.2 ⟨g, hg, he.symm⟩)) hnd.2
          refine ⟨?_, ?_⟩
          · intro k x hk
            refine h6 k x ?_
            rw [lookupKey_upsert, if_neg]
            · exact hk
            · rintro rfl
              rw [hfresh f (by simp)] at hk; cases hk
          · intro g hg
            rcases List.mem_cons.1 hg with rfl | hg
            · exact ⟨s, us1, hf, h6 _ _ (by rw [lookupKey_upsert]; simp), fun u hu => by simp [hu]⟩
            · obtain ⟨s', us', h8, h9, h10⟩ := h7 g hg
              exact ⟨s', us', h8, h9, fun u hu => by simp [h10 u hu]⟩

theorem classSchema_properties (ps : List (Str × Json)) (rs : List Str) (h : ps ≠ []) :
    lookupKey c!"properties" (classSchema ps rs) = some (.obj ps) := by
  have : ps.isEmpty = false := by cases ps with | nil => exact absurd rfl h | cons => rfl
  simp [classSchema, lookupKey, this]

/-- The schema of a class, taken apart. -/
theorem clsSchema_ok {n c : Nat} {cd : ClassDef} {s : Sch} {us : List TypeUse} (hc : env.classes[c]? = some cd)
    (h : clsSchema cfg env cat (n + 1) c = .ok (s, us)) :
    ∃ ps, propSchemas cfg env cat (clsSchema cfg env cat n) cd.kind cd.hints [] = .ok (ps, us) ∧
      s = classSchema ps ((cd.hints.filter (schemaRequired cd.kind)).map (schemaProp cd.kind)) := by
  simp only [clsSchema, hc] at h
  rw [SchRes.map_ok] at h
  obtain ⟨ps, h1, h2⟩ := h
  cases h2
  exact ⟨ps, h1, rfl⟩

end Verif
