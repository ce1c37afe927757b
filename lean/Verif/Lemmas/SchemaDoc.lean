import Verif.Lemmas.SchemaLoop
import Verif.Props.C13_PlainJson
/-!
# Lemmas on the document made by `classdef_to_schema`
-/
namespace Verif

variable {cfg : SchemaCfg} {env : Env} {cat : SchemaCatalog}

/-! ### The document -/

/-- What `classdef_to_schema` makes of the schema of the type and the definitions. -/
theorem document_ok {t : Ty} {root : Sch} (h : classdefToSchema cfg env cat t = .ok root) :
    ∃ s us defs, typeToSchema cfg env cat false t = .ok (s, us) ∧
      defineLoop cfg env cat (cat.byType.length + 1) (addUses [] us) [] = .ok defs ∧
      root = updateSch [(c!"$schema", js metaSchemaId)] (updateSch (if (sortByName defs).isEmpty then []
        else [(c!"definitions", .obj ((sortByName defs).map fun d => (d.1, .obj d.2)))]) s) := by
  unfold classdefToSchema at h
  cases hc : classdefSchemas cfg env cat false t with
  | error e => rw [hc] at h; cases h
  | ok p =>
    obtain ⟨s, ds⟩ := p
    rw [hc] at h
    unfold classdefSchemas at hc
    cases ht : typeToSchema cfg env cat false t with
    | error e => rw [ht] at hc; cases hc
    | ok q =>
      obtain ⟨s', us⟩ := q
      rw [ht] at hc
      simp only at hc
      cases hl : defineLoop cfg env cat (cat.byType.length + 1) (addUses [] us) [] with
      | error e => rw [hl] at hc; cases hc
      | ok defs =>
        rw [hl] at hc
        cases hc
        dsimp only at h
        refine ⟨s, us, defs, rfl, hl, ?_⟩
        generalize (if (sortByName defs).isEmpty then []
          else [(c!"definitions", Json.obj ((sortByName defs).map fun d => (d.1, .obj d.2)))]) = b at h ⊢
        split at h
        · cases h; rfl
        · cases h

theorem document_lookup {s : Sch} (b : List (Str × Json)) (hb : (b.map Prod.fst).Nodup) (k : Str)
    (x : Json) :
    lookupKey k (updateSch [(c!"$schema", x)] (updateSch b s)) =
      match lookupKey k (updateSch b s) with | some a => some a | none => lookupKey k [(c!"$schema", x)] :=
  lookupKey_updateSch k _ _ (updateSch_nodup _ _ hb)

theorem document_spec {s : Sch} (hs : KeysOk s) (defs : List (Str × Sch)) (x : Json) :
    let root := updateSch [(c!"$schema", x)] (updateSch (if defs.isEmpty then []
        else [(c!"definitions", .obj (defs.map fun d => (d.1, .obj d.2)))]) s)
    definitionsOf root = defs.map (fun d => (d.1, .obj d.2)) ∧
    (root.map Prod.fst).Nodup ∧ ∀ r, HasRef (.obj root) r ↔ HasRef (.obj s) r := by
  intro root
  have hb : ((if defs.isEmpty then []
      else [(c!"definitions", Json.obj (defs.map fun d => (d.1, .obj d.2)))]).map Prod.fst).Nodup := by split <;> simp
  have hl : ∀ k, lookupKey k root = match lookupKey k s with
      | some a => some a
      | none => match lookupKey k (if defs.isEmpty then []
          else [(c!"definitions", Json.obj (defs.map fun d => (d.1, .obj d.2)))]) with
        | some a => some a
        | none => lookupKey k [(c!"$schema", x)] := by
    intro k
    show lookupKey k (updateSch [(c!"$schema", x)] (updateSch _ s)) = _
    rw [document_lookup _ hb, lookupKey_updateSch k _ _ hs.1]
    cases lookupKey k s <;> rfl
  have hn : (root.map Prod.fst).Nodup := updateSch_nodup _ _ (by simp)
  refine ⟨?_, hn, ?_⟩
  · unfold definitionsOf
    rw [hl, lookupKey_none_iff'.2 hs.2.1]
    cases defs with
    | nil => rfl
    | cons d defs => rfl
  · have hmem : ∀ k ∈ refKeys, ∀ y, (k, y) ∈ root ↔ (k, y) ∈ s := by
      intro k hk y
      have hne : k ≠ c!"definitions" ∧ k ≠ c!"$schema" := by
        have : ∀ k ∈ refKeys, k ≠ c!"definitions" ∧ k ≠ c!"$schema" := by decide
        exact this k hk
      have h1 : lookupKey k (if defs.isEmpty then []
          else [(c!"definitions", Json.obj (defs.map fun d => (d.1, .obj d.2)))]) = none := by
        split
        · rfl
        · simp [lookupKey, Ne.symm hne.1]
      have h2 : lookupKey k [(c!"$schema", x)] = none := by simp [lookupKey, Ne.symm hne.2]
      have h3 : lookupKey k root = lookupKey k s := by
        rw [hl, h1, h2]
        cases lookupKey k s <;> rfl
      constructor
      · intro h; exact lookupKey_some_mem (h3 ▸ lookupKey_of_mem hn h)
      · intro h; exact lookupKey_some_mem (h3.symm ▸ lookupKey_of_mem hs.1 h)
    intro r
    exact ⟨hasRef_mono fun k hk y => (hmem k hk y).1, hasRef_mono fun k hk y => (hmem k hk y).2⟩

theorem loop_start (us : List TypeUse) : LoopShape (addUses [] us) [] :=
  ⟨(addUses_spec us []).2.1 (by simp), by simp, by simp⟩

theorem keys_definitions {n : Str} {defs : List (Str × Sch)} :
    n ∈ ((sortByName defs).map fun d => (d.1, Json.obj d.2)).map Prod.fst ↔ n ∈ defs.map Prod.fst := by
  simp only [List.map_map, List.mem_map, Function.comp]
  constructor
  · rintro ⟨d, h, rfl⟩; exact ⟨d, mem_sortByName.1 h, rfl⟩
  · rintro ⟨d, h, rfl⟩; exact ⟨d, mem_sortByName.2 h, rfl⟩

end Verif
