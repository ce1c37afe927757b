import Verif.Lemmas.SchemaTotal
import Verif.Props.C35_References
/-!
# The schemas that references in a document lead to
-/
namespace Verif

variable {vc : ValidatorCfg} {cfg : SchemaCfg} {env : Env} {cat : SchemaCatalog}

/-- `s` is made for the class or enumeration, with references to `names`. -/
def DefOf (cfg : SchemaCfg) (env : Env) (cat : SchemaCatalog) (names : Str → Prop) (k : RegKey) (s : Sch) : Prop :=
  match k with
  | .enum e => enumSchema env e = .ok s
  | .cls c => ∃ m us, clsSchema cfg env cat m c = .ok (s, us) ∧ UsesIn names us

theorem DefOf.mono {names names' : Str → Prop} (h : ∀ n, names n → names' n) {k : RegKey} {s : Sch}
    (hd : DefOf cfg env cat names k s) : DefOf cfg env cat names' k s := by
  cases k with
  | enum e => exact hd
  | cls c =>
    obtain ⟨m, us, h1, h2⟩ := hd
    exact ⟨m, us, h1, fun u hu => h _ (h2 u hu)⟩

/-- References to `names` lead to the schemas of the types registered under these names. -/
def GoodDoc (cfg : SchemaCfg) (env : Env) (cat : SchemaCatalog) (root : Json) (names : Str → Prop) : Prop :=
  ∀ n, names n → ∃ k e d s, lookupKey k cat.byType = some e ∧ e.identifier = n ∧
    resolveRef root (cfg.definitionsPath ++ n) = some (.obj d) ∧ SameKw d s ∧ DefOf cfg env cat names k s

/-- Types recorded are recorded under their name. -/
def UseExact (cat : SchemaCatalog) (n : Str) (t : UseTy) : Prop :=
  ∀ k, t.ref = some (.ty k) → ∃ e, lookupKey k cat.byType = some e ∧ e.identifier = n

theorem exact_closed (hn : NamesOk env cat) :
    ClsClosed cfg env cat (fun _ us => ∀ u ∈ us, UseExact cat u.name u.ty) (fun _ _ => True) where
  plain _ _ := by simp
  ref k t e hk he := by
    intro u hu
    rcases List.mem_singleton.1 hu with rfl
    intro k' hk'
    simp only [UseTy.ref, hk, Option.some.injEq, TypeRef.ty.injEq] at hk'
    subst hk'
    exact ⟨e, he, rfl⟩
  list _ _ h := h
  set _ _ h := h
  dict _ _ _ _ h _ := h
  union ps h := by
    intro u hu
    simp only [List.mem_flatten, List.mem_map] at hu
    obtain ⟨_, ⟨p, hp, rfl⟩, hu⟩ := hu
    exact h p hp u hu
  tuple n m ps h := by
    intro u hu
    simp only [List.mem_flatten, List.mem_map] at hu
    obtain ⟨_, ⟨p, hp, rfl⟩, hu⟩ := hu
    exact h p hp u hu
  name k b s us _ h := by
    unfold nameSchema at h
    split at h
    · cases h
    · split at h <;> cases h
      · intro u hu
        rcases List.mem_singleton.1 hu with rfl
        intro k' hk'
        simp [UseTy.ref] at hk'
      · simp
  occurs _ _ _ _ _ _ _ _ := trivial
  str cd hcd f hf hs := by rw [hn.strings cd hcd f hf] at hs; cases hs
  dflt _ _ _ _ h := h
  cls _ _ ps us req _ _ h := by
    intro u hu
    obtain ⟨s, us', h1, h2, _⟩ := h u hu
    exact h1 u h2

theorem withExamples_same (cfg : SchemaCfg) (x : Option (List Json)) (s : Sch) : SameKw (withExamples cfg x s) s := by
  unfold withExamples
  split
  · split
    · exact SameKw.upsert s (by decide)
    · exact SameKw.refl s
  · exact SameKw.refl s

/-- A definition is made for the type recorded. -/
theorem define_ok (hexp : ∀ r e, cat.get r = .ok e → e.schema = none) {t : UseTy} {s : Sch} {us : List TypeUse}
    (h : schemaWithLookup cfg env cat t = .ok (s, us)) :
    ∃ k s0, t.ref = some (.ty k) ∧ SameKw s s0 ∧ ∀ names, UsesIn names us → DefOf cfg env cat names k s0 := by
  unfold schemaWithLookup at h
  split at h
  · cases h
  · rename_i r hr
    split at h
    · cases h
    · rename_i entry he
      rw [SchRes.map_ok] at h
      obtain ⟨s0, h1, h2⟩ := h
      cases h2
      rw [hexp r entry he] at h1
      cases t with
      | fwd n => cases h1
      | ty t =>
        replace h1 : typeToSchema cfg env cat true t = .ok (s0, us) := h1
        cases t <;> simp only [UseTy.ref, Ty.regKey, reduceCtorEq, Option.some.injEq] at hr
        · rename_i e
          refine ⟨.enum e, s0, rfl, withExamples_same _ _ _, ?_⟩
          intro names _
          simp only [typeToSchema, tySchema, Bool.false_eq_true, if_false, if_true] at h1
          cases hs : enumSchema env e with
          | error err => rw [hs] at h1; cases h1
          | ok s1 => rw [hs] at h1; cases h1; exact hs
        · rename_i c
          refine ⟨.cls c, s0, rfl, withExamples_same _ _ _, ?_⟩
          intro names hu
          simp only [typeToSchema, tySchema, Bool.false_eq_true, if_false, if_true] at h1
          exact ⟨_, us, h1, hu⟩

theorem SchemaNames.namesOk (h : SchemaNames cfg env cat) : NamesOk env cat :=
  ⟨fun cd hcd => (h.classes cd hcd).strings, fun cd hcd => (h.classes cd hcd).forward⟩

/-- The document holds the schema of the type, and references lead to the schemas of registered types. -/
theorem document_good (h : SchemaNames cfg env cat) {t : Ty} {root : Sch} (hd : classdefToSchema cfg env cat t = .ok root) :
    ∃ names s us, typeToSchema cfg env cat false t = .ok (s, us) ∧ UsesIn names us ∧ SameKw root s ∧
      GoodDoc cfg env cat (.obj root) names := by
  obtain ⟨s, us, defs, h1, h2, hroot⟩ := document_ok hd
  have hkeys : KeysOk s := typeToSchema_rec keys_closed h1
  have hspec := document_spec hkeys (sortByName defs) (js metaSchemaId)
  simp only at hspec
  rw [← hroot] at hspec
  obtain ⟨used, h3, ⟨ha, hb, hc⟩, h5⟩ := defineLoop_rec (cfg := cfg) (env := env) (cat := cat)
    (P := fun used defined => (∀ n t, (n, t) ∈ used → UseExact cat n t) ∧
      (∀ n d, (n, d) ∈ defined → ∃ k e s0, lookupKey k cat.byType = some e ∧ e.identifier = n ∧ SameKw d s0 ∧
        DefOf cfg env cat (fun m => m ∈ used.map Prod.fst) k s0) ∧
      ∀ u ∈ us, u.name ∈ used.map Prod.fst)
    (by
      rintro n t used defined s' us' ⟨used0, defined0, ⟨hx, _, _⟩, hmem⟩ ⟨ha, hb, hc⟩ hs hn hu hl
      obtain ⟨k, s0, hk, hsame, hdef⟩ := define_ok h.explicit hl
      obtain ⟨e, he, hid⟩ := hx n t hmem k hk
      obtain ⟨g1, _, g3⟩ := addUses_spec us' used
      have hexact := (schemaWithLookup_rec (exact_closed (cfg := cfg) h.namesOk)
        (fun r e s hg hs => by rw [h.explicit r e hg] at hs; cases hs) (fun _ _ _ _ h => h) hl).2
      refine ⟨?_, ?_, ?_⟩
      · intro m t' hm
        rcases g3 m t' hm with hm | ⟨u, hu, rfl, rfl⟩
        · exact ha m t' hm
        · exact hexact u hu
      · intro m d hm
        rcases upsert_mem hm with hm | hm
        · cases hm
          exact ⟨k, e, s0, he, hid, hsame, hdef _ fun u hu => (g1 _).2 (Or.inr ⟨u, hu, rfl⟩)⟩
        · obtain ⟨k', e', s1, a1, a2, a3, a4⟩ := hb m d hm
          exact ⟨k', e', s1, a1, a2, a3, a4.mono fun x hx => (g1 _).2 (Or.inl hx)⟩
      · intro u hu; exact (g1 _).2 (Or.inl (hc u hu)))
    _ _ _ _ (loop_start us) (by
      obtain ⟨g1, _, g3⟩ := addUses_spec us []
      refine ⟨?_, by simp, fun u hu => (g1 _).2 (Or.inr ⟨u, hu, rfl⟩)⟩
      intro n t hm
      rcases g3 n t hm with hm | ⟨u, hu, rfl, rfl⟩
      · cases hm
      · exact typeToSchema_rec (exact_closed (cfg := cfg) h.namesOk) h1 u hu) h2
  refine ⟨fun n => n ∈ used.map Prod.fst, s, us, h1, hc, ?_, ?_⟩
  · -- the same keywords
    have hb' : ((if (sortByName defs).isEmpty then []
        else [(c!"definitions", Json.obj ((sortByName defs).map fun d => (d.1, .obj d.2)))]).map Prod.fst).Nodup := by split <;> simp
    have hl : ∀ k, k ≠ c!"definitions" → k ≠ c!"$schema" → lookupKey k root = lookupKey k s := by
      intro k hk1 hk2
      rw [hroot, document_lookup _ hb', lookupKey_updateSch k _ _ hkeys.1]
      have h1 : lookupKey k (if (sortByName defs).isEmpty then []
          else [(c!"definitions", Json.obj ((sortByName defs).map fun d => (d.1, .obj d.2)))]) = none := by
        split
        · rfl
        · simp [lookupKey, Ne.symm hk1]
      have h2 : lookupKey k [(c!"$schema", js metaSchemaId)] = none := by simp [lookupKey, Ne.symm hk2]
      rw [h1, h2]
      cases lookupKey k s <;> rfl
    refine ⟨?_, ?_⟩
    · intro k a hk
      have h1 : k ≠ c!"definitions" := by rintro rfl; exact hk (by decide)
      have h2 : k ≠ c!"$schema" := by rintro rfl; exact hk (by decide)
      constructor
      · intro hm; exact lookupKey_some_mem (hl k h1 h2 ▸ lookupKey_of_mem hspec.2.1 hm)
      · intro hm; exact lookupKey_some_mem ((hl k h1 h2).symm ▸ lookupKey_of_mem hkeys.1 hm)
    · unfold schemaProperties
      rw [hl _ (by decide) (by decide)]
  · intro n hn
    have hm : n ∈ (definitionsOf root).map Prod.fst := by rw [hspec.1]; exact keys_definitions.2 (h5 n hn)
    rw [mem_keys_iff] at hm
    obtain ⟨x, hx⟩ := Option.isSome_iff_exists.1 hm
    have hx' := lookupKey_some_mem hx
    rw [hspec.1] at hx'
    obtain ⟨⟨m, d⟩, hd1, hd2⟩ := List.mem_map.1 hx'
    cases hd2
    obtain ⟨k, e, s0, a1, a2, a3, a4⟩ := hb _ _ (mem_sortByName.1 hd1)
    refine ⟨k, e, d, s0, a1, a2, ?_, a3, a4⟩
    rw [h.path]
    exact C35_resolves _ _ _ hx (by rw [← a2]; exact h.names k e a1)

/-- Definitions are schemas of classes and enumerations. -/
theorem GoodDoc.refsGood (h : NamesOk env cat) {root : Json} {names : Str → Prop} (hg : GoodDoc cfg env cat root names) :
    RefsGood cfg root names := by
  intro n hn
  obtain ⟨k, e, d, s, _, _, h3, h4, h5⟩ := hg n hn
  refine ⟨d, s, h3, h4, ?_⟩
  cases k with
  | enum e => exact Or.inl (plain_enumSchema h5)
  | cls c =>
    obtain ⟨m, us, h6, h7⟩ := h5
    cases m with
    | zero => cases h6
    | succ m =>
      cases hc : env.classes[c]? with
      | none => simp only [clsSchema, hc] at h6; cases h6
      | some cd =>
        obtain ⟨ps, h8, rfl⟩ := clsSchema_ok hc h6
        have hcd := List.mem_of_getElem? hc
        refine Or.inr ⟨ps, _, rfl, ?_⟩
        obtain ⟨a1, _, a3, _⟩ := propSchemas_ok h8
        have hnd := a3 (by simp)
        have hP := gen_closed (cfg := cfg) h names
        intro k x hx
        rcases a1 k x (lookupKey_of_mem hnd hx) with h' | ⟨f, hf, _, s, us', h2, rfl, h4⟩
        · cases h'
        · have hu : UsesIn names us' := fun u hu => h7 u (h4 u hu)
          unfold propSchema at h2
          rw [SchRes.map_ok, h.strings cd hcd f hf] at h2
          obtain ⟨s0, h9, h10⟩ := h2
          have h11 := tySchema_rec hP.toSchClosed (clsSchema_rec hP m) hP.name _ _ _ _ (fun hfw => hP.occurs cd hcd f hf hfw) h9 hu
          rcases withDefault_ok h10 with rfl | ⟨j, _, rfl⟩
          · exact h11
          · exact .dflt h11

end Verif
