import Verif.Lemmas.SchemaDoc
import Verif.Lemmas.SchemaLoop
import Verif.Props.C13_PlainJson
/-!
# Keys in generated schemas are distinct
-/
namespace Verif

variable {cfg : SchemaCfg} {env : Env} {cat : SchemaCatalog}

/-- Schemas and examples given by the user are JSON values as they can exist in Python. -/
def CatalogWf (cat : SchemaCatalog) : Prop :=
  ∀ r e, cat.get r = .ok e → (∀ s, e.schema = some s → (Json.obj s).Wf) ∧ ∀ xs, e.examples = some xs → (Json.arr xs).Wf

theorem mem_upsert_wf {s : Sch} {k : Str} {a : Json} (hs : (Json.obj s).Wf) (ha : a.Wf) : (Json.obj (upsert k a s)).Wf := by
  cases hs with
  | obj h1 h2 =>
    refine .obj (upsert_nodup h1) fun kv hkv => ?_
    rcases upsert_mem hkv with rfl | h
    · exact ha
    · exact h2 kv h

theorem updateSch_wf : ∀ (o s : Sch), (Json.obj s).Wf → (∀ kv ∈ o, kv.2.Wf) → (Json.obj (updateSch s o)).Wf := by
  intro o
  induction o with
  | nil => intro s h _; exact h
  | cons kv o ih => intro s h ho; exact ih _ (mem_upsert_wf h (ho kv (by simp))) fun kv hkv => ho kv (by simp [hkv])

theorem wf_pairs {s : Sch} (h : (Json.obj s).Wf) : ∀ kv ∈ s, kv.2.Wf := by cases h; assumption

theorem wf_objs {ss : List Sch} (h : ∀ s ∈ ss, (Json.obj s).Wf) : (Json.arr (ss.map Json.obj)).Wf :=
  .arr fun x hx => by obtain ⟨s, hs, rfl⟩ := List.mem_map.1 hx; exact h s hs

theorem wf_refSch (n : Str) : (Json.obj (refSch cfg n)).Wf :=
  .obj (by simp [refSch]) fun kv hkv => by rcases List.mem_singleton.1 hkv with rfl; exact .str

theorem wf_closed (hh : env.HooksWf) : ClsClosed cfg env cat (fun s _ => (Json.obj s).Wf) (fun _ _ => True) where
  plain s h := .obj h.nodup fun kv hkv => (h.args kv hkv).1
  ref _ _ _ _ _ := wf_refSch _
  list s us h := .obj (by simp) (by simp [h, Json.Wf.str])
  set s us h := .obj (by simp) (by simp [h, Json.Wf.str, Json.Wf.bool])
  dict k s us s' h h' := by
    rcases dictSchema_cases h' with rfl | ⟨p, rfl⟩ | ⟨e, ed, names, _, _, _, rfl⟩
    · exact .obj (by simp) (by simp [h, Json.Wf.str])
    · refine .obj (by simp) ?_
      have : (Json.obj [(c!"pattern", js p)]).Wf := .obj (by simp) (by simp [Json.Wf.str])
      simp [h, this, Json.Wf.str]
    · refine .obj (by simp) ?_
      have : (Json.obj (names.foldl (fun ps n => upsert n (.obj s) ps) [])).Wf := by
        refine .obj (foldl_upsert_nodup _ _ _ (by simp)) fun kv hkv => ?_
        obtain ⟨n, y⟩ := kv
        obtain ⟨_, rfl⟩ := mem_foldl_upsert.1 hkv
        exact h
      simp [this, Json.Wf.str, Json.Wf.bool]
  union ps h := by
    have : (Json.arr (ps.map fun p => Json.obj p.1)).Wf :=
      .arr fun x hx => by obtain ⟨p, hp, rfl⟩ := List.mem_map.1 hx; exact h p hp
    exact .obj (by simp) (by simp [this])
  tuple n m ps h := by
    have : (Json.arr (ps.map fun p => Json.obj p.1)).Wf :=
      .arr fun x hx => by obtain ⟨p, hp, rfl⟩ := List.mem_map.1 hx; exact h p hp
    exact .obj (by simp) (by simp [this, Json.Wf.str, Json.Wf.int])
  name k b s us _ h := by
    unfold nameSchema at h
    split at h
    · cases h
    · split at h <;> cases h <;> exact wf_refSch _
  occurs _ _ _ _ _ _ _ _ := trivial
  str cd _ f _ _ s us h := by
    unfold strSchema at h
    split at h
    · split at h
      · cases h
      · cases h; exact wf_refSch _
    · split at h
      · cases h
      · cases h; exact wf_refSch _
    · cases h; exact wf_refSch _
    · cases h; exact wf_refSch _
    · cases h; exact wf_refSch _
    · cases h; exact wf_refSch _
    · cases h; exact wf_refSch _
    · cases h
  dflt j s us hj h := by
    obtain ⟨v, hv⟩ := hj
    exact mem_upsert_wf h (C13_distinct env hh _ v j hv)
  cls cd _ ps us req hn h _ := by
    have hp : (Json.obj ps).Wf := .obj hn fun kv hkv => by
      obtain ⟨s, _, h1, h2, _⟩ := h kv.1 kv.2 hkv
      rw [h1]; exact h2
    have hr : (Json.arr (req.map Json.str)).Wf := .arr fun x hx => by obtain ⟨s, _, rfl⟩ := List.mem_map.1 hx; exact .str
    refine .obj (classSchema_keys ps req).1 fun kv hkv => ?_
    unfold classSchema at hkv
    split at hkv <;> split at hkv <;> simp only [List.append_nil, List.cons_append, List.nil_append, List.mem_cons,
      List.not_mem_nil, or_false] at hkv
    · subst hkv; exact .str
    · rcases hkv with rfl | rfl
      · exact .str
      · exact hr
    · rcases hkv with rfl | rfl | rfl
      · exact .str
      · exact hp
      · exact .bool
    · rcases hkv with rfl | rfl | rfl | rfl
      · exact .str
      · exact hp
      · exact .bool
      · exact hr

theorem insertByName_perm (x : Str × α) : ∀ l, (insertByName x l).Perm (x :: l)
  | [] => .refl _
  | y :: l => by
    unfold insertByName
    split
    · exact .refl _
    · exact ((insertByName_perm x l).cons y).trans (.swap x y l)

theorem sortByName_perm : ∀ l : List (Str × α), (sortByName l).Perm l
  | [] => .refl _
  | x :: l => (insertByName_perm x _).trans ((sortByName_perm l).cons x)

theorem sortByName_keys_nodup {l : List (Str × α)} (h : (l.map Prod.fst).Nodup) : ((sortByName l).map Prod.fst).Nodup :=
  ((sortByName_perm l).map Prod.fst).nodup_iff.2 h

/-- Generated schemas are JSON values as they can exist in Python. -/
theorem document_wf (hh : env.HooksWf) (hc : CatalogWf cat) {t : Ty} {root : Sch} (h : classdefToSchema cfg env cat t = .ok root) :
    (Json.obj root).Wf := by
  obtain ⟨s, us, defs, h1, h2, rfl⟩ := document_ok h
  have hs : (Json.obj s).Wf := typeToSchema_rec (wf_closed hh) h1
  obtain ⟨used, h3, h4, -⟩ := defineLoop_rec (cfg := cfg) (env := env) (cat := cat)
    (P := fun _ defined => ∀ d ∈ defined, (Json.obj d.2).Wf)
    (by
      intro n t used defined s us _ hp _ _ _ hl d hd
      rcases upsert_mem hd with rfl | hd
      · refine (schemaWithLookup_rec (wf_closed hh) (fun r e s he hs => (hc r e he).1 s hs) ?_ hl).2
        rintro j s us ⟨r, e, xs, he, hx, rfl⟩ h
        exact mem_upsert_wf h ((hc r e he).2 xs hx)
      · exact hp d hd)
    _ _ _ _ ⟨(addUses_spec us []).2.1 (by simp), by simp, by simp⟩ (by simp) h2
  have hdefs : (Json.obj ((sortByName defs).map fun d => (d.1, Json.obj d.2))).Wf := by
    refine .obj ?_ fun kv hkv => ?_
    · rw [List.map_map]
      exact sortByName_keys_nodup h3.definedNodup
    · obtain ⟨d, hd, rfl⟩ := List.mem_map.1 hkv
      exact h4 d (mem_sortByName.1 hd)
  refine updateSch_wf _ _ (.obj (by simp) (by simp [Json.Wf.str])) (wf_pairs (updateSch_wf _ _ ?_ (wf_pairs hs)))
  split
  · exact .obj (by simp) (by simp)
  · exact .obj (by simp) (by simp [hdefs])

end Verif
