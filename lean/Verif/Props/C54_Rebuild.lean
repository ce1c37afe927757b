import Verif.Lemmas.RebuildAll
import Verif.Lemmas.Twin
import Verif.Props.C54_Regenerate
/-!
# C54: classes that are made again from their schemas

For the programs of `RebuildableProgram` the type is made, it reads what is written for values of the class, and writes it again.
-/
namespace Verif

/-- C54 in part: for a class of plain types, enumerations, lists and data classes, a type is made from the schema.  What is written
for a value of the class is read by the new type as one of its values, for which the same is written.  Missing: programs for which
no type is made, as in the violations of C54, and unions of several types. -/
theorem C54_rebuilt_partial (scfg : SchemaCfg) (bcfg : BuildCfg) (env : Env) (hA : env.Ok) (cat : SchemaCatalog) (name : Str) (c : Nat)
    (hp : RebuildableProgram bcfg scfg env cat name c) (root : Sch) (hr : classdefToSchema scfg env cat (.cls c) = .ok root) :
    ∃ t st, schemaToType bcfg name (.obj root) ⟨noClasses, [], []⟩ = .ok (t, st) ∧ st.env.Ok ∧
      ∀ v, HasTy env v (.cls c) → Encodable v → ∀ skip, ∃ j w, objectToJson env v = .ok j ∧ loads st.env skip t j = .ok w ∧
        HasTy st.env w t ∧ objectToJson st.env w = .ok j := by
  obtain ⟨u, st, h1, h2, h3⟩ := document_make hA hp hr (E := noClasses) ⟨rfl, rfl, fun _ => .refl _⟩
  exact ⟨u, st, h1, h2, fun v hv he skip => h3.roundtrip hA h2 v hv he skip⟩

/-- C54 in part, with the class and the new type in exchanged roles: what is written for a value of the new type is read by the
class as one of its values, for which the same is written. -/
theorem C54_read_back_partial (scfg : SchemaCfg) (bcfg : BuildCfg) (env : Env) (hA : env.Ok) (hb : ReadsBack env) (cat : SchemaCatalog)
    (name : Str) (c : Nat) (hp : RebuildableProgram bcfg scfg env cat name c) (root : Sch)
    (hr : classdefToSchema scfg env cat (.cls c) = .ok root) (t : Ty) (st : BuildSt)
    (ht : schemaToType bcfg name (.obj root) ⟨noClasses, [], []⟩ = .ok (t, st)) (w : Val) (hw : HasTy st.env w t) (he : Encodable w)
    (skip : Bool) : ∃ j v, objectToJson st.env w = .ok j ∧ loads env skip (.cls c) j = .ok v ∧ HasTy env v (.cls c) ∧
      objectToJson env v = .ok j := by
  obtain ⟨u, st', h1, h2, h3⟩ := document_make hA hp hr (E := noClasses) ⟨rfl, rfl, fun _ => .refl _⟩
  rw [ht] at h1
  cases h1
  exact h3.twin.symm.exchange h2 hA hb w hw he skip

/-! ### The hypotheses are met -/

private theorem leaf_reg {k : RegKey} {e : CatEntry Sch (List Json)} (h : lookupKey k groveCat.byType = some e) :
    k = .cls 0 ∧ e.identifier = c!"Leaf" ∧ e.schema = none ∧ e.examples = none := by
  by_cases hk : RegKey.cls 0 = k
  · subst hk; cases h; exact ⟨rfl, rfl, rfl, rfl⟩
  · simp [groveCat, catalogOf, registerAll, register, Catalog.add, Catalog.empty, lookupKey, upsert, hk] at h

private theorem fits {f : FieldDef} (h1 : f.strAnn = false ∧ f.fwd = false)
    (h2 : (isIdentifier cfg53 f.jsonName && !isKeyword f.jsonName && !isDunderName f.jsonName) = true)
    (h3 : f.jsonName.getLast? ≠ some '_' ∧ ¬ c!"__" <:+: f.jsonName) (h4 : f.dflt = .missing) : FieldFits cfg53 f := by
  simp only [Bool.and_eq_true, Bool.not_eq_true'] at h2
  exact ⟨h1, h2.1, h2.2, h3, fun v hv => by rw [h4] at hv; cases hv⟩

/-- Groves can be made again from their schema. -/
theorem grove_rebuildable : RebuildableProgram cfg53 cfg54 groveEnv groveCat c!"Grove" 1 where
  path := rfl
  entry k e h := (leaf_reg h).2.2
  identifier k e h := by rw [(leaf_reg h).2.1]; exact ⟨by decide, by decide⟩
  unique k e k' e' h h' _ := (leaf_reg h).1.trans (leaf_reg h').1.symm
  types k e h := by
    rw [(leaf_reg h).1]
    refine .cls (.inl rfl) rfl rfl rfl (by simp) ?_ (by decide) ?_
    · intro f hf
      simp only [List.mem_cons, List.not_mem_nil, or_false] at hf
      rcases hf with rfl | rfl | rfl <;> exact fits ⟨rfl, rfl⟩ (by decide) (by decide) rfl
    · intro f hf
      simp only [List.mem_cons, List.not_mem_nil, or_false] at hf
      rcases hf with rfl | rfl | rfl
      · exact .literal (by simp) (by simp)
      · exact .enum (vs := [c!"red", c!"green"]) (.inr rfl) rfl rfl rfl (by simp) ⟨by decide, by decide⟩
      · exact .leaf (show Ty.str ∈ rebuiltTys by simp [rebuiltTys])
  nul := by decide
  top k e h := by rw [(leaf_reg h).2.1]; decide
  apart d d' h h' := by
    have : ∀ d, (d = c!"Grove" ∨ ∃ k e, lookupKey k groveCat.byType = some e ∧ e.identifier = d) → d = c!"Grove" ∨ d = c!"Leaf" := by
      rintro d (h | ⟨k, e, h, rfl⟩)
      · exact .inl h
      · exact .inr (leaf_reg h).2.1
    rcases this d h with rfl | rfl <;> rcases this d' h' with rfl | rfl <;> decide
  ends d h := by
    rcases h with rfl | ⟨k, e, h, rfl⟩
    · decide
    · rw [(leaf_reg h).2.1]; decide
  unregistered := rfl
  root := by
    refine .cls (.inr rfl) rfl rfl rfl (by simp) ?_ (by decide) ?_
    · intro f hf
      simp only [List.mem_cons, List.not_mem_nil, or_false] at hf
      rcases hf with rfl | rfl | rfl <;> exact fits ⟨rfl, rfl⟩ (by decide) (by decide) rfl
    · intro f hf
      simp only [List.mem_cons, List.not_mem_nil, or_false] at hf
      rcases hf with rfl | rfl | rfl
      · exact .simple (by simp [rebuiltTys]) (by simp [MetaAllowed])
      · exact .list (.known rfl rfl trivial)
      · exact .leaf (show Ty.date ∈ rebuiltTys by simp [rebuiltTys])

theorem grove_reads_back : ReadsBack groveEnv := by
  intro cd hc
  simp only [groveEnv, List.mem_cons, List.not_mem_nil, or_false] at hc
  rcases hc with rfl | rfl
  all_goals
    refine ⟨rfl, fun f hf => ?_⟩
    simp only [List.mem_cons, List.not_mem_nil, or_false] at hf
    rcases hf with rfl | rfl | rfl <;> exact ⟨by decide, fun h => by first | rfl | cases h⟩

/-- The hypotheses of `C54_rebuilt_partial` are met by groves. -/
example : ∃ t st w, schemaToType cfg53 c!"Grove" (.obj groveSchema) ⟨noClasses, [], []⟩ = .ok (t, st) ∧
    loads st.env false t groveData = .ok w ∧ objectToJson st.env w = .ok groveData := by
  obtain ⟨t, st, h1, -, h2⟩ := C54_rebuilt_partial cfg54 cfg53 groveEnv grove_program.ok groveCat c!"Grove" 1 grove_rebuildable
    groveSchema grove_schema
  have leaf : ∀ {v : Val}, v.isLeaf = true → (∀ d, v ≠ .datetime d) → (∀ d, v ≠ .timedelta d) →
      (∀ d, v ≠ .time d) → Encodable v :=
    fun h h1 h2 h3 => .leaf h (fun d hd => absurd hd (h1 d)) (fun d hd => absurd hd (h2 d)) (fun d hd => absurd hd (h3 d))
  have he : Encodable groveVal := by
    refine .obj fun kv hkv => ?_
    simp only [List.mem_cons, List.not_mem_nil, or_false] at hkv
    rcases hkv with rfl | rfl | rfl
    · exact leaf rfl (by simp) (by simp) (by simp)
    · refine .list fun v hv => ?_
      rw [List.mem_singleton] at hv
      subst hv
      refine .obj fun kv hkv => ?_
      simp only [List.mem_cons, List.not_mem_nil, or_false] at hkv
      rcases hkv with rfl | rfl | rfl <;> exact leaf rfl (by simp) (by simp) (by simp)
    · exact leaf rfl (by simp) (by simp) (by simp)
  obtain ⟨j, w, h3, h4, -, h5⟩ := h2 groveVal grove_conforms.hasTy he false
  have hj : objectToJson groveEnv groveVal = .ok groveData := by with_unfolding_all rfl
  rw [hj] at h3
  cases h3
  exact ⟨t, st, w, h1, h4, h5⟩

/-- The hypotheses of `C54_read_back_partial` are met by groves: a value of the new type. -/
example : ∃ t st w v, schemaToType cfg53 c!"Grove" (.obj groveSchema) ⟨noClasses, [], []⟩ = .ok (t, st) ∧ HasTy st.env w t ∧
    objectToJson st.env w = .ok (.obj [(c!"size", .int 0), (c!"leaves", .arr []), (c!"planted", .str c!"2024-02-29")]) ∧
    loads groveEnv false (.cls 1) (.obj [(c!"size", .int 0), (c!"leaves", .arr []), (c!"planted", .str c!"2024-02-29")]) = .ok v := by
  have h : ∃ t st, schemaToType cfg53 c!"Grove" (.obj groveSchema) ⟨noClasses, [], []⟩ = .ok (t, st) ∧
      HasTy st.env (.obj 1 [(c!"size", .int 0), (c!"leaves", .list []), (c!"planted", .date ⟨2024, 2, 29⟩)]) t ∧
      objectToJson st.env (.obj 1 [(c!"size", .int 0), (c!"leaves", .list []), (c!"planted", .date ⟨2024, 2, 29⟩)]) =
        .ok (.obj [(c!"size", .int 0), (c!"leaves", .arr []), (c!"planted", .str c!"2024-02-29")]) := by
    refine ⟨_, _, by with_unfolding_all rfl, ?_, by with_unfolding_all rfl⟩
    refine .cls rfl rfl ?_
    rintro (_ | _ | _ | i) f w h1 h2 <;> cases h1 <;> cases h2
    · exact .annotated .int
    · exact .list (by simp)
    · exact .date (by constructor <;> decide)
  obtain ⟨t, st, h1, h2, h3⟩ := h
  have he : Encodable (.obj 1 [(c!"size", .int 0), (c!"leaves", .list []), (c!"planted", .date ⟨2024, 2, 29⟩)]) := by
    refine .obj fun kv hkv => ?_
    simp only [List.mem_cons, List.not_mem_nil, or_false] at hkv
    rcases hkv with rfl | rfl | rfl
    · exact .leaf rfl (by simp) (by simp) (by simp)
    · exact .list (by simp)
    · exact .leaf rfl (by simp) (by simp) (by simp)
  obtain ⟨j, v, h4, h5, -⟩ := C54_read_back_partial cfg54 cfg53 groveEnv grove_program.ok grove_reads_back groveCat c!"Grove" 1
    grove_rebuildable groveSchema grove_schema t st h1 _ h2 he false
  rw [h3] at h4
  cases h4
  exact ⟨t, st, _, v, h1, h2, h3, h5⟩

/-! ### The conditions are needed -/

/-- `class T: x: Optional[int] = 5` -/
def fiveEnv : Env := classEnv (oneField c!"T" { name := c!"x", ty := .union [.int, .none], dflt := .value (.int 5) })

/-- The default of an optional field is in the schema.  `None` is not written, and read as the default by the new type: what is
written for the value read is different. -/
theorem C54_optional_default : ∃ root t st v j w j', HasTy fiveEnv v (.cls 0) ∧ Encodable v ∧
    classdefToSchema cfg54 fiveEnv noneRegistered (.cls 0) = .ok root ∧
    schemaToType cfg53 c!"T" (.obj root) ⟨noClasses, [], []⟩ = .ok (t, st) ∧ objectToJson fiveEnv v = .ok j ∧
    loads st.env false t j = .ok w ∧ objectToJson st.env w = .ok j' ∧ j = .obj [] ∧ j' = .obj [(c!"x", .int 5)] := by
  refine ⟨_, _, _, .obj 0 [(c!"x", .none)], _, _, _, ?_, ?_, by with_unfolding_all rfl, by with_unfolding_all rfl, by with_unfolding_all rfl, by with_unfolding_all rfl,
    by with_unfolding_all rfl, rfl, rfl⟩
  · refine .cls rfl rfl ?_
    rintro (_ | i) f w h1 h2 <;> cases h1 <;> cases h2
    exact .union (t := .none) (by simp) .none
  · refine .obj fun kv hkv => ?_
    rw [List.mem_singleton] at hkv
    subst hkv
    exact .leaf rfl (by simp) (by simp) (by simp)

end Verif
