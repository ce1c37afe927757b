import Verif.Lemmas.LiberalUnion
import Verif.Props.C62_ValidRead
/-!
# C79: data that is read is valid for the schema, but for the liberties of the reader

The other direction of C62.  `json_to_object(T, data)` returns objects for data that `validate_object(T, data)` refuses.  Which
data that is: for the types of Spec/Liberal.lean, data that takes one of the liberties listed there (`Lax`), and no other.
-/
namespace Verif

variable {fmt : Str → Str → Bool} {vc : ValidatorCfg} {cfg : SchemaCfg} {env : Env} {cat : SchemaCatalog}

/-- C79: data that is read and takes no liberty is valid for the schema.  Missing: types and programs for which this is not so, see
below. -/
theorem C79_read_is_valid_partial (hp : SchemaNames cfg env cat) (hk : env.Ok)
    (hm : ∀ cd ∈ env.classes, ClassMirrored vc cfg env cd) (t : Ty) (ht : Mirrored vc cfg env t) (root : Sch)
    (hr : classdefToSchema cfg env cat t = .ok root) (j : Json) (hw : j.Wf) (hl : ¬ Lax vc cfg env t j) (v : Val)
    (h : loads env false t j = .ok v) : Validates vc (.obj root) (.obj root) j :=
  (C65_meaning_partial hp t root hr j hw).1.2 (read_admits hk hm j t ht hw v h hl)

/-- C79: if there are no unions, then the liberties are exactly the data that is read and not valid. -/
theorem C79_liberties_partial (hp : SchemaNames cfg env cat) (hk : env.Ok) (hm : ∀ cd ∈ env.classes, ClassMirrored vc cfg env cd)
    (hn : ∀ cd ∈ env.classes, ∀ f ∈ cd.hints, NoUnion f.ty.required) (t : Ty) (ht : Mirrored vc cfg env t) (hu : NoUnion t)
    (root : Sch) (hr : classdefToSchema cfg env cat t = .ok root) (j : Json) (hw : j.Wf) (v : Val)
    (h : loads env false t j = .ok v) :
    (Validates vc (.obj root) (.obj root) j ↔ ¬ Lax vc cfg env t j) ∧ (Rejects vc (.obj root) (.obj root) j ↔ Lax vc cfg env t j) := by
  have hmean := C65_meaning_partial (vc := vc) hp t root hr j hw
  have key : Admits vc cfg env t j ↔ ¬ Lax vc cfg env t j :=
    ⟨fun ha hl => lax_not_admits hn hl hu ha, fun hl => read_admits hk hm j t ht hw v h hl⟩
  refine ⟨hmean.1.trans key, hmean.2.trans ?_⟩
  rw [key]
  exact Classical.not_not

/-- C79, with C62: if the type, the program and the data are of the kinds described for both, then `validate_object` returns iff
`json_to_object` does. -/
theorem C79_same_data_partial (hp : SchemaNames cfg env cat) (hk : env.Ok)
    (hm : ∀ cd ∈ env.classes, ClassMirrored vc cfg env cd ∧ ClassReads env cd) (hfm : FormatsRead vc) (t : Ty)
    (ht : Mirrored vc cfg env t) (hd : Dependable env t) (root : Sch) (hr : classdefToSchema cfg env cat t = .ok root) (j : Json)
    (hw : j.Wf) (hi : SmallInts j) (hfl : ¬ FloatForInt env t j) (hl : ¬ Lax vc cfg env t j) :
    ValidateReturns vc cfg env cat t j ↔ ∃ v, loads env false t j = .ok v := by
  constructor
  · intro h
    obtain ⟨v, hv, _⟩ := C62_valid_is_read_partial hp hk (fun cd hc => (hm cd hc).2) hfm t hd j hw hi hfl h
    exact ⟨v, hv⟩
  · rintro ⟨v, hv⟩
    exact ⟨root, hr, C79_read_is_valid_partial hp hk (fun cd hc => (hm cd hc).1) t ht root hr j hw hl v hv⟩

/-- C79, with C62, also for unions: if the type and the program are of the kinds described for both, then `validate_object` returns iff
`json_to_object` does and the data takes no liberty; and of the data that is read, it refuses that which takes a liberty. -/
theorem C79_exact_partial (hp : SchemaNames cfg env cat) (hk : env.Ok)
    (hm : ∀ cd ∈ env.classes, ClassMirrored vc cfg env cd ∧ ClassReads env cd) (hfm : FormatsRead vc) (t : Ty)
    (ht : Mirrored vc cfg env t) (hd : Dependable env t) (root : Sch) (hr : classdefToSchema cfg env cat t = .ok root) (j : Json)
    (hw : j.Wf) (hi : SmallInts j) (hfl : ¬ FloatForInt env t j) :
    (ValidateReturns vc cfg env cat t j ↔ (∃ v, loads env false t j = .ok v) ∧ ¬ Lax vc cfg env t j) ∧
      ((∃ v, loads env false t j = .ok v) → (Rejects vc (.obj root) (.obj root) j ↔ Lax vc cfg env t j)) := by
  have hmean := C65_meaning_partial (vc := vc) hp t root hr j hw
  have hcr : ∀ cd ∈ env.classes, ClassReads env cd := fun cd hc => (hm cd hc).2
  have hcm : ∀ cd ∈ env.classes, ClassMirrored vc cfg env cd := fun cd hc => (hm cd hc).1
  have hno : Lax vc cfg env t j → ¬ Admits vc cfg env t j := lax_not_valid hp hk hcr hfm hd hr hw hi hfl
  refine ⟨⟨fun h => ⟨?_, fun hl => ?_⟩, fun ⟨⟨v, hv⟩, hl⟩ => ?_⟩, fun ⟨v, hv⟩ => hmean.2.trans ⟨fun h => ?_, hno⟩⟩
  · obtain ⟨v, hv, _⟩ := C62_valid_is_read_partial hp hk hcr hfm t hd j hw hi hfl h
    exact ⟨v, hv⟩
  · obtain ⟨root', hr', hv⟩ := h
    rw [hr] at hr'
    cases hr'
    exact hno hl (hmean.1.1 hv)
  · exact ⟨root, hr, C79_read_is_valid_partial hp hk hcm t ht root hr j hw hl v hv⟩
  · exact Classical.byContradiction fun hl => h (read_admits hk hcm j t ht hw v hv hl)

/-! ### The hypotheses can be met: the program of C34 -/

theorem forest_mirrored (cd : ClassDef) (hc : cd ∈ forestEnv.classes) : ClassMirrored vc cfg forestEnv cd := by
  have h10 : ∀ j, ¬ (Admits vc cfg forestEnv (.cls 1) j ∧ Admits vc cfg forestEnv (.cls 0) j) :=
    C66_tagged_exclude (f := { name := c!"kind", ty := .literal [.str c!"node"] })
      (g := { name := c!"kind", ty := .literal [.str c!"leaf"] }) rfl rfl (by simp [ClassDef.hints]) (by simp [ClassDef.hints])
      rfl rfl rfl (by decide)
  have hr := forest_reads cd hc
  refine ⟨hr.standard, hr.names, hr.absent, ?_⟩
  intro f hf
  simp only [forestEnv, List.mem_cons, List.not_mem_nil, or_false] at hc
  rcases hc with rfl | rfl <;> simp only [ClassDef.hints, List.mem_cons, List.not_mem_nil, or_false] at hf <;>
    rcases hf with rfl | rfl | rfl
  · exact .literal (by simp)
  · exact .enum
  · exact .leaf (t := .str) (by simp [Ty.IsPlain])
  · exact .literal (by simp)
  · exact .annotated (.leaf (by simp [Ty.IsPlain]))
  · refine .list (.union ?_ ?_)
    · intro t ht
      simp only [List.mem_cons, List.not_mem_nil, or_false] at ht
      rcases ht with rfl | rfl <;> exact .cls
    · rintro (_ | _ | i) (_ | _ | k) t u hik ht hu j _
      all_goals first
        | exact absurd rfl hik
        | (cases ht; cases hu; exact h10 j)
        | (cases ht; cases hu; exact fun h => h10 j h.symm)
        | (simp at ht; done)
        | (simp at hu)

private theorem leaf_not_lax :
    ¬ Lax vc cfg forestEnv (.cls 0) (.obj [(c!"kind", .str c!"leaf"), (c!"color", .str c!"green")]) := by
  intro h
  cases h with
  | null hc hf hlk _ =>
    cases hc
    simp only [ClassDef.hints, List.mem_cons, List.not_mem_nil, or_false] at hf
    rcases hf with rfl | rfl | rfl <;> cases hlk
  | absent hc hf ho hlk =>
    cases hc
    simp only [ClassDef.hints, List.mem_cons, List.not_mem_nil, or_false] at hf
    rcases hf with rfl | rfl | rfl
    · cases hlk
    · cases hlk
    · cases ho
  | cls hc hf hlk hl =>
    cases hc
    simp only [ClassDef.hints, List.mem_cons, List.not_mem_nil, or_false] at hf
    rcases hf with rfl | rfl | rfl
    · cases hlk
      have hl : Lax vc cfg forestEnv (.literal [.str c!"leaf"]) (.str c!"leaf") := hl
      cases hl with
      | text hft _ => simp [textFormats] at hft
    · cases hlk
      have hl : Lax vc cfg forestEnv (.enum 0) (.str c!"green") := hl
      cases hl with
      | text hft _ => simp [textFormats] at hft
      | boolEnum he hs hall =>
        cases he
        cases hs
        exact hall (c!"GREEN", .str c!"green") (by simp) (by simp [Scalar.pyEq]) (by simp [Scalar.IsBool])
    · cases hlk

theorem forest_not_lax : ¬ Lax vc cfg forestEnv (.cls 1) forestData := by
  intro h
  unfold forestData at h
  cases h with
  | null hc hf hlk _ =>
    cases hc
    simp only [ClassDef.hints, List.mem_cons, List.not_mem_nil, or_false] at hf
    rcases hf with rfl | rfl | rfl <;> cases hlk
  | absent hc hf ho hlk =>
    cases hc
    simp only [ClassDef.hints, List.mem_cons, List.not_mem_nil, or_false] at hf
    rcases hf with rfl | rfl | rfl <;> cases hlk
  | cls hc hf hlk hl =>
    cases hc
    simp only [ClassDef.hints, List.mem_cons, List.not_mem_nil, or_false] at hf
    rcases hf with rfl | rfl | rfl <;> cases hlk
    · have hl : Lax vc cfg forestEnv (.literal [.str c!"node"]) (.str c!"node") := hl
      cases hl with
      | text hft _ => simp [textFormats] at hft
    · have hl : Lax vc cfg forestEnv (.annotated .int [.intRange 0 100]) (.int 3) := hl
      cases hl with
      | note _ _ hno =>
        refine hno ⟨?_, ?_, ?_, ?_⟩
        · intro lo hi h _; cases h; exact ⟨rfl, rfl⟩
        · intro s d h; cases h
        · intro n x h; cases h
        · intro n x h; cases h
      | annotated hl => cases hl
    · have hl : Lax vc cfg forestEnv (.list (.union [.cls 1, .cls 0])) (.arr [.obj [(c!"kind", .str c!"leaf"),
        (c!"color", .str c!"green")]]) := hl
      cases hl with
      | list hm hl =>
        rw [List.mem_singleton] at hm
        subst hm
        cases hl with
        | union hall => exact leaf_not_lax (hall (.cls 0) (by simp) _ (by with_unfolding_all rfl))

example (hpath : cfg.definitionsPath = c!"#/definitions/") (root : Sch)
    (hr : classdefToSchema cfg forestEnv forestCat (.cls 1) = .ok root) : Validates vc (.obj root) (.obj root) forestData :=
  C79_read_is_valid_partial (forest_program hpath).schemaNames (forest_program hpath).ok forest_mirrored (.cls 1) .cls root hr
    forestData forest_data.1 forest_not_lax _ (by with_unfolding_all rfl)

example (hpath : cfg.definitionsPath = c!"#/definitions/") (root : Sch)
    (hr : classdefToSchema cfg forestEnv forestCat (.cls 1) = .ok root) :
    ValidateReturns readingValidator cfg forestEnv forestCat (.cls 1) forestData ↔
      ∃ v, loads forestEnv false (.cls 1) forestData = .ok v :=
  C79_same_data_partial (forest_program hpath).schemaNames (forest_program hpath).ok
    (fun cd hc => ⟨forest_mirrored cd hc, forest_reads cd hc⟩) reading_formats (.cls 1) .cls (.cls (c := 1) rfl) root hr forestData
    forest_data.1 forest_data.2.1 (fun h => have ⟨f, hf⟩ := floatForInt_within h; forest_data.2.2 f hf) forest_not_lax

/-- A list of a leaf whose note is `null`. -/
def leafData : Json := .arr [.obj [(c!"kind", .str c!"leaf"), (c!"color", .str c!"green"), (c!"note", .null)]]

theorem leaf_data : leafData.Wf ∧ (∀ i, ¬ Json.HasInt i leafData) ∧ ∀ f, ¬ (Json.float f).Within leafData := by
  refine ⟨.arr ?_, ?_, ?_⟩
  · intro x hx
    rw [List.mem_singleton] at hx
    subst hx
    refine .obj (by decide) ?_
    simp only [List.mem_cons, List.not_mem_nil, or_false]
    rintro kv (rfl | rfl | rfl) <;> first | exact .str | exact .null
  · intro i h
    cases h with
    | arr hm h =>
      rw [List.mem_singleton] at hm
      subst hm
      cases h with
      | obj hm h =>
        simp only [List.mem_cons, List.not_mem_nil, or_false] at hm
        rcases hm with rfl | rfl | rfl <;> cases h
  · intro f h
    cases h with
    | arr hm h =>
      rw [List.mem_singleton] at hm
      subst hm
      cases h with
      | obj hm h =>
        simp only [List.mem_cons, List.not_mem_nil, or_false] at hm
        rcases hm with rfl | rfl | rfl <;> cases h

/-- It is read, but takes a liberty in view of the only member of the union that reads it. -/
example (hpath : cfg.definitionsPath = c!"#/definitions/") (root : Sch)
    (hr : classdefToSchema cfg forestEnv forestCat (.list (.union [.cls 1, .cls 0])) = .ok root) :
    Rejects readingValidator (.obj root) (.obj root) leafData := by
  have hc1 : forestEnv.classes[1]? = some (forestEnv.classes[1]) := rfl
  have hm1 := List.mem_of_getElem? hc1
  let f : FieldDef := { name := c!"children", ty := .list (.union [.cls 1, .cls 0]) }
  have hf : f ∈ (forestEnv.classes[1]).hints := by simp [f, forestEnv, ClassDef.hints]
  refine ((C79_exact_partial (forest_program hpath).schemaNames (forest_program hpath).ok
    (fun cd hc => ⟨forest_mirrored cd hc, forest_reads cd hc⟩) reading_formats _ ((forest_mirrored _ hm1).types f hf)
    ((forest_reads _ hm1).types f hf) root hr leafData leaf_data.1 (fun i h => absurd h (leaf_data.2.1 i))
    (fun h => have ⟨f, hf⟩ := floatForInt_within h; leaf_data.2.2 f hf)).2 ⟨_, by with_unfolding_all rfl⟩).2 ?_
  refine .list (List.mem_singleton.2 rfl) (.union ?_)
  intro t ht v hv
  simp only [List.mem_cons, List.not_mem_nil, or_false] at ht
  rcases ht with rfl | rfl
  · have h : ∃ e, loads forestEnv false (.cls 1) (.obj [(c!"kind", .str c!"leaf"), (c!"color", .str c!"green"), (c!"note", .null)]) =
      .error e := ⟨_, by with_unfolding_all rfl⟩
    obtain ⟨e, h⟩ := h
    rw [hv] at h
    cases h
  · refine .null (f := { name := c!"note", ty := .union [.str, .none] }) rfl (by simp [ClassDef.hints]) rfl fun h => ?_
    have h : Admits readingValidator cfg forestEnv .str .null := h
    simp [Admits, LeafAdmits] at h

/-- A program without unions other than optional fields. -/
def stoneEnv : Env :=
  ⟨[{ module := c!"m", name := c!"Color", members := [(c!"RED", .str c!"red"), (c!"GREEN", .str c!"green")] }],
   [{ module := c!"m", name := c!"Stone", kind := .dataclass false, fields :=
      [{ name := c!"color", ty := .enum 0 }, { name := c!"sizes", ty := .set (.annotated .int [.intRange 0 9]) },
       { name := c!"note", ty := .union [.str, .none] }] }], id⟩

theorem stone_hints {cd : ClassDef} (hc : cd ∈ stoneEnv.classes) {f : FieldDef} (hf : f ∈ cd.hints) :
    fieldProp cd.kind f = jsonName f ∧ (f.ty.isOptional = true → ¬ IsRequired cd.kind f) ∧
      Mirrored vc cfg stoneEnv f.ty.required ∧ NoUnion f.ty.required := by
  simp only [stoneEnv, List.mem_cons, List.not_mem_nil, or_false] at hc
  subst hc
  simp only [ClassDef.hints, List.mem_cons, List.not_mem_nil, or_false] at hf
  rcases hf with rfl | rfl | rfl
  · exact ⟨rfl, fun h => (by cases h), .enum, .enum⟩
  · exact ⟨rfl, fun h => (by cases h), .set (.annotated (.leaf (by simp [Ty.IsPlain]))),
      .set (.annotated (.leaf (by simp [Ty.IsPlain])))⟩
  · exact ⟨rfl, fun _ h => (by cases h), .leaf (t := .str) (by simp [Ty.IsPlain]), .leaf (t := .str) (by simp [Ty.IsPlain])⟩

theorem stone_names (hpath : cfg.definitionsPath = c!"#/definitions/") : SchemaNames cfg stoneEnv noneRegistered where
  classes cd hc := by
    simp only [stoneEnv, List.mem_cons, List.not_mem_nil, or_false] at hc
    subst hc
    refine ⟨?_, by decide, ?_⟩ <;> intro f hf <;>
      simp only [ClassDef.hints, List.mem_cons, List.not_mem_nil, or_false] at hf <;>
      rcases hf with rfl | rfl | rfl <;> first | rfl | (intro h; cases h)
  path := hpath
  explicit r e h := by cases r <;> cases h
  names k e h := by cases h
  unique k e k' e' h := by cases h

/-- A stone with the note `null`, and a size out of range. -/
example (hpath : cfg.definitionsPath = c!"#/definitions/") (root : Sch)
    (hr : classdefToSchema cfg stoneEnv noneRegistered (.cls 0) = .ok root) :
    Rejects vc (.obj root) (.obj root) (.obj [(c!"color", .str c!"red"), (c!"sizes", .arr [.int 3, .int 12]), (c!"note", .null)]) := by
  refine (C79_liberties_partial (stone_names hpath) ⟨by decide +kernel, ?_, ?_, fun _ => .refl _⟩ ?_ ?_ (.cls 0) .cls .cls root hr _ ?_
    _ (by with_unfolding_all rfl)).2.2 ?_
  · simp [stoneEnv, EnumDef.Ok, Scalar.pyEq]
  · simp [stoneEnv]
  · intro cd hc
    refine ⟨?_, fun f hf => (stone_hints (vc := vc) (cfg := cfg) hc hf).1, fun f hf => (stone_hints (vc := vc) (cfg := cfg) hc hf).2.1,
      fun f hf => (stone_hints hc hf).2.2.1⟩
    simp only [stoneEnv, List.mem_cons, List.not_mem_nil, or_false] at hc
    subst hc
    rfl
  · exact fun cd hc f hf => (stone_hints (vc := vc) (cfg := cfg) hc hf).2.2.2
  · refine .obj (by decide) ?_
    simp only [List.mem_cons, List.not_mem_nil, or_false]
    rintro kv (rfl | rfl | rfl)
    · exact .str
    · refine .arr ?_
      simp only [List.mem_cons, List.not_mem_nil, or_false]
      rintro x (rfl | rfl) <;> exact .int
    · exact .null
  · refine .cls (c := 0) (f := { name := c!"sizes", ty := .set (.annotated .int [.intRange 0 9]) }) rfl (by simp [ClassDef.hints]) rfl ?_
    refine .set (x := .int 12) (by simp) (.note (by simp [Ty.IsPlain]) rfl fun h => ?_)
    exact absurd (h.range 0 9 rfl trivial).2 (by decide)

/-! ### Disagreements: the liberties -/

/-- `True` is read as the integer 1. -/
theorem C79_bool_fails (vc : ValidatorCfg) (cfg : SchemaCfg) (hm : AcceptsValid fmt cfg) :
    loads noClasses false .int (.bool true) = .ok (.int 1) ∧ ValidateRefuses vc cfg noClasses noneRegistered .int (.bool true) :=
  ⟨rfl, refuses_of [] (by simp) hm rfl rfl ⟨1, rfl⟩⟩

/-- The reader does not look at annotations. -/
theorem C79_range_fails (vc : ValidatorCfg) (cfg : SchemaCfg) (hm : AcceptsValid fmt cfg) :
    loads noClasses false (.annotated .int [.intRange 0 9]) (.int 10) = .ok (.int 10) ∧
    ValidateRefuses vc cfg noClasses noneRegistered (.annotated .int [.intRange 0 9]) (.int 10) :=
  ⟨rfl, refuses_of [] (by simp) hm rfl rfl ⟨1, rfl⟩⟩

/-- The items of a set may be repeated for the reader. -/
theorem C79_twice_fails (vc : ValidatorCfg) (cfg : SchemaCfg) (hm : AcceptsValid fmt cfg) :
    loads noClasses false (.set .int) (.arr [.int 1, .int 1]) = .ok (.set [.int 1]) ∧
    ValidateRefuses vc cfg noClasses noneRegistered (.set .int) (.arr [.int 1, .int 1]) :=
  ⟨rfl, refuses_of [] (by simp) hm rfl rfl ⟨2, rfl⟩⟩

/-- The reader takes `null` for a property that is missing. -/
theorem C79_null_fails (vc : ValidatorCfg) (cfg : SchemaCfg) (hm : AcceptsValid fmt cfg) :
    let env := classEnv (oneField c!"A" { name := c!"x", ty := .union [.int, .none] })
    loads env false (.cls 0) (.obj [(c!"x", .null)]) = .ok (.obj 0 [(c!"x", .none)]) ∧
    ValidateRefuses vc cfg env noneRegistered (.cls 0) (.obj [(c!"x", .null)]) :=
  ⟨rfl, refuses_of [] (by simp) hm rfl rfl ⟨3, rfl⟩⟩

/-- A field with a default is required by the schema, but not by the reader. -/
theorem C79_default_fails (vc : ValidatorCfg) (cfg : SchemaCfg) (hm : AcceptsValid fmt cfg) :
    let env := classEnv (oneField c!"A" { name := c!"x", ty := .int, dflt := .value (.int 7) })
    loads env false (.cls 0) (.obj []) = .ok (.obj 0 [(c!"x", .int 7)]) ∧
    ValidateRefuses vc cfg env noneRegistered (.cls 0) (.obj []) :=
  ⟨rfl, refuses_of [] (by simp) hm rfl rfl ⟨3, rfl⟩⟩

/-- The reader knows the ISO week dates, which the formats of JSON Schema do not have. -/
theorem C79_format_fails (vc : ValidatorCfg) (cfg : SchemaCfg) (hm : AcceptsValid fmt cfg)
    (hf : vc.format c!"date" c!"2024-W01-1" = false) :
    (∃ v, loads noClasses false .date (.str c!"2024-W01-1") = .ok v) ∧
    ValidateRefuses vc cfg noClasses noneRegistered .date (.str c!"2024-W01-1") := by
  refine ⟨⟨_, by with_unfolding_all rfl⟩, refuses_of (s := [(c!"type", js c!"string"), (c!"format", js c!"date")]) [] (by simp) hm rfl rfl ⟨1, ?_⟩⟩
  show some (true && (true && (vc.format c!"date" c!"2024-W01-1" && true))) = some false
  rw [hf]
  rfl

/-! ### Disagreements: types and programs -/

/-- Data of two members of a union is read as the first, but refused by `oneOf`. -/
theorem C79_union_fails (vc : ValidatorCfg) (cfg : SchemaCfg) (hm : AcceptsValid fmt cfg) :
    loads noClasses false (.union [.int, .float]) (.int 1) = .ok (.int 1) ∧
    ValidateRefuses vc cfg noClasses noneRegistered (.union [.int, .float]) (.int 1) :=
  ⟨rfl, refuses_of [] (by simp) hm rfl rfl ⟨2, rfl⟩⟩

/-- The schema of `IPv4Address` is that of an object. -/
theorem C79_ipv4_fails (vc : ValidatorCfg) (cfg : SchemaCfg) (hm : AcceptsValid fmt cfg) :
    (∃ v, loads noClasses false .ipv4 (.str c!"127.0.0.1") = .ok v) ∧
    ValidateRefuses vc cfg noClasses noneRegistered .ipv4 (.str c!"127.0.0.1") :=
  ⟨⟨_, by with_unfolding_all rfl⟩, refuses_of [] (by simp) hm rfl rfl ⟨1, rfl⟩⟩

/-- With the option to skip unknown properties, the reader admits what the schema does not. -/
theorem C79_unknown_fails (vc : ValidatorCfg) (cfg : SchemaCfg) (hm : AcceptsValid fmt cfg) :
    let env := classEnv (oneField c!"A" { name := c!"x", ty := .int })
    loads env true (.cls 0) (.obj [(c!"x", .int 1), (c!"y", .int 2)]) = .ok (.obj 0 [(c!"x", .int 1)]) ∧
    ValidateRefuses vc cfg env noneRegistered (.cls 0) (.obj [(c!"x", .int 1), (c!"y", .int 2)]) :=
  ⟨rfl, refuses_of [] (by simp) hm rfl rfl ⟨3, rfl⟩⟩

/-- The reader looks for `from`, but the schema has `from_`. -/
theorem C79_keyword_fails (vc : ValidatorCfg) (cfg : SchemaCfg) (hm : AcceptsValid fmt cfg) :
    let env := classEnv (oneField c!"A" { name := c!"from_", ty := .int })
    loads env false (.cls 0) (.obj [(c!"from", .int 1)]) = .ok (.obj 0 [(c!"from_", .int 1)]) ∧
    ValidateRefuses vc cfg env noneRegistered (.cls 0) (.obj [(c!"from", .int 1)]) :=
  ⟨rfl, refuses_of [] (by simp) hm rfl rfl ⟨3, rfl⟩⟩

end Verif
