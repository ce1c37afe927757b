import Verif.Lemmas.SchemaRead
import Verif.Props.C34_Validate
/-!
# C62: data that validates against the schema of a type is read by the type

The converse of C34: if `validate_object(T, data)` returns, then `json_to_object(T, data)` returns an object of type `T`, if
the program, the type and the data are of the kind described in Spec/SchemaRead.lean.  The exceptions are shown at the end.
-/
namespace Verif

variable {fmt : Str → Str → Bool} {vc : ValidatorCfg} {cfg : SchemaCfg} {env : Env} {cat : SchemaCatalog}

/-- C62: data that is valid for the schema of a type is read, and the result is of that type if the defaults in the program
are.  Missing: types, programs and data for which this is not so, see below. -/
theorem C62_valid_is_read_partial (hp : SchemaNames cfg env cat) (hk : env.Ok) (hcr : ∀ cd ∈ env.classes, ClassReads env cd)
    (hfm : FormatsRead vc) (t : Ty) (ht : Dependable env t) (j : Json) (hw : j.Wf) (hi : SmallInts j)
    (hfl : ¬ FloatForInt env t j) (h : ValidateReturns vc cfg env cat t j) :
    ∃ v, loads env false t j = .ok v ∧ (env.Typed → HasTy env v t) := by
  obtain ⟨root, hr, hv⟩ := h
  obtain ⟨names, s, us, h1, h2, h3, h4⟩ := document_good hp hr
  obtain ⟨v, hv⟩ := (valid_read hp hk hcr h4 hfm (sizeOf j + 1) ht (Nat.lt_succ_self _) hw hi ⟨_, us, h1, h2⟩ (fun h => by cases h)
    (h3.validates hv)).2 hfl
  exact ⟨v, hv, fun htyped => C12_type_safe env hk htyped false t j v hv⟩

/-! ### The hypotheses can be met: the program of C34 -/

private theorem forest_tag {p : Str} : IsTag forestEnv [.cls 1, .cls 0] p ↔ p = c!"kind" := by
  rw [← mem_discProps]
  have : discProps forestEnv [.cls 1, .cls 0] = [c!"kind"] := by with_unfolding_all rfl
  rw [this, List.mem_singleton]

theorem forest_reads (cd : ClassDef) (hc : cd ∈ forestEnv.classes) : ClassReads forestEnv cd := by
  have ok : forestEnv.Ok := (forest_program (cfg := { pow10 := fun _ => .fin false 1 0 }) rfl).ok
  have children : Dependable forestEnv (.union [.cls 1, .cls 0]) := by
    have ht : ∃ p, IsTag forestEnv [.cls 1, .cls 0] p := ⟨_, forest_tag.2 rfl⟩
    refine .tagged ht ((C23_ambiguous_iff forestEnv ok _ ht).2.1 ⟨_, rfl⟩) ?_ ?_
    · intro t h
      simp only [List.mem_cons, List.not_mem_nil, or_false] at h
      rcases h with rfl | rfl
      · exact .cls (c := 1) rfl
      · exact .cls (c := 0) rfl
    · intro p c cd f hp hm hcd hf hn
      cases forest_tag.1 hp
      simp only [List.mem_cons, List.not_mem_nil, or_false] at hm
      rcases hm with h | h <;> cases h <;> cases hcd <;>
        simp only [ClassDef.hints, List.mem_cons, List.not_mem_nil, or_false] at hf <;>
        rcases hf with rfl | rfl | rfl <;> first | exact ⟨rfl, rfl⟩ | simp at hn
  simp only [forestEnv, List.mem_cons, List.not_mem_nil, or_false] at hc
  rcases hc with rfl | rfl
  · refine ⟨by simp [ClassDef.hints], rfl, ?_, ?_, ?_⟩ <;> intro f hf <;>
      simp only [ClassDef.hints, List.mem_cons, List.not_mem_nil, or_false] at hf <;>
      rcases hf with rfl | rfl | rfl <;> first | rfl | (intro h; cases h; done) | (intro h hr; cases hr) | skip
    · exact .literal (by simp) (by simp)
    · exact .enum rfl (by simp)
    · exact .leaf (t := .str) (by simp)
  · refine ⟨by simp [ClassDef.hints], rfl, ?_, ?_, ?_⟩ <;> intro f hf <;>
      simp only [ClassDef.hints, List.mem_cons, List.not_mem_nil, or_false] at hf <;>
      rcases hf with rfl | rfl | rfl <;> first | rfl | (intro h; cases h) | skip
    · exact .literal (by simp) (by simp)
    · exact .annotated (.leaf (by simp))
    · exact .list children

theorem floatForInt_within {t : Ty} {j : Json} (h : FloatForInt env t j) : ∃ f, (Json.float f).Within j := by
  induction h with
  | int _ | literal _ => exact ⟨_, .self⟩
  | annotated _ ih | union _ _ ih => exact ih
  | list hm _ ih | set hm _ ih => obtain ⟨f, h⟩ := ih; exact ⟨f, .arr hm h⟩
  | tuple _ hm _ ih => obtain ⟨f, h⟩ := ih; exact ⟨f, .arr (List.mem_of_getElem? hm) h⟩
  | dict hm _ ih => obtain ⟨f, h⟩ := ih; exact ⟨f, .obj hm h⟩
  | cls _ _ hm _ ih => obtain ⟨f, h⟩ := ih; exact ⟨f, .obj (lookupKey_some_mem hm) h⟩

/-- A node with a leaf without note. -/
def forestData : Json :=
  .obj [(c!"kind", .str c!"node"), (c!"size", .int 3),
    (c!"children", .arr [.obj [(c!"kind", .str c!"leaf"), (c!"color", .str c!"green")]])]

/-- A validator that checks formats by reading. -/
def readingValidator : ValidatorCfg where
  format f s := (match textFormats.find? (fun p => p.1 = f) with
    | some (_, t) => (match loads noClasses false t (.str s) with | .ok _ => true | .error _ => false)
    | none => true)
  pattern _ _ := true
  multipleOf _ _ := true

theorem reading_formats : FormatsRead readingValidator := by
  intro f t hft s h env
  simp only [textFormats, List.mem_cons, List.not_mem_nil, or_false] at hft
  have key : ∀ t, (match loads noClasses false t (.str s) with | .ok _ => true | .error _ => false) = true →
      loads noClasses false t (.str s) = loads env false t (.str s) → ∃ v, loads env false t (.str s) = .ok v := by
    intro t h1 h2
    cases hl : loads noClasses false t (.str s) with
    | ok v => exact ⟨v, h2 ▸ hl⟩
    | error e => rw [hl] at h1; cases h1
  rcases hft with h' | h' | h' | h' | h' | h' | h' <;> cases h' <;> exact key _ h rfl

theorem forest_data : forestData.Wf ∧ SmallInts forestData ∧ ∀ f, ¬ (Json.float f).Within forestData := by
  refine ⟨.obj (by decide) ?_, ?_, ?_⟩
  · simp only [List.mem_cons, List.not_mem_nil, or_false]
    rintro kv (rfl | rfl | rfl)
    · exact .str
    · exact .int
    · refine .arr ?_
      simp only [List.mem_cons, List.not_mem_nil, or_false]
      rintro x rfl
      refine .obj (by decide) ?_
      simp only [List.mem_cons, List.not_mem_nil, or_false]
      rintro kv (rfl | rfl) <;> exact .str
  · intro i h
    cases h with
    | obj hm h =>
      simp only [List.mem_cons, List.not_mem_nil, or_false] at hm
      rcases hm with rfl | rfl | rfl
      · cases h
      · cases h; decide +kernel
      · cases h with
        | arr hm h =>
          rw [List.mem_singleton] at hm; subst hm
          cases h with
          | obj hm h =>
            simp only [List.mem_cons, List.not_mem_nil, or_false] at hm
            rcases hm with rfl | rfl <;> cases h
  · intro f h
    cases h with
    | obj hm h =>
      simp only [List.mem_cons, List.not_mem_nil, or_false] at hm
      rcases hm with rfl | rfl | rfl
      · cases h
      · cases h
      · cases h with
        | arr hm h =>
          rw [List.mem_singleton] at hm; subst hm
          cases h with
          | obj hm h =>
            simp only [List.mem_cons, List.not_mem_nil, or_false] at hm
            rcases hm with rfl | rfl <;> cases h

example (hpath : cfg.definitionsPath = c!"#/definitions/") (hm : AcceptsValid fmt cfg)
    (href : fmt c!"uri-reference" c!"#/definitions/Node" = true) :
    ∃ v, loads forestEnv false (.cls 1) forestData = .ok v :=
  have hp := forest_program hpath
  have ⟨v, hv, _⟩ := C62_valid_is_read_partial hp.schemaNames hp.ok forest_reads reading_formats _ (.cls (c := 1) rfl) forestData
    forest_data.1 forest_data.2.1 (fun h => have ⟨f, hf⟩ := floatForInt_within h; forest_data.2.2 f hf)
    (forest_validates hpath (fun _ _ _ _ => rfl) hm href)
  ⟨v, hv⟩

/-! ### Disagreements -/

/-- `1.0` is an integer for the validator, but not for the reader. -/
theorem C62_float_for_int_fails (vc : ValidatorCfg) (cfg : SchemaCfg) (hm : AcceptsValid fmt cfg) :
    ValidateReturns vc cfg noClasses noneRegistered .int (.float (mkFin false 1 0)) ∧
    loads noClasses false .int (.float (mkFin false 1 0)) = .error .jsonType :=
  ⟨returns_of [] (by simp) hm rfl rfl ⟨1, by with_unfolding_all rfl⟩, rfl⟩

/-- Any text is valid for `bytes`, as the validator does not look at `contentEncoding`. -/
theorem C62_bytes_fails (vc : ValidatorCfg) (cfg : SchemaCfg) (hm : AcceptsValid fmt cfg) :
    ValidateReturns vc cfg noClasses noneRegistered .bytes (.str c!"A") ∧
    loads noClasses false .bytes (.str c!"A") = .error .valueError :=
  ⟨returns_of [] (by simp) hm rfl rfl ⟨1, rfl⟩, rfl⟩

/-- The schema of `IPv4Address` is that of an object. -/
theorem C62_ipv4_fails (vc : ValidatorCfg) (cfg : SchemaCfg) (hm : AcceptsValid fmt cfg) :
    ValidateReturns vc cfg noClasses noneRegistered .ipv4 (.obj []) ∧
    loads noClasses false .ipv4 (.obj []) = .error .jsonType :=
  ⟨returns_of [] (by simp) hm rfl rfl ⟨1, rfl⟩, rfl⟩

/-- The validator takes any text for a date if no checker for the format is installed, or if the checker is lenient. -/
theorem C62_format_fails (vc : ValidatorCfg) (cfg : SchemaCfg) (hm : AcceptsValid fmt cfg)
    (hf : vc.format c!"date" c!"today" = true) :
    ValidateReturns vc cfg noClasses noneRegistered .date (.str c!"today") ∧
    loads noClasses false .date (.str c!"today") = .error .valueError := by
  refine ⟨returns_of (s := [(c!"type", js c!"string"), (c!"format", js c!"date")]) [] (by simp) hm rfl rfl ⟨1, ?_⟩, rfl⟩
  show some (true && (true && (vc.format c!"date" c!"today" && true))) = some true
  rw [hf]
  rfl

/-- Integers beyond the range of floats are numbers for the validator. -/
theorem C62_huge_fails (vc : ValidatorCfg) (cfg : SchemaCfg) (hm : AcceptsValid fmt cfg) :
    ValidateReturns vc cfg noClasses noneRegistered .float (.int (10 ^ 400)) ∧
    loads noClasses false .float (.int (10 ^ 400)) = .error .overflow := by
  refine ⟨returns_of [] (by simp) hm rfl rfl ⟨1, rfl⟩, ?_⟩
  rw [loads_float_int]
  have : intToFloat (10 ^ 400) = .error .overflow := by decide +kernel
  rw [this]
  rfl

/-- There is a schema for dictionaries whose keys are integers, but no reader. -/
theorem C62_int_keys_fails (vc : ValidatorCfg) (cfg : SchemaCfg) (hm : AcceptsValid fmt cfg) :
    ValidateReturns vc cfg noClasses noneRegistered (.dict .int .int) (.obj [(c!"a", .int 1)]) ∧
    loads noClasses false (.dict .int .int) (.obj [(c!"a", .int 1)]) = .error .jsonType :=
  ⟨returns_of [] (by simp) hm rfl rfl ⟨2, rfl⟩, rfl⟩

/-- There is a schema for sets of lists, but lists are not hashable. -/
theorem C62_set_of_lists_fails (vc : ValidatorCfg) (cfg : SchemaCfg) (hm : AcceptsValid fmt cfg) :
    ValidateReturns vc cfg noClasses noneRegistered (.set (.list .int)) (.arr [.arr [.int 1]]) ∧
    loads noClasses false (.set (.list .int)) (.arr [.arr [.int 1]]) = .error .typeError :=
  ⟨returns_of [] (by simp) hm rfl rfl ⟨3, rfl⟩, rfl⟩

/-- The schema of a class without fields admits any property. -/
theorem C62_no_fields_fails (vc : ValidatorCfg) (cfg : SchemaCfg) (hm : AcceptsValid fmt cfg) :
    let env := classEnv { module := c!"m", name := c!"A", kind := .dataclass false, fields := [] }
    ValidateReturns vc cfg env noneRegistered (.cls 0) (.obj [(c!"x", .int 1)]) ∧
    loads env false (.cls 0) (.obj [(c!"x", .int 1)]) = .error .jsonKey :=
  ⟨returns_of [] (by simp) hm rfl rfl ⟨1, rfl⟩, rfl⟩

/-- The schema has `from_`, but the reader looks for `from`. -/
theorem C62_keyword_fails (vc : ValidatorCfg) (cfg : SchemaCfg) (hm : AcceptsValid fmt cfg) :
    let env := classEnv (oneField c!"A" { name := c!"from_", ty := .int })
    ValidateReturns vc cfg env noneRegistered (.cls 0) (.obj [(c!"from_", .int 1)]) ∧
    loads env false (.cls 0) (.obj [(c!"from_", .int 1)]) = .error .jsonKey :=
  ⟨returns_of [] (by simp) hm rfl rfl ⟨3, rfl⟩, rfl⟩

/-- The reader takes `null` for a property that is missing. -/
theorem C62_none_field_fails (vc : ValidatorCfg) (cfg : SchemaCfg) (hm : AcceptsValid fmt cfg) :
    let env := classEnv (oneField c!"A" { name := c!"x", ty := .none })
    ValidateReturns vc cfg env noneRegistered (.cls 0) (.obj [(c!"x", .null)]) ∧
    loads env false (.cls 0) (.obj [(c!"x", .null)]) = .error .jsonValue :=
  ⟨returns_of [] (by simp) hm rfl rfl ⟨3, rfl⟩, rfl⟩

/-- The schema does not require optional fields of named tuples, but the reader does. -/
theorem C62_named_tuple_fails (vc : ValidatorCfg) (cfg : SchemaCfg) (hm : AcceptsValid fmt cfg) :
    let env := classEnv { module := c!"m", name := c!"A", kind := .namedTuple true, fields :=
      [{ name := c!"x", ty := .union [.int, .none] }] }
    ValidateReturns vc cfg env noneRegistered (.cls 0) (.obj []) ∧
    loads env false (.cls 0) (.obj []) = .error .jsonKey :=
  ⟨returns_of [] (by simp) hm rfl rfl ⟨3, rfl⟩, rfl⟩

/-- The schema has the aliases of fields of named tuples, but the reader looks for the names. -/
theorem C62_named_tuple_alias_fails (vc : ValidatorCfg) (cfg : SchemaCfg) (hm : AcceptsValid fmt cfg) :
    let env := classEnv { module := c!"m", name := c!"A", kind := .namedTuple true, fields :=
      [{ name := c!"x", ty := .annotated .int [.alias c!"y"] }] }
    ValidateReturns vc cfg env noneRegistered (.cls 0) (.obj [(c!"y", .int 1)]) ∧
    loads env false (.cls 0) (.obj [(c!"y", .int 1)]) = .error .jsonKey :=
  ⟨returns_of [] (by simp) hm rfl rfl ⟨3, rfl⟩, rfl⟩

/-- The first member of a union raises `ValueError`, which the reader of the union does not catch. -/
theorem C62_union_fails (vc : ValidatorCfg) (cfg : SchemaCfg) (hm : AcceptsValid fmt cfg) :
    let env : Env := ⟨[{ module := c!"m", name := c!"E", members := [(c!"A", .str c!"a")] }], [], id⟩
    ValidateReturns vc cfg env noneRegistered (.union [.enum 0, .str]) (.str c!"b") ∧
    loads env false (.union [.enum 0, .str]) (.str c!"b") = .error .valueError :=
  ⟨returns_of [] (by simp) hm rfl rfl ⟨2, rfl⟩, rfl⟩

/-- The pattern made of an enumeration of keys with more than four members matches a text with a line break at its end
(`$` in a regular expression of Python). -/
theorem C62_pattern_fails (vc : ValidatorCfg) (cfg : SchemaCfg) (hm : AcceptsValid fmt cfg)
    (hre : fmt c!"regex" c!"^(a|b|c|d|e)$" = true) (hpat : vc.pattern c!"^(a|b|c|d|e)$" c!"a\n" = true) :
    let env : Env := ⟨[{ module := c!"m", name := c!"E", members := [(c!"A", .str c!"a"), (c!"B", .str c!"b"),
      (c!"C", .str c!"c"), (c!"D", .str c!"d"), (c!"E", .str c!"e")] }], [], id⟩
    ValidateReturns vc cfg env noneRegistered (.dict (.enum 0) .int) (.obj [(c!"a\n", .int 1)]) ∧
    loads env false (.dict (.enum 0) .int) (.obj [(c!"a\n", .int 1)]) = .error .valueError := by
  intro env
  refine ⟨returns_of (s := [(c!"type", js c!"object"),
    (c!"propertyNames", .obj [(c!"pattern", js c!"^(a|b|c|d|e)$")]),
    (c!"additionalProperties", .obj [(c!"type", js c!"integer")])]) [(c!"regex", c!"^(a|b|c|d|e)$")] (by simpa using hre) hm rfl rfl ⟨2, ?_⟩, rfl⟩
  show some (true && (true && ((vc.pattern c!"^(a|b|c|d|e)$" c!"a\n" && true && true) && (true && true)))) = some true
  rw [hpat]
  rfl

/-- The schema of a class with `from_json` is that of its fields. -/
theorem C62_from_json_fails (vc : ValidatorCfg) (cfg : SchemaCfg) (hm : AcceptsValid fmt cfg) :
    let env := classEnv { oneField c!"A" { name := c!"x", ty := .int } with fromJson := some fun _ => .error .valueError }
    ValidateReturns vc cfg env noneRegistered (.cls 0) (.obj [(c!"x", .int 1)]) ∧
    loads env false (.cls 0) (.obj [(c!"x", .int 1)]) = .error .valueError :=
  ⟨returns_of [] (by simp) hm rfl rfl ⟨3, rfl⟩, rfl⟩

end Verif
