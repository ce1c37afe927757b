import Verif.Lemmas.JsonTypes
import Verif.Lemmas.RoundTrip
import Verif.Lemmas.MetaCheck
/-!
# C73: unrestricted JSON types

`JsonType` stands for every JSON value, `StrictJsonType` for every JSON value without `null`, `JsonObject` and `JsonArray` for every
object and array.
-/
namespace Verif

/-! ### Reading -/

private theorem build_json {names : Context} (h : lookupKey c!"JsonType" names = some jsonType) {n : Nat} :
    jBuild (some names) (n + 2) [] jsonType = .ok [c!"JsonType"] := by
  have h' : jBuild (some names) (n + 1) [c!"JsonType"] jsonType = .ok [c!"JsonType"] := by
    simp [jBuild, jsonType, jBuildWith, jBuildWithL, h]
  rw [jBuild]
  simp [jsonType, jBuildWith, jBuildWithL, h] at h' ⊢
  rw [h']; simp

private theorem build_strict {names : Context} (h : lookupKey c!"StrictJsonType" names = some strictJsonType) {n : Nat} :
    jBuild (some names) (n + 2) [] strictJsonType = .ok [c!"StrictJsonType"] := by
  have h' : jBuild (some names) (n + 1) [c!"StrictJsonType"] strictJsonType = .ok [c!"StrictJsonType"] := by
    simp [jBuild, strictJsonType, jBuildWith, jBuildWithL, h]
  rw [jBuild]
  simp [strictJsonType, jBuildWith, jBuildWithL, h] at h' ⊢
  rw [h']; simp

private theorem ctx_length {names : Context} {n : Str} {t : JTy} (h : lookupKey n names = some t) : ∃ m, names.length + 1 = m + 2 := by
  cases names with
  | nil => cases h
  | cons a l => exact ⟨l.length, rfl⟩

/-- Every JSON value is read as `JsonType`, unchanged, where `JsonType` is a name of the module. -/
theorem C73_reads (names : Context) (h : lookupKey c!"JsonType" names = some jsonType) (j : Json) (hj : j.Wf) :
    jLoads (some names) jsonType j = .ok j.asVal := by
  obtain ⟨m, hm⟩ := ctx_length h
  simp only [jLoads, hm, build_json h]
  rw [show jParse (some names) j jsonType = _ from jParse_name h j]
  exact jParse_json h hj

/-- A JSON value is read as `StrictJsonType`, unchanged, if there is no `null` in it; else the error is `JsonKeyError`. -/
theorem C73_reads_strict (names : Context) (h : lookupKey c!"StrictJsonType" names = some strictJsonType) (j : Json) (hj : j.Wf) :
    (¬ j.HasNull → jLoads (some names) strictJsonType j = .ok j.asVal) ∧
      (j.HasNull → jLoads (some names) strictJsonType j = .error .jsonKey) := by
  obtain ⟨m, hm⟩ := ctx_length h
  simp only [jLoads, hm, build_strict h]
  rw [show jParse (some names) j strictJsonType = _ from jParse_name h j]
  rcases jParse_strict h hj with ⟨h1, h2⟩ | ⟨h1, h2⟩
  · exact ⟨fun _ => h2, fun h => absurd h h1⟩
  · exact ⟨fun h => absurd h1 h, fun _ => h2⟩

/-- `json_to_object(JsonType, data)` returns the data. -/
theorem C73_json_to_object (j : Json) (hj : j.Wf) : jLoads (some serializationContext) jsonType j = .ok j.asVal :=
  C73_reads _ rfl j hj

/-- `json_to_object(StrictJsonType, data)` never succeeds: the name is looked up in `strong_typing.serialization`, not in the module of
the caller. -/
theorem C73_strict_object_fails (j : Json) : jLoads (some serializationContext) strictJsonType j = .error .name := rfl

/-- `create_deserializer` without a context makes no deserializer for either type. -/
theorem C73_no_context_fails (j : Json) : jLoads none jsonType j = .error .typeError ∧ jLoads none strictJsonType j = .error .typeError :=
  ⟨rfl, rfl⟩

/-! ### Writing -/

private theorem gen_json (env : Env) {j : Json} (hj : j.Wf) :
    gen env j.asVal dynTy = .ok j ∧ objectToJson env j.asVal = .ok j := by
  induction hj with
  | null => exact ⟨rfl, rfl⟩
  | bool => exact ⟨rfl, rfl⟩
  | int => exact ⟨rfl, rfl⟩
  | float => exact ⟨rfl, rfl⟩
  | str => exact ⟨rfl, rfl⟩
  | @arr xs _ ih =>
    have e : ∀ xs : List Json, (∀ x ∈ xs, gen env x.asVal dynTy = .ok x) → mapRes (fun f => f dynTy) (genSeq env (Json.asVals xs)) = .ok xs := by
      intro xs
      induction xs with
      | nil => intro _; rfl
      | cons x xs ih => intro h; simp only [Json.asVals, genSeq, mapRes, h x (by simp), ih fun x hx => h x (by simp [hx])]
    have e := e xs fun x hx => (ih x hx).1
    constructor
    · simp only [Json.asVal, gen, genD, typeOf, show serCreate env .bareList = .ok _ from rfl, genShape, e, arrOf]
    · simp only [objectToJson, dumps, Json.asVal, gen, genD, typeOf, show serCreate env .bareList = .ok _ from rfl, genShape, e, arrOf]
  | @obj kvs hn _ ih =>
    have u : untypedKey env (genDict env (Json.asPairs kvs)) = keyStr env := by
      cases kvs with
      | nil => rfl
      | cons kv kvs => obtain ⟨k, x⟩ := kv; rfl
    have e : ∀ kvs : List (Str × Json), (∀ kv ∈ kvs, gen env kv.2.asVal dynTy = .ok kv.2) →
        All2 (fun f p => keyStr env f.1 = .ok p.1 ∧ f.2 dynTy = .ok p.2) (genDict env (Json.asPairs kvs)) kvs := by
      intro kvs
      induction kvs with
      | nil => intro _; exact .nil
      | cons kv kvs ih =>
        intro h
        obtain ⟨k, x⟩ := kv
        exact .cons ⟨rfl, h (k, x) (by simp)⟩ (ih fun kv hkv => h kv (by simp [hkv]))
    have e := genPairs_ok _ kvs [] (e kvs fun kv hkv => (ih kv hkv).1) (by simpa using hn)
    constructor
    · simp only [Json.asVal, gen, genD, typeOf, show serCreate env .bareDict = .ok _ from rfl, genShape, u, e, List.nil_append]
    · simp only [objectToJson, dumps, Json.asVal, gen, genD, typeOf, show serCreate env .bareDict = .ok _ from rfl, genShape, u, e,
        List.nil_append]

/-- The Python object for a JSON value is written as that JSON value. -/
theorem C73_writes (env : Env) (j : Json) (hj : j.Wf) : objectToJson env j.asVal = .ok j := (gen_json env hj).2

/-! ### Schemas -/

/-- The document for `JsonType` (`nullable`) or `StrictJsonType`. -/
private def doc (n : Str) (nullable : Bool) (extra : Sch) : Sch :=
  [(c!"$schema", js metaSchemaId),
   (c!"definitions", .obj [(n, .obj ((c!"oneOf", .arr (memberSchemas nullable (.obj [(c!"$ref", .str (c!"#/definitions/" ++ n))]))) :: extra))]),
   (c!"$ref", .str (c!"#/definitions/" ++ n))]

private theorem doc_json {cfg : SchemaCfg} (hp : cfg.definitionsPath = c!"#/definitions/") {d : Sch} (h : jDocument cfg jsonType = .ok d) :
    ∃ extra : Sch, (∀ ka ∈ extra, keywordOf ka.1 = .other) ∧ d = doc c!"JsonType" true extra := by
  obtain ⟨path, ex, pow, mok⟩ := cfg
  subst hp
  cases ex with
  | false =>
    have e : jDocument ⟨c!"#/definitions/", false, pow, mok⟩ jsonType =
      if mok ((doc c!"JsonType" true []).drop 1) then .ok (doc c!"JsonType" true []) else .error .typeError := rfl
    rw [e] at h
    split at h
    · cases h; exact ⟨[], by simp, rfl⟩
    · cases h
  | true =>
    have e : ∃ x : List Json, jDocument ⟨c!"#/definitions/", true, pow, mok⟩ jsonType =
      if mok ((doc c!"JsonType" true [(c!"examples", .arr x)]).drop 1) then .ok (doc c!"JsonType" true [(c!"examples", .arr x)])
      else .error .typeError := ⟨_, rfl⟩
    obtain ⟨x, e⟩ := e
    rw [e] at h
    split at h
    · cases h; exact ⟨_, by simp; decide, rfl⟩
    · cases h

private theorem doc_strict {cfg : SchemaCfg} (hp : cfg.definitionsPath = c!"#/definitions/") {d : Sch} (h : jDocument cfg strictJsonType = .ok d) :
    ∃ extra : Sch, (∀ ka ∈ extra, keywordOf ka.1 = .other) ∧ d = doc c!"StrictJsonType" false extra := by
  obtain ⟨path, ex, pow, mok⟩ := cfg
  subst hp
  cases ex with
  | false =>
    have e : jDocument ⟨c!"#/definitions/", false, pow, mok⟩ strictJsonType =
      if mok ((doc c!"StrictJsonType" false []).drop 1) then .ok (doc c!"StrictJsonType" false []) else .error .typeError := rfl
    rw [e] at h
    split at h
    · cases h; exact ⟨[], by simp, rfl⟩
    · cases h
  | true =>
    have e : ∃ x : List Json, jDocument ⟨c!"#/definitions/", true, pow, mok⟩ strictJsonType =
      if mok ((doc c!"StrictJsonType" false [(c!"examples", .arr x)]).drop 1) then .ok (doc c!"StrictJsonType" false [(c!"examples", .arr x)])
      else .error .typeError := ⟨_, rfl⟩
    obtain ⟨x, e⟩ := e
    rw [e] at h
    split at h
    · cases h; exact ⟨_, by simp; decide, rfl⟩
    · cases h

private theorem doc_check {vc : ValidatorCfg} {n : Str} {nullable : Bool} {extra : Sch} (hx : ∀ ka ∈ extra, keywordOf ka.1 = .other)
    (hr : resolveRef (.obj (doc n nullable extra)) (c!"#/definitions/" ++ n) =
      some (.obj ((c!"oneOf", .arr (memberSchemas nullable (.obj [(c!"$ref", .str (c!"#/definitions/" ++ n))]))) :: extra))) (j : Json) :
    ∃ m, validate vc (.obj (doc n nullable extra)) m (.obj (doc n nullable extra)) j = some (goodJson nullable j) := by
  obtain ⟨m, hm⟩ := validate_good (vc := vc) hx hr j
  refine ⟨m, ?_⟩
  cases m with
  | zero => cases hm
  | succ m =>
    have one : ∀ o : Option Bool, allO [some true, some true, o] = o := by rintro (_ | _ | _) <;> rfl
    have one' : ∀ o : Option Bool, allO [o] = o := by rintro (_ | _ | _) <;> rfl
    rw [validate] at hm
    simp only [List.map_cons, List.map_nil, one'] at hm
    rw [← hm]
    generalize hroot : Json.obj (doc n nullable extra) = root
    rw [← hroot]
    conv => lhs; arg 4; rw [doc]
    rw [validate, hroot]
    simp only [List.map_cons, List.map_nil, show keywordOf c!"$schema" = .other from by decide,
      show keywordOf c!"definitions" = .other from by decide, show keywordOf c!"$ref" = .ref from by decide, keywordCheck, one]

private theorem decided {vc : ValidatorCfg} {root s v : Json} {b : Bool} (h : ∃ n, validate vc root n s v = some b) :
    (Validates vc root s v ↔ b = true) ∧ (Rejects vc root s v ↔ b = false) := by
  cases b with
  | true => exact ⟨⟨fun _ => rfl, fun _ => h⟩, ⟨fun hr => absurd hr (Validates.not_rejects h), fun h => by cases h⟩⟩
  | false => exact ⟨⟨fun hv => absurd h (Validates.not_rejects hv), fun h => by cases h⟩, ⟨fun _ => rfl, fun _ => h⟩⟩

/-- The document for `JsonType` accepts exactly the JSON values without a whole number. -/
theorem C73_schema_partial (vc : ValidatorCfg) (cfg : SchemaCfg) (hp : cfg.definitionsPath = c!"#/definitions/") (d : Sch)
    (h : jDocument cfg jsonType = .ok d) (j : Json) :
    (Validates vc (.obj d) (.obj d) j ↔ ¬ j.HasWhole) ∧ (Rejects vc (.obj d) (.obj d) j ↔ j.HasWhole) := by
  obtain ⟨extra, hx, rfl⟩ := doc_json hp h
  have := decided (doc_check (vc := vc) (n := c!"JsonType") (nullable := true) hx rfl j)
  refine ⟨this.1.trans (goodJson_iff.trans (by simp)), this.2.trans ?_⟩
  rw [← Bool.not_eq_true, goodJson_iff]
  simp

/-- The document for `StrictJsonType` accepts exactly the JSON values without a whole number and without `null`. -/
theorem C73_schema_strict_partial (vc : ValidatorCfg) (cfg : SchemaCfg) (hp : cfg.definitionsPath = c!"#/definitions/") (d : Sch)
    (h : jDocument cfg strictJsonType = .ok d) (j : Json) :
    (Validates vc (.obj d) (.obj d) j ↔ ¬ j.HasWhole ∧ ¬ j.HasNull) ∧ (Rejects vc (.obj d) (.obj d) j ↔ j.HasWhole ∨ j.HasNull) := by
  obtain ⟨extra, hx, rfl⟩ := doc_strict hp h
  have := decided (doc_check (vc := vc) (n := c!"StrictJsonType") (nullable := false) hx rfl j)
  refine ⟨this.1.trans (goodJson_iff.trans (by simp)), this.2.trans ?_⟩
  rw [← Bool.not_eq_true, goodJson_iff]
  simp only [forall_const, not_and, Classical.not_not]
  constructor
  · intro h
    by_cases h' : j.HasWhole
    · exact .inl h'
    · exact .inr (h h')
  · rintro (h | h) h'
    · exact absurd h h'
    · exact h

/-- The documents exist: they are valid for the meta-schema. -/
theorem C73_document {fmt : Str → Str → Bool} (cfg : SchemaCfg) (hp : cfg.definitionsPath = c!"#/definitions/")
    (hm : AcceptsValid fmt cfg) (h1 : fmt c!"uri-reference" c!"#/definitions/JsonType" = true)
    (h2 : fmt c!"uri-reference" c!"#/definitions/StrictJsonType" = true) :
    ∃ d1 d2 d3 d4 d5, jDocument cfg jsonType = .ok d1 ∧ jDocument cfg strictJsonType = .ok d2 ∧ jDocument cfg .object = .ok d3 ∧
      jDocument cfg .array = .ok d4 ∧ jDocument cfg .any = .ok d5 := by
  obtain ⟨path, ex, pow, mok⟩ := cfg
  cases hp
  have key : ∀ {t : JTy} {body d : Sch}, jDocument ⟨c!"#/definitions/", ex, pow, mok⟩ t = (if mok body then .ok d else .error .typeError) →
      metaCheck [(c!"uri-reference", c!"#/definitions/JsonType"), (c!"uri-reference", c!"#/definitions/StrictJsonType")] 9 (.obj body)
        = true → jDocument ⟨c!"#/definitions/", ex, pow, mok⟩ t = .ok d := by
    intro t body d h hc
    rw [h, if_pos (hm _ (metaCheck_valid (by simp [h1, h2]) hc))]
  cases ex <;> exact ⟨_, _, _, _, _, key rfl rfl, key rfl rfl, key rfl rfl, key rfl rfl, key rfl rfl⟩

/-- The example in the document for `JsonType`. -/
private def example64 : List (Str × Json) :=
  [(c!"property1", .null), (c!"property2", .bool true), (c!"property3", .int 64), (c!"property4", .str c!"string"),
   (c!"property5", .arr [.str c!"item"]), (c!"property6", .obj [(c!"key", .str c!"value")])]

/-- A whole number is read as `JsonType`, but the document rejects it; likewise the example in the document itself. -/
theorem C73_integer_fails (vc : ValidatorCfg) (cfg : SchemaCfg) (hp : cfg.definitionsPath = c!"#/definitions/") (d : Sch)
    (h : jDocument cfg jsonType = .ok d) :
    (∀ i : Int, Rejects vc (.obj d) (.obj d) (.int i) ∧ jLoads (some serializationContext) jsonType (.int i) = .ok (.int i)) ∧
      (cfg.useExamples = true → ∃ defs defn x, lookupKey c!"definitions" d = some (.obj defs) ∧ lookupKey c!"JsonType" defs = some (.obj defn) ∧
        lookupKey c!"examples" defn = some (.arr [x]) ∧ Rejects vc (.obj d) (.obj d) x) := by
  refine ⟨fun i => ⟨((C73_schema_partial vc cfg hp d h _).2).2 ⟨_, i, .self, .inl rfl⟩, rfl⟩, fun hex => ?_⟩
  have key := fun j => (C73_schema_partial vc cfg hp d h j).2
  have : ∃ defs defn x, lookupKey c!"definitions" d = some (.obj defs) ∧ lookupKey c!"JsonType" defs = some (.obj defn) ∧
      lookupKey c!"examples" defn = some (.arr [x]) ∧ Json.Within (.int 64) x := by
    obtain ⟨path, ex, pow, mok⟩ := cfg
    subst hp; cases hex
    have e : ∃ (b : Bool) (d' : Sch), jDocument ⟨c!"#/definitions/", true, pow, mok⟩ jsonType = (if b then .ok d' else .error .typeError) ∧
        ∃ defs defn x, lookupKey c!"definitions" d' = some (.obj defs) ∧ lookupKey c!"JsonType" defs = some (.obj defn) ∧
          lookupKey c!"examples" defn = some (.arr [x]) ∧ Json.Within (.int 64) x :=
      ⟨_, _, rfl, _, _, .obj example64, rfl, rfl, rfl, .obj (kv := (c!"property3", .int 64)) (by simp [example64]) .self⟩
    obtain ⟨b, d', e, hd⟩ := e
    rw [e] at h
    cases b with
    | true => cases h; exact hd
    | false => cases h
  obtain ⟨defs, defn, x, h1, h2, h3, h4⟩ := this
  exact ⟨defs, defn, x, h1, h2, h3, (key x).2 ⟨_, 64, h4, .inl rfl⟩⟩

private theorem of_if {b : Bool} {d d' : Sch} (h : (if b then .ok d' else .error .typeError : Res Sch) = .ok d) : d = d' := by
  cases b <;> cases h; rfl

/-- The document for `Any` accepts every JSON value; those for `JsonObject` and `JsonArray` accept exactly the objects and arrays. -/
theorem C73_schema_others (vc : ValidatorCfg) (cfg : SchemaCfg) (d : Sch) (j : Json) :
    (jDocument cfg .any = .ok d → Validates vc (.obj d) (.obj d) j) ∧
      (jDocument cfg .object = .ok d →
        (Validates vc (.obj d) (.obj d) j ↔ ∃ kvs, j = .obj kvs) ∧ (Rejects vc (.obj d) (.obj d) j ↔ ¬ ∃ kvs, j = .obj kvs)) ∧
      (jDocument cfg .array = .ok d →
        (Validates vc (.obj d) (.obj d) j ↔ ∃ xs, j = .arr xs) ∧ (Rejects vc (.obj d) (.obj d) j ↔ ¬ ∃ xs, j = .arr xs)) := by
  refine ⟨fun h => ?_, fun h => ?_, fun h => ?_⟩
  · cases of_if h
    exact ⟨3, by cases j <;> rfl⟩
  · rw [of_if h]
    have key := decided (vc := vc) (root := .obj [(c!"$schema", js metaSchemaId), (c!"type", js c!"object")])
      (s := .obj [(c!"$schema", js metaSchemaId), (c!"type", js c!"object")]) (v := j)
      (b := match j with | .obj _ => true | _ => false) ⟨1, by cases j <;> rfl⟩
    refine ⟨key.1.trans ?_, key.2.trans ?_⟩ <;> cases j <;> simp
  · rw [of_if h]
    have key := decided (vc := vc) (root := .obj [(c!"$schema", js metaSchemaId), (c!"type", js c!"array")])
      (s := .obj [(c!"$schema", js metaSchemaId), (c!"type", js c!"array")]) (v := j)
      (b := match j with | .arr _ => true | _ => false) ⟨1, by cases j <;> rfl⟩
    refine ⟨key.1.trans ?_, key.2.trans ?_⟩ <;> cases j <;> simp

/-- `JsonObject` and `JsonArray` (core.py:10-15) as classes. -/
private def placeholders : Env :=
  ⟨[], [{ module := c!"strong_typing.core", name := c!"JsonObject", kind := .plain, fields := [] },
      { module := c!"strong_typing.core", name := c!"JsonArray", kind := .plain, fields := [] }], id⟩

/-- Reading as `JsonObject` succeeds only for the empty object and never for an array as `JsonArray`, unlike what their schemas
accept. -/
theorem C73_placeholder_fails (j : Json) :
    ((∃ v, loads placeholders false (.cls 0) j = .ok v) ↔ j = .obj []) ∧ ((∃ v, loads placeholders false (.cls 1) j = .ok v) ↔ j = .obj []) := by
  have other : ∀ c < 2, (∀ kvs, j ≠ .obj kvs) → loads placeholders false (.cls c) j = .error .jsonType := by
    intro c hc hj
    match c, hc with
    | 0, _ => cases j <;> first | rfl | exact absurd rfl (hj _)
    | 1, _ => cases j <;> first | rfl | exact absurd rfl (hj _)
  have some_ : ∀ c < 2, ∀ kv kvs, loads placeholders false (.cls c) (.obj (kv :: kvs)) = .error .jsonKey := by
    intro c hc kv kvs
    obtain ⟨k, x⟩ := kv
    match c, hc with
    | 0, _ => rfl
    | 1, _ => rfl
  have none_ : ∀ c < 2, ∃ v, loads placeholders false (.cls c) (.obj []) = .ok v := by
    intro c hc
    match c, hc with
    | 0, _ => exact ⟨_, rfl⟩
    | 1, _ => exact ⟨_, rfl⟩
  have all : ∀ c < 2, ((∃ v, loads placeholders false (.cls c) j = .ok v) ↔ j = .obj []) := by
    intro c hc
    constructor
    · rintro ⟨v, h⟩
      by_cases hj : ∀ kvs, j ≠ .obj kvs
      · rw [other c hc hj] at h; cases h
      · obtain ⟨kvs, hj⟩ := Classical.not_forall.1 hj
        cases Classical.not_not.1 hj
        cases kvs with
        | nil => rfl
        | cons kv kvs => rw [some_ c hc] at h; cases h
    · rintro rfl; exact none_ c hc
  exact ⟨all 0 (by decide), all 1 (by decide)⟩

/-! ### Examples -/

/-- `{"a": [1, null, 2.5], "b": {"c": true}}` as `JsonType`. -/
private def sample : Json :=
  .obj [(c!"a", .arr [.int 1, .null, .float (.fin false 5 (-1))]), (c!"b", .obj [(c!"c", .bool true)])]

private theorem sample_wf : sample.Wf := by
  refine .obj (by simp) ?_
  simp only [List.mem_cons, List.not_mem_nil, or_false, forall_eq_or_imp, forall_eq]
  refine ⟨.arr ?_, .obj (by simp) (by simp; exact .bool)⟩
  simp only [List.mem_cons, List.not_mem_nil, or_false, forall_eq_or_imp, forall_eq]
  exact ⟨.int, .null, .float⟩

example : jLoads (some serializationContext) jsonType sample =
    .ok (.dict [(.str c!"a", .list [.int 1, .none, .float (.fin false 5 (-1))]), (.str c!"b", .dict [(.str c!"c", .bool true)])]) :=
  C73_json_to_object sample sample_wf

example (env : Env) : objectToJson env sample.asVal = .ok sample := C73_writes env sample sample_wf

/-- In a module with the name `StrictJsonType` this value is not of that type. -/
example : jLoads (some schemaNames) strictJsonType sample = .error .jsonKey :=
  (C73_reads_strict schemaNames rfl sample sample_wf).2 (.obj (kv := (c!"a", .arr [.int 1, .null, .float (.fin false 5 (-1))])) (by simp) (.arr (by simp) .self))

/-- `{"a": [null, 2.5]}` is valid. -/
example (vc : ValidatorCfg) (cfg : SchemaCfg) (hp : cfg.definitionsPath = c!"#/definitions/") (d : Sch) (h : jDocument cfg jsonType = .ok d) :
    Validates vc (.obj d) (.obj d) (.obj [(c!"a", .arr [.null, .float (.fin false 5 (-1))])]) := by
  refine (C73_schema_partial vc cfg hp d h _).1.2 ?_
  have := (goodJson_iff (nullable := true) (j := .obj [(c!"a", .arr [.null, .float (.fin false 5 (-1))])])).1 rfl
  exact this.1

/-- The sample is not: it has the number `1`. -/
example (vc : ValidatorCfg) (cfg : SchemaCfg) (hp : cfg.definitionsPath = c!"#/definitions/") (d : Sch) (h : jDocument cfg jsonType = .ok d) :
    Rejects vc (.obj d) (.obj d) sample :=
  (C73_schema_partial vc cfg hp d h _).2.2 ⟨.int 1, 1, .obj (kv := (c!"a", .arr [.int 1, .null, .float (.fin false 5 (-1))])) (by simp) (.arr (by simp) .self), .inl rfl⟩

/-- The documents for the standard options. -/
example : ∃ d, jDocument { pow10 := fun _ => .inf false } jsonType = .ok d ∧ d.map Prod.fst = [c!"$schema", c!"definitions", c!"$ref"] :=
  ⟨_, rfl, rfl⟩

end Verif
