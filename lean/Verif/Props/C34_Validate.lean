import Verif.Lemmas.SchemaAccept
import Verif.Lemmas.SchemaMade
import Verif.Lemmas.MetaCheck
/-!
# C34: serialized objects validate against the generated schema

What `object_to_json` writes for a value of a type is valid for the schema that `classdef_to_schema` makes for the type, if
the program, the type and the value are of the kind described in Spec/SchemaValid.lean.  The exceptions are shown at the end.
-/
namespace Verif

variable {fmt : Str → Str → Bool} {vc : ValidatorCfg} {cfg : SchemaCfg} {env : Env} {cat : SchemaCatalog}

/-- `validate_object(t, j)` returns, schema.py:594-604: there is a schema, and the validator finds `j` valid. -/
def ValidateReturns (vc : ValidatorCfg) (cfg : SchemaCfg) (env : Env) (cat : SchemaCatalog) (t : Ty) (j : Json) : Prop :=
  ∃ root, classdefToSchema cfg env cat t = .ok root ∧ Validates vc (.obj root) (.obj root) j

/-- `validate_object(t, j)` raises `ValidationError`. -/
def ValidateRefuses (vc : ValidatorCfg) (cfg : SchemaCfg) (env : Env) (cat : SchemaCatalog) (t : Ty) (j : Json) : Prop :=
  ∃ root, classdefToSchema cfg env cat t = .ok root ∧ Rejects vc (.obj root) (.obj root) j

theorem ValidateRefuses.not_returns {t : Ty} {j : Json} (h : ValidateRefuses vc cfg env cat t j) :
    ¬ ValidateReturns vc cfg env cat t j := by
  obtain ⟨r, h1, h2⟩ := h
  rintro ⟨r', h3, h4⟩
  rw [h1] at h3
  cases h3
  exact h4.not_rejects h2

/-- C34: the JSON value of a value of a type is valid for the schema of the type.  Missing: types, programs and values for
which this is not so, see below. -/
theorem C34_validates_partial (hp : ProgramChecks cfg env cat) (hw : WordsMatch vc) (t : Ty) (ht : Checkable env t) (root : Sch)
    (hr : classdefToSchema cfg env cat t = .ok root) (v : Val) (hv : Conforms vc cfg env v t) (j : Json)
    (hj : objectToJson env v = .ok j) : Validates vc (.obj root) (.obj root) j := by
  obtain ⟨names, s, us, h1, h2, h3, h4⟩ := document_good hp.schemaNames hr
  exact h3.symm.validates (accepts hp h4 hw (sizeOf v + 1) hv (Nat.lt_succ_self _) ht ⟨_, us, h1, h2⟩ (fun h => by cases h) hj)

/-- There is a schema for a type, if annotations are evaluated and no class is expanded within itself. -/
theorem C34_generates (hs : SchemaProgram env cat) (hcat : MadeByRegistering cat) (t : Ty) (ht : Schemable env t) :
    ∃ p, classdefSchemas cfg env cat false t = .ok p := classdef_made hs hcat ht

/-- C34: `validate_object(t, object_to_json(v))` returns, unless the validator finds the schema itself in error. -/
theorem C34_validate_object_partial (hp : ProgramChecks cfg env cat) (hs : SchemaProgram env cat) (hcat : MadeByRegistering cat)
    (hw : WordsMatch vc) (t : Ty) (ht : Checkable env t) (ht' : Schemable env t)
    (hm : classdefToSchema cfg env cat t ≠ .error .typeError) (v : Val) (hv : Conforms vc cfg env v t) (j : Json)
    (hj : objectToJson env v = .ok j) : ValidateReturns vc cfg env cat t j := by
  rcases document_made (cfg := cfg) hs hcat ht' with ⟨root, h⟩ | h
  · exact ⟨root, h, C34_validates_partial hp hw t ht root h v hv j hj⟩
  · exact absurd h hm

/-! ### Disagreements -/

/-- No enumerations and no classes. -/
def noClasses : Env := ⟨[], [], id⟩

/-- One class. -/
def classEnv (cd : ClassDef) : Env := ⟨[], [cd], id⟩

/-- Nothing is registered. -/
def noneRegistered : SchemaCatalog := Catalog.empty

/-- Validation refuses data if the schema that is made refuses it; `ok` are strings of a format. -/
theorem refuses_of {t : Ty} {s : Sch} {j : Json} (ok : List (Str × Str)) (hok : ∀ p ∈ ok, fmt p.1 p.2 = true)
    (hm : AcceptsValid fmt cfg) (h : classdefSchemas cfg env cat false t = .ok (s, []))
    (hc : metaCheck ok 9 (.obj (updateSch [] s)) = true)
    (hr : Rejects vc (.obj (updateSch [(c!"$schema", js metaSchemaId)] (updateSch [] s)))
      (.obj (updateSch [(c!"$schema", js metaSchemaId)] (updateSch [] s))) j) : ValidateRefuses vc cfg env cat t j :=
  ⟨_, document_checked ok hok hm h hc, hr⟩

theorem returns_of {t : Ty} {s : Sch} {j : Json} (ok : List (Str × Str)) (hok : ∀ p ∈ ok, fmt p.1 p.2 = true)
    (hm : AcceptsValid fmt cfg) (h : classdefSchemas cfg env cat false t = .ok (s, []))
    (hc : metaCheck ok 9 (.obj (updateSch [] s)) = true)
    (hr : Validates vc (.obj (updateSch [(c!"$schema", js metaSchemaId)] (updateSch [] s)))
      (.obj (updateSch [(c!"$schema", js metaSchemaId)] (updateSch [] s))) j) : ValidateReturns vc cfg env cat t j :=
  ⟨_, document_checked ok hok hm h hc, hr⟩

/-- C34 does not hold for `IPv4Address`: the schema is that of an object, but a string is written. -/
theorem C34_ipv4_fails (vc : ValidatorCfg) (cfg : SchemaCfg) (hm : AcceptsValid fmt cfg) :
    HasTy noClasses (.ipv4 0) .ipv4 ∧ objectToJson noClasses (.ipv4 0) = .ok (.str c!"0.0.0.0") ∧
    ValidateRefuses vc cfg noClasses noneRegistered .ipv4 (.str c!"0.0.0.0") :=
  ⟨.ipv4 (by decide), rfl, refuses_of [] (by simp) hm rfl rfl ⟨1, rfl⟩⟩

/-- C34 does not hold for `list` without parameter: the schema is that of an object. -/
theorem C34_bare_list_fails (vc : ValidatorCfg) (cfg : SchemaCfg) (hm : AcceptsValid fmt cfg) :
    HasTy noClasses (.list []) .bareList ∧ objectToJson noClasses (.list []) = .ok (.arr []) ∧
    ValidateRefuses vc cfg noClasses noneRegistered .bareList (.arr []) :=
  ⟨.bareList, rfl, refuses_of [] (by simp) hm rfl rfl ⟨1, rfl⟩⟩

/-- C34 does not hold for optional types other than of fields: there is no schema (`AttributeError`). -/
theorem C34_optional_fails (cfg : SchemaCfg) :
    HasTy noClasses (.int 1) (.union [.int, .none]) ∧
    classdefToSchema cfg noClasses noneRegistered (.union [.int, .none]) = .error .attribute ∧
    classdefToSchema cfg noClasses noneRegistered (.list (.union [.int, .none])) = .error .attribute :=
  ⟨.union (t := .int) (by simp) .int, rfl, rfl⟩

/-- C34 does not hold for literals with several values: there is no schema (`ValueError`). -/
theorem C34_literal_fails (cfg : SchemaCfg) :
    HasTy noClasses (.str c!"a") (.literal [.str c!"a", .str c!"b"]) ∧
    classdefToSchema cfg noClasses noneRegistered (.literal [.str c!"a", .str c!"b"]) = .error .valueError :=
  ⟨.literal (l := .str c!"a") (by simp) rfl, rfl⟩

/-- C34 does not hold for `Union[int, float]`: an integer is also a number, and only one member of `oneOf` may be valid. -/
theorem C34_union_fails (vc : ValidatorCfg) (cfg : SchemaCfg) (hm : AcceptsValid fmt cfg) :
    HasTy noClasses (.int 1) (.union [.int, .float]) ∧ objectToJson noClasses (.int 1) = .ok (.int 1) ∧
    ValidateRefuses vc cfg noClasses noneRegistered (.union [.int, .float]) (.int 1) :=
  ⟨.union (t := .int) (by simp) .int, rfl, refuses_of [] (by simp) hm rfl rfl ⟨2, rfl⟩⟩

/-- C34 does not hold for `Union[str, bytes]`: what is written for bytes is also a string. -/
theorem C34_union_text_fails (vc : ValidatorCfg) (cfg : SchemaCfg) (hm : AcceptsValid fmt cfg) :
    HasTy noClasses (.bytes []) (.union [.str, .bytes]) ∧ objectToJson noClasses (.bytes []) = .ok (.str []) ∧
    ValidateRefuses vc cfg noClasses noneRegistered (.union [.str, .bytes]) (.str []) :=
  ⟨.union (t := .bytes) (by simp) .bytes, rfl, refuses_of [] (by simp) hm rfl rfl ⟨2, rfl⟩⟩

/-- C34 does not hold for fields of type `None`: they are required but not written. -/
theorem C34_none_field_fails (vc : ValidatorCfg) (cfg : SchemaCfg) (hm : AcceptsValid fmt cfg) :
    let env := classEnv (oneField c!"A" { name := c!"x", ty := .none })
    HasTy env (.obj 0 [(c!"x", .none)]) (.cls 0) ∧ objectToJson env (.obj 0 [(c!"x", .none)]) = .ok (.obj []) ∧
    ValidateRefuses vc cfg env noneRegistered (.cls 0) (.obj []) := by
  refine ⟨.cls rfl rfl ?_, rfl, refuses_of [] (by simp) hm rfl rfl ⟨3, rfl⟩⟩
  rintro (_ | i) f w h1 h2
  · cases h1; cases h2; exact .none
  · cases h1

/-- C34 does not hold for classes with `to_json`: the schema is that of the annotations. -/
theorem C34_to_json_fails (vc : ValidatorCfg) (cfg : SchemaCfg) (hm : AcceptsValid fmt cfg) :
    let env := classEnv { oneField c!"A" { name := c!"x", ty := .int } with toJson := some fun _ => .ok (.str c!"A") }
    HasTy env (.obj 0 [(c!"x", .int 1)]) (.cls 0) ∧ objectToJson env (.obj 0 [(c!"x", .int 1)]) = .ok (.str c!"A") ∧
    ValidateRefuses vc cfg env noneRegistered (.cls 0) (.str c!"A") := by
  refine ⟨.cls rfl rfl ?_, rfl, refuses_of [] (by simp) hm rfl rfl ⟨3, rfl⟩⟩
  rintro (_ | i) f w h1 h2
  · cases h1; cases h2; exact .int
  · cases h1

/-- C34 does not hold for names such as `from_`: the schema has `from_`, but `from` is written. -/
theorem C34_keyword_fails (vc : ValidatorCfg) (cfg : SchemaCfg) (hm : AcceptsValid fmt cfg) :
    let env := classEnv (oneField c!"A" { name := c!"from_", ty := .int })
    HasTy env (.obj 0 [(c!"from_", .int 1)]) (.cls 0) ∧
    objectToJson env (.obj 0 [(c!"from_", .int 1)]) = .ok (.obj [(c!"from", .int 1)]) ∧
    ValidateRefuses vc cfg env noneRegistered (.cls 0) (.obj [(c!"from", .int 1)]) := by
  refine ⟨.cls rfl rfl ?_, rfl, refuses_of [] (by simp) hm rfl rfl ⟨3, rfl⟩⟩
  rintro (_ | i) f w h1 h2
  · cases h1; cases h2; exact .int
  · cases h1

/-- Annotated lengths of `bytes` are applied to the text that is written: two bytes are within `MaxLength(2)`, but their
text has four characters. -/
theorem C34_bytes_length_fails (vc : ValidatorCfg) (cfg : SchemaCfg) (hm : AcceptsValid fmt cfg) :
    HasTy noClasses (.bytes [1, 2]) (.annotated .bytes [.maxLength 2]) ∧
    objectToJson noClasses (.bytes [1, 2]) = .ok (.str c!"AQI=") ∧
    ValidateRefuses vc cfg noClasses noneRegistered (.annotated .bytes [.maxLength 2]) (.str c!"AQI=") :=
  ⟨.annotated .bytes, rfl, refuses_of [] (by simp) hm rfl rfl ⟨1, rfl⟩⟩

/-- A time whose text the format checker does not accept is refused.  RFC 3339, to which the format refers, demands an
offset, whereas `time` values have none in general. -/
theorem C34_time_format_fails (vc : ValidatorCfg) (cfg : SchemaCfg) (hm : AcceptsValid fmt cfg) (t : PyTime)
    (hf : vc.format c!"time" (timeIso t) = false) :
    objectToJson noClasses (.time t) = .ok (.str (timeIso t)) ∧
    ValidateRefuses vc cfg noClasses noneRegistered .time (.str (timeIso t)) := by
  refine ⟨rfl, refuses_of (s := [(c!"type", js c!"string"), (c!"format", js c!"time")]) [] (by simp) hm rfl rfl ⟨1, ?_⟩⟩
  show some (true && (true && (vc.format c!"time" (timeIso t) && true))) = some false
  rw [hf]
  rfl

/-- Enumerations of keys with more than four members make a pattern in which the values are not escaped: `a+` does not match
the pattern made of it. -/
theorem C34_pattern_fails (vc : ValidatorCfg) (cfg : SchemaCfg) (hm : AcceptsValid fmt cfg)
    (hre : fmt c!"regex" c!"^(a+|b|c|d|e)$" = true) (hpat : vc.pattern c!"^(a+|b|c|d|e)$" c!"a+" = false) :
    let env : Env := ⟨[{ module := c!"m", name := c!"E", members := [(c!"A", .str c!"a+"), (c!"B", .str c!"b"),
      (c!"C", .str c!"c"), (c!"D", .str c!"d"), (c!"E", .str c!"e")] }], [], id⟩
    HasTy env (.dict [(.enum 0 0, .int 1)]) (.dict (.enum 0) .int) ∧
    objectToJson env (.dict [(.enum 0 0, .int 1)]) = .ok (.obj [(c!"a+", .int 1)]) ∧
    ValidateRefuses vc cfg env noneRegistered (.dict (.enum 0) .int) (.obj [(c!"a+", .int 1)]) := by
  intro env
  refine ⟨.dict (by simp) ?_ ?_, rfl, refuses_of (s := [(c!"type", js c!"object"),
    (c!"propertyNames", .obj [(c!"pattern", js c!"^(a+|b|c|d|e)$")]),
    (c!"additionalProperties", .obj [(c!"type", js c!"integer")])]) [(c!"regex", c!"^(a+|b|c|d|e)$")] (by simpa using hre) hm rfl rfl ⟨2, ?_⟩⟩
  · intro kv h; simp only [List.mem_singleton] at h; subst h; exact ⟨rfl, _, rfl, by decide⟩
  · intro kv h; simp only [List.mem_singleton] at h; subst h; exact .int
  · show some (true && (true && ((vc.pattern c!"^(a+|b|c|d|e)$" c!"a+" && true && true) && (true && true)))) = some false
    rw [hpat]
    rfl

/-- A date-time without time zone as default is written to the schema, which fails. -/
theorem C34_default_fails (cfg : SchemaCfg) (d : PyDateTime) (hd : d.time.off = none) :
    classdefToSchema cfg (classEnv (oneField c!"A" { name := c!"x", ty := .datetime, dflt := .value (.datetime d) }))
      noneRegistered (.cls 0) = .error .jsonValue := by
  obtain ⟨d, h, m, s, us, off⟩ := d
  cases hd
  rfl

/-! ### The hypotheses are met -/

/-- Trees of two kinds of nodes that are told apart by a tag:

    class Color(Enum): RED = "red"; GREEN = "green"
    @dataclass
    class Leaf: kind: Literal["leaf"]; color: Color; note: Optional[str]
    class Node: kind: Literal["node"]; size: Annotated[int, IntegerRange(0, 100)]; children: list[Union[Node, Leaf]]
-/
def forestEnv : Env :=
  ⟨[{ module := c!"m", name := c!"Color", members := [(c!"RED", .str c!"red"), (c!"GREEN", .str c!"green")] }],
   [{ module := c!"m", name := c!"Leaf", kind := .dataclass false, fields :=
      [{ name := c!"kind", ty := .literal [.str c!"leaf"] }, { name := c!"color", ty := .enum 0 },
       { name := c!"note", ty := .union [.str, .none] }] },
    { module := c!"m", name := c!"Node", kind := .plain, fields :=
      [{ name := c!"kind", ty := .literal [.str c!"node"] },
       { name := c!"size", ty := .annotated .int [.intRange 0 100] },
       { name := c!"children", ty := .list (.union [.cls 1, .cls 0]) }] }], id⟩

/-- `Node` is registered. -/
def forestCat : SchemaCatalog := catalogOf [(1, c!"Node")]

/-- A node with a leaf. -/
def forestVal : Val :=
  .obj 1 [(c!"kind", .str c!"node"), (c!"size", .int 3), (c!"children", .list
    [.obj 0 [(c!"kind", .str c!"leaf"), (c!"color", .enum 0 1), (c!"note", .none)]])]

private theorem node_apart : SchemaApart forestEnv (.cls 1) (.cls 0) ∧ SchemaApart forestEnv (.cls 0) (.cls 1) := by
  refine ⟨.differ rfl rfl rfl rfl (f := { name := c!"kind", ty := .literal [.str c!"node"] })
      (g := { name := c!"kind", ty := .literal [.str c!"leaf"] }) (by simp [ClassDef.hints]) rfl (by simp [ClassDef.hints]) rfl
      (.values (xs := [.str c!"node"]) (ys := [.str c!"leaf"]) rfl rfl ?_),
    .differ rfl rfl rfl rfl (f := { name := c!"kind", ty := .literal [.str c!"leaf"] })
      (g := { name := c!"kind", ty := .literal [.str c!"node"] }) (by simp [ClassDef.hints]) rfl (by simp [ClassDef.hints]) rfl
      (.values (xs := [.str c!"leaf"]) (ys := [.str c!"node"]) rfl rfl ?_)⟩ <;>
  · intro x hx y hy
    rw [List.mem_singleton] at hx hy
    subst hx hy
    rfl

private theorem node_get {k : RegKey} {e : CatEntry Sch (List Json)} (h : lookupKey k forestCat.byType = some e) :
    k = .cls 1 ∧ e.identifier = c!"Node" ∧ e.schema = none := by
  by_cases hk : RegKey.cls 1 = k
  · subst hk; cases h; exact ⟨rfl, rfl, rfl⟩
  · simp [forestCat, catalogOf, registerAll, register, Catalog.add, Catalog.empty, lookupKey, upsert, hk] at h

private theorem forest_class {cd : ClassDef} {f : FieldDef} (hc : cd ∈ forestEnv.classes) (hf : f ∈ cd.hints) :
    (cd.kind = .dataclass false ∧ cd.name = c!"Leaf" ∧ (f = { name := c!"kind", ty := .literal [.str c!"leaf"] } ∨
      f = { name := c!"color", ty := .enum 0 } ∨ f = { name := c!"note", ty := .union [.str, .none] })) ∨
    (cd.kind = .plain ∧ cd.name = c!"Node" ∧ (f = { name := c!"kind", ty := .literal [.str c!"node"] } ∨
      f = { name := c!"size", ty := .annotated .int [.intRange 0 100] } ∨
      f = { name := c!"children", ty := .list (.union [.cls 1, .cls 0]) })) := by
  simp only [forestEnv, List.mem_cons, List.not_mem_nil, or_false] at hc
  rcases hc with rfl | rfl <;> simp only [ClassDef.hints, List.mem_cons, List.not_mem_nil, or_false] at hf
  · exact Or.inl ⟨rfl, rfl, hf⟩
  · exact Or.inr ⟨rfl, rfl, hf⟩

theorem forest_program (hpath : cfg.definitionsPath = c!"#/definitions/") : ProgramChecks cfg forestEnv forestCat where
  ok := by
    refine ⟨by decide, ?_, ?_, fun _ => List.Perm.refl _⟩
    · intro ed h
      simp only [forestEnv, List.mem_singleton] at h
      subst h
      simp [EnumDef.Ok, Scalar.pyEq]
    · intro cd h
      simp only [forestEnv, List.mem_cons, List.not_mem_nil, or_false] at h
      rcases h with rfl | rfl <;> decide
  classes cd hc :=
    { toJson := by
        simp only [forestEnv, List.mem_cons, List.not_mem_nil, or_false] at hc
        rcases hc with rfl | rfl <;> rfl
      strings := by
        intro f hf
        rcases forest_class hc hf with ⟨h, _, rfl | rfl | rfl⟩ | ⟨h, _, rfl | rfl | rfl⟩ <;> rw [h] <;> rfl
      names := by
        intro f hf _
        rcases forest_class hc hf with ⟨_, _, rfl | rfl | rfl⟩ | ⟨_, _, rfl | rfl | rfl⟩ <;> decide
      distinct := by
        simp only [forestEnv, List.mem_cons, List.not_mem_nil, or_false] at hc
        rcases hc with rfl | rfl <;> decide
      types := by
        intro f hf
        rcases forest_class hc hf with ⟨h, _, rfl | rfl | rfl⟩ | ⟨h, _, rfl | rfl | rfl⟩
        · exact .literal
        · exact .enum
        · refine .union ?_ ?_
          · intro t ht
            simp only [List.mem_cons, List.not_mem_nil, or_false] at ht
            rcases ht with rfl | rfl <;> exact .simple (by simp)
          · simp only [List.pairwise_cons, List.mem_singleton, List.not_mem_nil, false_implies, implies_true, List.Pairwise.nil,
              and_true, forall_eq]
            exact ⟨.kinds (by decide), .kinds (by decide)⟩
        · exact .literal
        · exact .annotated (.simple (by simp))
        · refine .list (.union ?_ ?_)
          · intro t ht
            simp only [List.mem_cons, List.not_mem_nil, or_false] at ht
            rcases ht with rfl | rfl <;> exact .cls
          · simp only [List.pairwise_cons, List.mem_singleton, List.not_mem_nil, false_implies, implies_true, List.Pairwise.nil,
              and_true, forall_eq]
            exact node_apart
      present := by
        intro f hf ho v hv
        rcases forest_class hc hf with ⟨_, _, rfl | rfl | rfl⟩ | ⟨_, _, rfl | rfl | rfl⟩
        · cases hv with | literal h1 h2 => rw [List.mem_singleton] at h1; subst h1; rw [h2]; simp [Lit.toVal]
        · cases hv; simp
        · cases ho
        · cases hv with | literal h1 h2 => rw [List.mem_singleton] at h1; subst h1; rw [h2]; simp [Lit.toVal]
        · cases hv with | annotated h => cases h; simp
        · cases hv; simp
      forward := by
        intro f hf hw
        rcases forest_class hc hf with ⟨h, _, rfl | rfl | rfl⟩ | ⟨h, _, rfl | rfl | rfl⟩ <;> rw [h] at hw <;> cases hw }
  enums := by
    intro ed h
    simp only [forestEnv, List.mem_singleton] at h
    subst h
    simp
  path := hpath
  explicit r e h := by
    cases r with
    | ty k =>
      cases hk : lookupKey k forestCat.byType with
      | none => simp [Catalog.get, hk] at h
      | some e' => simp only [Catalog.get, hk] at h; cases h; exact (node_get hk).2.2
    | fwd n =>
      by_cases hk : c!"Node" = n
      · subst hk; cases h; rfl
      · simp [forestCat, catalogOf, registerAll, register, Catalog.add, Catalog.get, Catalog.empty, lookupKey, upsert, hk] at h
  names k e h := by rw [(node_get h).2.1]; decide
  unique k e k' e' h h' _ := (node_get h).1.trans (node_get h').1.symm

theorem forest_schemas : SchemaProgram forestEnv forestCat where
  evaluated cd hc f hf := by
    rcases forest_class hc hf with ⟨h, _, rfl | rfl | rfl⟩ | ⟨h, _, rfl | rfl | rfl⟩ <;> exact fun _ _ => ⟨rfl, rfl⟩
  types cd hc f hf := by
    rcases forest_class hc hf with ⟨h, _, rfl | rfl | rfl⟩ | ⟨h, _, rfl | rfl | rfl⟩
    · exact .literal (by simp)
    · exact .enum rfl (by simp) (by decide)
    · exact .leaf (t := .str) (Or.inl (by simp [scalarTys]))
    · exact .literal (by simp)
    · exact .annotated (.leaf (Or.inl (by simp [scalarTys])))
    · refine .list (.union (Or.inr (by simp)) ?_)
      intro t ht
      simp only [List.mem_cons, List.not_mem_nil, or_false] at ht
      rcases ht with rfl | rfl
      · exact .cls (c := 1) rfl
      · exact .cls (c := 0) rfl
  defaults cd hc f hf v hv := by
    rcases forest_class hc hf with ⟨h, _, rfl | rfl | rfl⟩ | ⟨h, _, rfl | rfl | rfl⟩ <;> cases hv
  registered k e h := by rw [(node_get h).1]; exact .cls (c := 1) rfl
  acyclic := by
    have h : ∀ c d, Inlines forestEnv forestCat c d → c = 1 ∧ d = 0 := by
      rintro c d ⟨cd, hc, f, hf, _, he⟩
      have hcd := List.mem_of_getElem? hc
      have h1 : ¬ Expands forestCat false (.cls 1) d := by
        intro h
        cases h with | cls h => rcases h with h | h <;> cases h
      rcases forest_class hcd hf with ⟨_, _, rfl | rfl | rfl⟩ | ⟨_, hn, rfl | rfl | rfl⟩
      · have he : Expands _ false (.literal _) d := he
        cases he
      · have he : Expands _ false (.enum 0) d := he
        cases he
      · have he : Expands _ false .str d := he
        cases he
      · have he : Expands _ false (.literal _) d := he
        cases he
      · have he : Expands _ false (.annotated .int _) d := he
        cases he with | annotated h => cases h
      · have he : Expands _ false (.list (.union [.cls 1, .cls 0])) d := he
        refine ⟨?_, ?_⟩
        · match c, hc with
          | 0, hc => cases hc; cases hn
          | 1, _ => rfl
          | c + 2, hc => cases hc
        · cases he with
          | list he =>
            cases he with
            | union ht he =>
              simp only [List.mem_cons, List.not_mem_nil, or_false] at ht
              rcases ht with rfl | rfl
              · exact absurd he h1
              · cases he; rfl
    intro c hc
    rcases Relation.TransGen.head'_iff.1 hc with ⟨d, hd, hr⟩
    obtain ⟨rfl, rfl⟩ := h _ _ hd
    rcases Relation.ReflTransGen.cases_head hr with h' | ⟨e, he, _⟩
    · cases h'
    · exact absurd (h _ _ he).1 (by decide)

theorem forest_conforms : Conforms vc cfg forestEnv forestVal (.cls 1) := by
  have lit : ∀ s : Str, HasTy forestEnv (.str s) (.literal [.str s]) := fun s => .literal (l := .str s) (by simp) rfl
  have leaf : Conforms vc cfg forestEnv (.obj 0 [(c!"kind", .str c!"leaf"), (c!"color", .enum 0 1), (c!"note", .none)]) (.cls 0) := by
    refine .cls rfl (.cls rfl rfl ?_) ?_
    · rintro (_ | _ | _ | i) f w h1 h2 <;> cases h1 <;> cases h2
      · exact lit _
      · exact .enum rfl (by decide)
      · exact .union (t := .none) (by simp) .none
    · rintro (_ | _ | _ | i) f w h1 h2 <;> cases h1 <;> cases h2
      · exact .literal (lit _)
      · exact .enum (.enum rfl (by decide))
      · exact .union (t := .none) (by simp) (.leaf (by simp [scalarTys]) .none trivial)
  have children : Conforms vc cfg forestEnv (.list [.obj 0 [(c!"kind", .str c!"leaf"), (c!"color", .enum 0 1), (c!"note", .none)]])
      (.list (.union [.cls 1, .cls 0])) := by
    refine .list fun v hv => ?_
    rw [List.mem_singleton] at hv
    subst hv
    exact .union (t := .cls 0) (by simp) leaf
  refine .cls rfl (.cls rfl rfl ?_) ?_
  · rintro (_ | _ | _ | i) f w h1 h2 <;> cases h1 <;> cases h2
    · exact lit _
    · exact .annotated .int
    · exact children.hasTy
  · rintro (_ | _ | _ | i) f w h1 h2 <;> cases h1 <;> cases h2
    · exact .literal (lit _)
    · refine .annotated (.leaf (by simp [scalarTys]) .int trivial) fun m hm => ?_
      rw [List.mem_singleton] at hm
      subst hm
      exact ⟨fun i hi => by cases hi; decide, fun f hf => by cases hf⟩
    · exact children

example : WordsMatch { format := fun _ _ => true, pattern := fun _ _ => true, multipleOf := fun _ _ => true } :=
  fun _ _ _ _ => rfl

theorem forest_validates (hpath : cfg.definitionsPath = c!"#/definitions/") (hw : WordsMatch vc) (hm : AcceptsValid fmt cfg)
    (href : fmt c!"uri-reference" c!"#/definitions/Node" = true) :
    ValidateReturns vc cfg forestEnv forestCat (.cls 1) (.obj [(c!"kind", .str c!"node"), (c!"size", .int 3),
      (c!"children", .arr [.obj [(c!"kind", .str c!"leaf"), (c!"color", .str c!"green")]])]) := by
  refine C34_validate_object_partial (forest_program hpath) forest_schemas ⟨_, _, rfl⟩ hw _ .cls (.cls (c := 1) rfl) ?_ forestVal
    forest_conforms _ rfl
  obtain ⟨path, ex, pow, mok⟩ := cfg
  cases hpath
  rw [document_checked [(c!"uri-reference", c!"#/definitions/Node")] (by simpa using href) hm rfl rfl]
  simp

end Verif
