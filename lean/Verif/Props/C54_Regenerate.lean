import Verif.Lemmas.SchemaWf
import Verif.Props.C13_PlainJson
import Verif.Props.C34_Validate
import Verif.Props.C53_SchemaTypes
/-!
# C54: a type made from the schema of a class reads what the class writes

The schema comes from `classdef_to_schema`, the type from `schema_to_type`; the two programs share no classes.
-/
namespace Verif

/-- The full statement: a type can be made from the schema of a class, and it reads whatever is written for values of the
class. -/
def C54_statement (scfg : SchemaCfg) (bcfg : BuildCfg) : Prop :=
  ∀ env cat c root, classdefToSchema scfg env cat (.cls c) = .ok root → ∀ name,
    ∃ t st, schemaToType bcfg name (.obj root) ⟨noClasses, [], []⟩ = .ok (t, st) ∧
      ∀ v j, HasTy env v (.cls c) → objectToJson env v = .ok j → ∃ w, loads st.env false t j = .ok w

theorem ProgramChecks.hooksWf {cfg : SchemaCfg} {env : Env} {cat : SchemaCatalog} (h : ProgramChecks cfg env cat) : env.HooksWf := by
  constructor
  · intro cd hc g _ _ hg
    rw [(h.classes cd hc).toJson] at hg
    cases hg
  · intro ed he g _ _ hg
    rw [(h.enums ed he).1] at hg
    cases hg

theorem noClasses_ok : noClasses.Ok := ⟨by simp [noClasses], by simp [noClasses], by simp [noClasses], fun _ => .refl _⟩

/-- C54 in part: if a type is made, it reads what is written, under the conditions of C34 and C53.  Missing: that a type is
made, and the programs excluded in C34 and C53; both fail in general, see below. -/
theorem C54_reads_partial (scfg : SchemaCfg) (bcfg : BuildCfg) (vc : ValidatorCfg) (hw : WordsMatch vc) (hf : FormatsRead vc)
    (env : Env) (cat : SchemaCatalog) (hp : ProgramChecks scfg env cat) (hc : CatalogWf cat) (t : Ty) (ht : Checkable env t)
    (root : Sch) (hr : classdefToSchema scfg env cat t = .ok root) (name : Str) (hs : SchemaSafe bcfg.word name (.obj root))
    (env' : Env) (t' : Ty) (st : BuildSt) (h : schemaToType bcfg name (.obj root) ⟨env', [], []⟩ = .ok (t', st))
    (hk : st.env.Ok) (hpl : Plain st.env t') (v : Val) (hv : Conforms vc scfg env v t) (j : Json)
    (hj : objectToJson env v = .ok j) (hi : SmallInts j) (hfi : ¬ FloatForInt st.env t' j) :
    ∃ w, loads st.env false t' j = .ok w :=
  C53_partial bcfg vc hf name (.obj root) env' t' st (document_wf hp.hooksWf hc hr) hs h hk hpl j
    (C13_distinct env hp.hooksWf _ v j hj) hi hfi (C34_validates_partial hp hw t ht root hr v hv j hj)

/-- C54 in part, for schemas without `oneOf`: there are no conditions on the types that are made, apart from floats in place of
integers. -/
theorem C54_reads_no_unions_partial (scfg : SchemaCfg) (bcfg : BuildCfg) (vc : ValidatorCfg) (hw : WordsMatch vc)
    (hf : FormatsRead vc) (env : Env) (cat : SchemaCatalog) (hp : ProgramChecks scfg env cat) (hc : CatalogWf cat) (t : Ty)
    (ht : Checkable env t) (root : Sch) (hr : classdefToSchema scfg env cat t = .ok root) (name : Str)
    (hs : SchemaSafe bcfg.word name (.obj root)) (htame : Tame (.obj root)) (htn : TidyNames (.obj root))
    (ha : NamesApart name (.obj root)) (t' : Ty) (st : BuildSt)
    (h : schemaToType bcfg name (.obj root) ⟨noClasses, [], []⟩ = .ok (t', st)) (v : Val) (hv : Conforms vc scfg env v t)
    (j : Json) (hj : objectToJson env v = .ok j) (hi : SmallInts j) (hfi : ¬ FloatForInt st.env t' j) :
    ∃ w, loads st.env false t' j = .ok w :=
  C53_no_unions_partial bcfg vc hf name (.obj root) noClasses noClasses_ok (by simp [noClasses]) t' st
    (document_wf hp.hooksWf hc hr) hs htame htn ha h j
    (C13_distinct env hp.hooksWf _ v j hj) hi hfi (C34_validates_partial hp hw t ht root hr v hv j hj)

/-! ### The hypotheses are met -/

/-- The configuration used in the examples. -/
def cfg54 : SchemaCfg := { pow10 := fun _ => .fin false 1 0 }

/-- Groves of leaves:

    class Color(Enum): RED = "red"; GREEN = "green"
    @dataclass
    class Leaf: kind: Literal["leaf"]; color: Color; note: Optional[str]
    @dataclass
    class Grove: size: Annotated[int, IntegerRange(0, 100)]; leaves: list[Leaf]; planted: date
-/
def groveEnv : Env :=
  ⟨[{ module := c!"m", name := c!"Color", members := [(c!"RED", .str c!"red"), (c!"GREEN", .str c!"green")] }],
   [{ module := c!"m", name := c!"Leaf", kind := .dataclass false, fields :=
      [{ name := c!"kind", ty := .literal [.str c!"leaf"] }, { name := c!"color", ty := .enum 0 },
       { name := c!"note", ty := .union [.str, .none] }] },
    { module := c!"m", name := c!"Grove", kind := .dataclass false, fields :=
      [{ name := c!"size", ty := .annotated .int [.intRange 0 100] }, { name := c!"leaves", ty := .list (.cls 0) },
       { name := c!"planted", ty := .date }] }], id⟩

/-- `Leaf` is registered. -/
def groveCat : SchemaCatalog := catalogOf [(0, c!"Leaf")]

def groveVal : Val :=
  .obj 1 [(c!"size", .int 3),
    (c!"leaves", .list [.obj 0 [(c!"kind", .str c!"leaf"), (c!"color", .enum 0 1), (c!"note", .none)]]),
    (c!"planted", .date ⟨2024, 2, 29⟩)]

def groveData : Json :=
  .obj [(c!"size", .int 3), (c!"leaves", .arr [.obj [(c!"kind", .str c!"leaf"), (c!"color", .str c!"green")]]),
    (c!"planted", .str c!"2024-02-29")]

private theorem leaf_get {k : RegKey} {e : CatEntry Sch (List Json)} (h : lookupKey k groveCat.byType = some e) :
    k = .cls 0 ∧ e.identifier = c!"Leaf" ∧ e.schema = none ∧ e.examples = none := by
  by_cases hk : RegKey.cls 0 = k
  · subst hk; cases h; exact ⟨rfl, rfl, rfl, rfl⟩
  · simp [groveCat, catalogOf, registerAll, register, Catalog.add, Catalog.empty, lookupKey, upsert, hk] at h

private theorem grove_get {r : TypeRef RegKey} {e : CatEntry Sch (List Json)} (h : groveCat.get r = .ok e) :
    e.schema = none ∧ e.examples = none := by
  cases r with
  | ty k =>
    cases hk : lookupKey k groveCat.byType with
    | none => simp [Catalog.get, hk] at h
    | some e' => simp only [Catalog.get, hk] at h; cases h; exact (leaf_get hk).2.2
  | fwd n =>
    by_cases hk : c!"Leaf" = n
    · subst hk; cases h; exact ⟨rfl, rfl⟩
    · simp [groveCat, catalogOf, registerAll, register, Catalog.add, Catalog.get, Catalog.empty, lookupKey, upsert, hk] at h

private theorem grove_class {cd : ClassDef} {f : FieldDef} (hc : cd ∈ groveEnv.classes) (hf : f ∈ cd.hints) :
    cd.kind = .dataclass false ∧ ((f = { name := c!"kind", ty := .literal [.str c!"leaf"] } ∨
      f = { name := c!"color", ty := .enum 0 } ∨ f = { name := c!"note", ty := .union [.str, .none] }) ∨
      f = { name := c!"size", ty := .annotated .int [.intRange 0 100] } ∨ f = { name := c!"leaves", ty := .list (.cls 0) } ∨
      f = { name := c!"planted", ty := .date }) := by
  simp only [groveEnv, List.mem_cons, List.not_mem_nil, or_false] at hc
  rcases hc with rfl | rfl <;> simp only [ClassDef.hints, List.mem_cons, List.not_mem_nil, or_false] at hf
  · exact ⟨rfl, Or.inl hf⟩
  · exact ⟨rfl, Or.inr hf⟩

theorem grove_program : ProgramChecks cfg54 groveEnv groveCat where
  ok := by
    refine ⟨by decide, ?_, ?_, fun _ => List.Perm.refl _⟩
    · intro ed h
      simp only [groveEnv, List.mem_singleton] at h
      subst h
      simp [EnumDef.Ok, Scalar.pyEq]
    · intro cd h
      simp only [groveEnv, List.mem_cons, List.not_mem_nil, or_false] at h
      rcases h with rfl | rfl <;> decide
  classes cd hc :=
    { toJson := by
        simp only [groveEnv, List.mem_cons, List.not_mem_nil, or_false] at hc
        rcases hc with rfl | rfl <;> rfl
      strings := by
        intro f hf
        rcases grove_class hc hf with ⟨h, (rfl | rfl | rfl) | rfl | rfl | rfl⟩ <;> rw [h] <;> rfl
      names := by
        intro f hf _
        rcases grove_class hc hf with ⟨_, (rfl | rfl | rfl) | rfl | rfl | rfl⟩ <;> decide
      distinct := by
        simp only [groveEnv, List.mem_cons, List.not_mem_nil, or_false] at hc
        rcases hc with rfl | rfl <;> decide
      types := by
        intro f hf
        rcases grove_class hc hf with ⟨h, (rfl | rfl | rfl) | rfl | rfl | rfl⟩
        · exact .literal
        · exact .enum
        · refine .union ?_ ?_
          · intro t ht
            simp only [List.mem_cons, List.not_mem_nil, or_false] at ht
            rcases ht with rfl | rfl <;> exact .simple (by simp)
          · simp only [List.pairwise_cons, List.mem_singleton, List.not_mem_nil, false_implies, implies_true, List.Pairwise.nil,
              and_true, forall_eq]
            exact ⟨.kinds (by decide), .kinds (by decide)⟩
        · exact .annotated (.simple (by simp))
        · exact .list .cls
        · exact .simple (by simp)
      present := by
        intro f hf ho v hv
        rcases grove_class hc hf with ⟨_, (rfl | rfl | rfl) | rfl | rfl | rfl⟩
        · cases hv with | literal h1 h2 => rw [List.mem_singleton] at h1; subst h1; rw [h2]; simp [Lit.toVal]
        · cases hv; simp
        · cases ho
        · cases hv with | annotated h => cases h; simp
        · cases hv; simp
        · cases hv; simp
      forward := by
        intro f hf hw
        rcases grove_class hc hf with ⟨h, (rfl | rfl | rfl) | rfl | rfl | rfl⟩ <;> rw [h] at hw <;> cases hw }
  enums := by
    intro ed h
    simp only [groveEnv, List.mem_singleton] at h
    subst h
    simp
  path := rfl
  explicit r e h := (grove_get h).1
  names k e h := by rw [(leaf_get h).2.1]; decide
  unique k e k' e' h h' _ := (leaf_get h).1.trans (leaf_get h').1.symm

theorem grove_catalog : CatalogWf groveCat := by
  intro r e h
  rw [(grove_get h).1, (grove_get h).2]
  constructor
  · intro s hs; cases hs
  · intro xs hx; cases hx

theorem grove_conforms : Conforms vc53 cfg54 groveEnv groveVal (.cls 1) := by
  have lit : ∀ s : Str, HasTy groveEnv (.str s) (.literal [.str s]) := fun s => .literal (l := .str s) (by simp) rfl
  have leaf : Conforms vc53 cfg54 groveEnv (.obj 0 [(c!"kind", .str c!"leaf"), (c!"color", .enum 0 1), (c!"note", .none)]) (.cls 0) := by
    refine .cls rfl (.cls rfl rfl ?_) ?_
    · rintro (_ | _ | _ | i) f w h1 h2 <;> cases h1 <;> cases h2
      · exact lit _
      · exact .enum rfl (by decide)
      · exact .union (t := .none) (by simp) .none
    · rintro (_ | _ | _ | i) f w h1 h2 <;> cases h1 <;> cases h2
      · exact .literal (lit _)
      · exact .enum (.enum rfl (by decide))
      · exact .union (t := .none) (by simp) (.leaf (by simp [scalarTys]) .none trivial)
  have leaves : Conforms vc53 cfg54 groveEnv (.list [.obj 0 [(c!"kind", .str c!"leaf"), (c!"color", .enum 0 1), (c!"note", .none)]])
      (.list (.cls 0)) := by
    refine .list fun v hv => ?_
    rw [List.mem_singleton] at hv
    subst hv
    exact leaf
  have planted : Conforms vc53 cfg54 groveEnv (.date ⟨2024, 2, 29⟩) .date :=
    .leaf (by simp [scalarTys]) (.date (by constructor <;> decide)) (by with_unfolding_all rfl)
  refine .cls rfl (.cls rfl rfl ?_) ?_
  · rintro (_ | _ | _ | i) f w h1 h2 <;> cases h1 <;> cases h2
    · exact .annotated .int
    · exact leaves.hasTy
    · exact planted.hasTy
  · rintro (_ | _ | _ | i) f w h1 h2 <;> cases h1 <;> cases h2
    · refine .annotated (.leaf (by simp [scalarTys]) .int trivial) fun m hm => ?_
      rw [List.mem_singleton] at hm
      subst hm
      exact ⟨fun i hi => by cases hi; decide, fun f hf => by cases hf⟩
    · exact leaves
    · exact planted

/-- The schema of groves. -/
def groveSchema : Sch :=
  [(c!"$schema", js metaSchemaId),
   (c!"definitions", .obj [(c!"Leaf", .obj [(c!"type", js c!"object"),
      (c!"properties", .obj [(c!"kind", .obj [(c!"type", js c!"string"), (c!"const", js c!"leaf")]),
        (c!"color", .obj [(c!"type", js c!"string"), (c!"enum", .arr [js c!"red", js c!"green"])]),
        (c!"note", .obj [(c!"type", js c!"string")])]),
      (c!"additionalProperties", .bool false), (c!"required", .arr [js c!"kind", js c!"color"])])]),
   (c!"type", js c!"object"),
   (c!"properties", .obj [(c!"size", .obj [(c!"type", js c!"integer"), (c!"minimum", .int 0), (c!"maximum", .int 100)]),
      (c!"leaves", .obj [(c!"type", js c!"array"), (c!"items", .obj [(c!"$ref", js c!"#/definitions/Leaf")])]),
      (c!"planted", .obj [(c!"type", js c!"string"), (c!"format", js c!"date")])]),
   (c!"additionalProperties", .bool false), (c!"required", .arr [js c!"size", js c!"leaves", js c!"planted"])]

theorem grove_schema : classdefToSchema cfg54 groveEnv groveCat (.cls 1) = .ok groveSchema := by with_unfolding_all rfl

/-- The hypotheses of `C54_reads_no_unions_partial` are met by groves. -/
example : ∃ root t st w, classdefToSchema cfg54 groveEnv groveCat (.cls 1) = .ok root ∧
    schemaToType cfg53 c!"Grove" (.obj root) ⟨noClasses, [], []⟩ = .ok (t, st) ∧ loads st.env false t groveData = .ok w := by
  have h : ∃ t st, schemaToType cfg53 c!"Grove" (.obj groveSchema) ⟨noClasses, [], []⟩ = .ok (t, st) :=
    ⟨_, _, by with_unfolding_all rfl⟩
  obtain ⟨t, st, h⟩ := h
  have hsm := small_of (j := groveData) (by decide +kernel)
  obtain ⟨w, hw⟩ := C54_reads_no_unions_partial cfg54 cfg53 vc53 (fun _ _ _ _ => rfl) vc53_formats groveEnv groveCat grove_program
    grove_catalog (.cls 1) .cls groveSchema grove_schema c!"Grove"
    (schemaSafe_of (by decide +kernel) (by decide +kernel) (by decide +kernel) (by decide +kernel) (by decide +kernel))
    (tame_of (by decide +kernel)) (tidy_of (by decide +kernel)) ⟨by decide +kernel, by decide +kernel, by decide +kernel⟩ t st h
    groveVal grove_conforms groveData (by with_unfolding_all rfl) hsm.1 (fun hf => hsm.2 _ hf.hasFloat.choose_spec.1)
  exact ⟨groveSchema, t, st, w, grove_schema, h, hw⟩

/-! ### Violations -/

/-- There is a schema for the class, but making a type from it raises an error. -/
def NotMade (env : Env) (cat : SchemaCatalog) (c : Nat) (e : Err) : Prop :=
  ∃ root, classdefToSchema cfg54 env cat (.cls c) = .ok root ∧
    schemaToType cfg53 c!"T" (.obj root) ⟨noClasses, [], []⟩ = .error e

/-- The program `class A: b: B`, `class B: x: int`, `class T: a: A`. -/
def chainEnv : Env :=
  ⟨[], [oneField c!"A" { name := c!"b", ty := .cls 1 }, oneField c!"B" { name := c!"x", ty := .int },
        oneField c!"T" { name := c!"a", ty := .cls 0 }], id⟩

/-- Definitions are made in the order of their names: `A` refers to `B`, which does not exist yet. -/
theorem C54_forward_reference : NotMade chainEnv (catalogOf [(0, c!"A"), (1, c!"B")]) 2 .attribute :=
  ⟨_, by with_unfolding_all rfl, by with_unfolding_all rfl⟩

/-- A registered class that refers to itself: `class N: next: Optional[N]`, `class T: n: N`. -/
theorem C54_self_reference :
    NotMade ⟨[], [oneField c!"N" { name := c!"next", ty := .union [.cls 0, .none] }, oneField c!"T" { name := c!"n", ty := .cls 0 }], id⟩
      (catalogOf [(0, c!"N")]) 1 .attribute :=
  ⟨_, by with_unfolding_all rfl, by with_unfolding_all rfl⟩

/-- The class itself is registered: its document is a reference, which is not the schema of an object. -/
theorem C54_registered :
    NotMade (classEnv (oneField c!"T" { name := c!"x", ty := .int })) (catalogOf [(0, c!"T")]) 0 .jsonKey :=
  ⟨_, by with_unfolding_all rfl, by with_unfolding_all rfl⟩

/-- Schemas of these types have keywords that are not known when a type is made. -/
theorem C54_unknown_keyword : ∀ t ∈ [Ty.bytes, .set .int, .tuple [.int, .str], .dict .str .int, .none],
    NotMade (classEnv (oneField c!"T" { name := c!"x", ty := t })) noneRegistered 0 .jsonKey := by
  intro t ht
  simp only [List.mem_cons, List.not_mem_nil, or_false] at ht
  rcases ht with rfl | rfl | rfl | rfl | rfl <;> exact ⟨_, by with_unfolding_all rfl, by with_unfolding_all rfl⟩

/-- The full statement fails. -/
theorem C54_violated : ¬ C54_statement cfg54 cfg53 := by
  intro h
  obtain ⟨root, h1, h2⟩ := C54_forward_reference
  obtain ⟨t, st, h3, -⟩ := h _ _ _ _ h1 c!"T"
  rw [h2] at h3
  cases h3

end Verif
