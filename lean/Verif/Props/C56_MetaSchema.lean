import Verif.Lemmas.MetaValid
import Verif.Props.C34_Validate
/-!
# C56: generated schemas are valid for the meta-schema

`classdef_to_schema` checks what it has made against the meta-schema of Draft 2020-12 and raises `TypeError` if that fails
(schema.py:582-588).  For programs of the kind described in Spec/Expressible.lean this never happens.  The exceptions are shown
at the end.
-/
namespace Verif

variable {fmt : Str → Str → Bool} {vc : ValidatorCfg} {cfg : SchemaCfg} {env : Env} {cat : SchemaCatalog}

/-- `check_schema` accepts exactly the schemas that are valid for the meta-schema. -/
def ChecksSchemas (fmt : Str → Str → Bool) (cfg : SchemaCfg) : Prop := ∀ s, cfg.metaOk s = true ↔ MetaValid fmt (.obj s)

/-- C56 in full: whatever the generator makes passes the check. -/
def C56_statement : Prop :=
  ∀ fmt cfg env cat t, ChecksSchemas fmt cfg → (∃ p, classdefSchemas cfg env cat false t = .ok p) →
    ∃ root, classdefToSchema cfg env cat t = .ok root

/-- C56: if schemas are made for a type and the types that it refers to, then the document passes the check, and with the
identifier of the meta-schema it is still valid.  Missing: programs for which this is not so, see below. -/
theorem C56_valid_partial (hp : ExpressibleProgram fmt cfg env cat) (hm : AcceptsValid fmt cfg)
    (t : Ty) (ht : t.Expressible fmt cfg env) (s : Sch) (defs : List (Str × Sch))
    (h : classdefSchemas cfg env cat false t = .ok (s, defs)) :
    ∃ root, classdefToSchema cfg env cat t = .ok root ∧ MetaValid fmt (.obj root) ∧
      lookupKey c!"$schema" root = some (.str c!"https://json-schema.org/draft/2020-12/schema") := by
  have hk : KeysOk s := by
    unfold classdefSchemas at h
    split at h
    · cases h
    · rename_i h1
      split at h
      · cases h
      · cases h; exact typeToSchema_rec keys_closed h1
  have hb := classdefSchemas_args hp ht h
  refine ⟨updateSch [(c!"$schema", js metaSchemaId)] (documentBody s defs), ?_, ?_, ?_⟩
  · unfold classdefToSchema
    rw [h]
    dsimp only
    rw [if_pos]
    · rfl
    · exact hm _ hb.valid
  · exact (MetaArgs.update (.cons (metaArg_formatted (f := c!"uri") rfl hp.metaId) .nil) hb).valid
  · have hn : ((if defs.isEmpty then ([] : Sch) else
        [(c!"definitions", .obj (defs.map fun d => (d.1, .obj d.2)))]).map Prod.fst).Nodup ∧ c!"$schema" ∉
        (if defs.isEmpty then ([] : Sch) else [(c!"definitions", .obj (defs.map fun d => (d.1, .obj d.2)))]).map Prod.fst := by
      split <;> simp
    unfold documentBody
    rw [document_lookup _ hn.1, lookupKey_updateSch _ _ _ hk.1, lookupKey_none_iff'.2 hk.2.2]
    dsimp only
    rw [lookupKey_none_iff'.2 hn.2]
    rfl

/-- C56: for programs for which schemas are made, and of the kind described, `classdef_to_schema` returns a valid schema. -/
theorem C56_returns_partial (hs : SchemaProgram env cat) (hcat : MadeByRegistering cat) (hp : ExpressibleProgram fmt cfg env cat)
    (hm : AcceptsValid fmt cfg) (t : Ty) (ht : t.Expressible fmt cfg env) (ht' : Schemable env t) :
    ∃ root, classdefToSchema cfg env cat t = .ok root ∧ MetaValid fmt (.obj root) := by
  obtain ⟨⟨s, defs⟩, h⟩ := C34_generates (cfg := cfg) hs hcat t ht'
  obtain ⟨root, h1, h2, -⟩ := C56_valid_partial hp hm t ht s defs h
  exact ⟨root, h1, h2⟩

/-- With C34: `validate_object(t, object_to_json(v))` returns. -/
theorem C56_validate_object_partial (hc : ProgramChecks cfg env cat) (hs : SchemaProgram env cat) (hcat : MadeByRegistering cat)
    (hp : ExpressibleProgram fmt cfg env cat) (hm : AcceptsValid fmt cfg) (hw : WordsMatch vc)
    (t : Ty) (h1 : Checkable env t) (h2 : Schemable env t) (h3 : t.Expressible fmt cfg env) (v : Val)
    (hv : Conforms vc cfg env v t) (j : Json) (hj : objectToJson env v = .ok j) : ValidateReturns vc cfg env cat t j := by
  obtain ⟨root, h4, -⟩ := C56_returns_partial hs hcat hp hm t h3 h2
  exact ⟨root, h4, C34_validates_partial hc hw t h1 root h4 v hv j hj⟩

/-! ### Disagreements -/

theorem rejected {t : Ty} {s : Sch} {defs : List (Str × Sch)} (hm : ∀ s, cfg.metaOk s = true → MetaValid fmt (.obj s))
    (h : classdefSchemas cfg env cat false t = .ok (s, defs)) (hb : ¬ MetaValid fmt (.obj (documentBody s defs))) :
    classdefToSchema cfg env cat t = .error .typeError := by
  unfold classdefToSchema
  rw [h]
  dsimp only
  rw [if_neg]
  intro h'
  exact hb (hm _ h')

theorem not_valid {kvs : List (Str × Json)} {k : Str} {K : MetaKind} {a : Json} (hk : (k, K) ∈ metaKeywords)
    (ha : lookupKey k kvs = some a) (h : ¬ (K.Shape fmt a ∧ ∀ j, SubSchema K a j → MetaValid fmt j)) : ¬ MetaValid fmt (.obj kvs) := by
  intro hv
  cases hv with | obj h1 h2 => exact h ⟨h1 k K a hk ha, fun j hj => h2 k K a j hk ha hj⟩

/-- No schema is returned for `tuple[()]`: `prefixItems` must not be empty. -/
theorem C56_empty_tuple (hm : ∀ s, cfg.metaOk s = true → MetaValid fmt (.obj s)) :
    classdefToSchema cfg env cat (.tuple []) = .error .typeError := by
  have h : classdefSchemas cfg env cat false (.tuple []) = .ok ([(c!"type", js c!"array"), (c!"minItems", .int 0),
      (c!"maxItems", .int 0), (c!"prefixItems", .arr [])], []) := rfl
  refine rejected hm h (not_valid (k := c!"prefixItems") (K := .schemas) (by decide +kernel) rfl ?_)
  rintro ⟨⟨xs, h1, h2⟩, -⟩
  cases h1
  exact h2 rfl

/-- The full claim is false. -/
theorem C56_violated : ¬ C56_statement := by
  intro h
  classical
  have hm : ChecksSchemas (fun _ _ => true) { pow10 := fun _ => .nan, metaOk := fun s => decide (MetaValid (fun _ _ => true) (.obj s)) } :=
    fun s => by simp
  obtain ⟨root, h1⟩ := h _ _ noClasses noneRegistered (.tuple []) hm ⟨_, rfl⟩
  rw [C56_empty_tuple (fun s => (hm s).1)] at h1
  cases h1

/-- `class Op(Enum): ADD = "+"; SUB = "-"; MUL = "*"; DIV = "/"; MOD = "%"`. -/
def opEnv : Env :=
  ⟨[{ module := c!"m", name := c!"Op", members := [(c!"ADD", .str c!"+"), (c!"SUB", .str c!"-"), (c!"MUL", .str c!"*"),
      (c!"DIV", .str c!"/"), (c!"MOD", .str c!"%")] }], [], id⟩

/-- No schema is returned for `dict[Op, int]`: the values of the members are not escaped, and `^(+|-|*|/|%)$` is no regular
expression. -/
theorem C56_member_values (hm : ∀ s, cfg.metaOk s = true → MetaValid fmt (.obj s))
    (hre : fmt c!"regex" c!"^(+|-|*|/|%)$" = false) :
    classdefToSchema cfg opEnv cat (.dict (.enum 0) .int) = .error .typeError := by
  have h : classdefSchemas cfg opEnv cat false (.dict (.enum 0) .int) = .ok ([(c!"type", js c!"object"),
      (c!"propertyNames", .obj [(c!"pattern", js c!"^(+|-|*|/|%)$")]),
      (c!"additionalProperties", .obj [(c!"type", js c!"integer")])], []) := rfl
  refine rejected hm h (not_valid (k := c!"propertyNames") (K := .schema) (by decide +kernel) rfl ?_)
  rintro ⟨-, h2⟩
  refine not_valid (k := c!"pattern") (K := .formatted c!"regex") (by decide +kernel) rfl ?_ (h2 _ .self)
  rintro ⟨⟨s, h3, h4⟩, -⟩
  cases h3
  rw [hre] at h4
  cases h4

/-- No schema is returned for a number with so many decimal digits that the power of ten is rounded to zero
(`10 ** -324 == 0.0`). -/
theorem C56_precision (hm : ∀ s, cfg.metaOk s = true → MetaValid fmt (.obj s)) (s d : Nat) (hd : 0 < d)
    (hz : cfg.pow10 d = .fin false 0 0) :
    classdefToSchema cfg env cat (.annotated .float [.precision s d]) = .error .typeError := by
  have h : classdefSchemas cfg env cat false (.annotated .float [.precision s d]) =
      .ok (withMeta cfg [(c!"type", js c!"number")] [.precision s d], []) := rfl
  refine rejected hm h (not_valid (k := c!"multipleOf") (K := .positive) (a := .float (.fin false 0 0)) (by decide +kernel) ?_ ?_)
  · have h0 : powTen cfg (-(d : Int)) = .float (.fin false 0 0) := by
      unfold powTen
      rw [if_neg (by omega)]
      have : (-(-(d : Int))).toNat = d := by omega
      rw [this, hz]
    simp [documentBody, withMeta, metaSchema, updateSch, upsert, lookupKey, h0]
  · rintro ⟨⟨-, h2⟩, -⟩
    revert h2
    decide

/-- `class Pair: first: Annotated[int, Alias("id")]; second: Annotated[int, Alias("id")]`. -/
def pairClass : ClassDef :=
  { module := c!"m", name := c!"Pair", kind := .dataclass false, fields :=
      [{ name := c!"first", ty := .annotated .int [.alias c!"id"] }, { name := c!"second", ty := .annotated .int [.alias c!"id"] }] }

/-- No schema is returned for a class in which two required fields have the same alias: the names in `required` must differ. -/
theorem C56_same_alias (hm : ∀ s, cfg.metaOk s = true → MetaValid fmt (.obj s)) :
    classdefToSchema cfg (classEnv pairClass) noneRegistered (.cls 0) = .error .typeError := by
  have h : classdefSchemas cfg (classEnv pairClass) noneRegistered false (.cls 0) = .ok ([(c!"type", js c!"object"),
      (c!"properties", .obj [(c!"id", .obj [(c!"type", js c!"integer")])]), (c!"additionalProperties", .bool false),
      (c!"required", .arr [.str c!"id", .str c!"id"])], []) := rfl
  refine rejected hm h (not_valid (k := c!"required") (K := .strings) (by decide +kernel) rfl ?_)
  rintro ⟨⟨ss, h1, h2⟩, -⟩
  match ss, h1, h2 with
  | [a, b], h1, h2 =>
    simp only [List.map_cons, List.map_nil, Json.arr.injEq, List.cons.injEq, Json.str.injEq, and_true] at h1
    obtain ⟨rfl, rfl⟩ := h1
    simp at h2

/-! ### Examples -/

/-- ```
class Size(Enum): XS = "xs"; S = "s"; M = "m"; L = "l"; XL = "xl"
class Item: code: Annotated[str, Alias("id")]; price: Annotated[float, Precision(8, 2)]; stock: dict[Size, int];
    place: tuple[int, str]; parts: list[Union[str, Item]] = []; size: Optional[Size] = None
``` -/
def shopEnv : Env :=
  ⟨[{ module := c!"m", name := c!"Size", members := [(c!"XS", .str c!"xs"), (c!"S", .str c!"s"), (c!"M", .str c!"m"),
      (c!"L", .str c!"l"), (c!"XL", .str c!"xl")] }],
   [{ module := c!"m", name := c!"Item", kind := .dataclass false, fields :=
      [{ name := c!"code", ty := .annotated .str [.alias c!"id"] },
       { name := c!"price", ty := .annotated .float [.precision 8 2] },
       { name := c!"stock", ty := .dict (.enum 0) .int },
       { name := c!"place", ty := .tuple [.int, .str] },
       { name := c!"parts", ty := .list (.union [.str, .cls 0]), dflt := .factory (.list []) },
       { name := c!"size", ty := .union [.enum 0, .none], dflt := .value .none }] }], id⟩

/-- `Item` is registered. -/
def shopCat : SchemaCatalog := catalogOf [(0, c!"Item")]

private theorem scalar {t : Ty} (h : t ∈ scalarTys) : t.Expressible fmt cfg env := .leaf (Or.inl h)

theorem shop_expressible (h1 : fmt c!"regex" c!"^(xs|s|m|l|xl)$" = true)
    (h2 : ∀ n ∈ [c!"Item", c!"Size", c!"bool", c!"int", c!"float", c!"str", c!"bytes"],
      fmt c!"uri-reference" (cfg.definitionsPath ++ n) = true)
    (h3 : fmt c!"uri" c!"https://json-schema.org/draft/2020-12/schema" = true) (h4 : cfg.pow10 2 = .fin false 5764607523034235 (-59)) :
    ExpressibleProgram fmt cfg shopEnv shopCat where
  types cd hcd f hf := by
    simp only [shopEnv, List.mem_singleton] at hcd
    subst hcd
    simp only [ClassDef.hints, List.mem_cons, List.not_mem_nil, or_false] at hf
    rcases hf with rfl | rfl | rfl | rfl | rfl | rfl
    · exact .annotated (by simp [Meta.Expressible]) (scalar (by simp [scalarTys]))
    · refine .annotated ?_ (scalar (by simp [scalarTys]))
      intro m hm s d hd _
      rw [List.mem_singleton] at hm
      subst hm
      cases hd
      rw [h4]
      decide +kernel
    · refine .dict ?_ (scalar (by simp [scalarTys]))
      intro e ed names he hed hn _
      cases he
      cases hed
      cases hn
      exact h1
    · refine .tuple (by simp) fun t ht => scalar ?_
      simp only [List.mem_cons, List.not_mem_nil, or_false] at ht
      rcases ht with rfl | rfl <;> simp [scalarTys]
    · refine .list (.union (by simp) fun t ht => ?_)
      simp only [List.mem_cons, List.not_mem_nil, or_false] at ht
      rcases ht with rfl | rfl
      · exact scalar (by simp [scalarTys])
      · exact .cls 0
    · exact .enum 0
  names cd hcd := by
    simp only [shopEnv, List.mem_singleton] at hcd
    subst hcd
    decide
  references n hn := by
    refine h2 n ?_
    rcases hn with ⟨cd, hcd, rfl⟩ | ⟨ed, hed, rfl⟩ | hn | ⟨r, e, he, rfl⟩
    · simp only [shopEnv, List.mem_singleton] at hcd; subst hcd; simp
    · simp only [shopEnv, List.mem_singleton] at hed; subst hed; simp
    · simp only [List.mem_cons] at hn ⊢; exact Or.inr (Or.inr hn)
    · have : e.identifier = c!"Item" := by
        cases r with
        | ty k =>
          by_cases hk : RegKey.cls 0 = k
          · subst hk; cases he; rfl
          · simp [shopCat, catalogOf, registerAll, register, Catalog.add, Catalog.get, Catalog.empty, lookupKey, upsert, hk] at he
        | fwd n =>
          by_cases hk : c!"Item" = n
          · subst hk; cases he; rfl
          · simp [shopCat, catalogOf, registerAll, register, Catalog.add, Catalog.get, Catalog.empty, lookupKey, upsert, hk] at he
      simp [this]
  metaId := h3
  catalog r e s he hs := by
    have : e.schema = none := by
      cases r with
      | ty k =>
        by_cases hk : RegKey.cls 0 = k
        · subst hk; cases he; rfl
        · simp [shopCat, catalogOf, registerAll, register, Catalog.add, Catalog.get, Catalog.empty, lookupKey, upsert, hk] at he
      | fwd n =>
        by_cases hk : c!"Item" = n
        · subst hk; cases he; rfl
        · simp [shopCat, catalogOf, registerAll, register, Catalog.add, Catalog.get, Catalog.empty, lookupKey, upsert, hk] at he
    rw [this] at hs
    cases hs

/-- A schema is returned for a list of items, with the definition of the class. -/
example (hm : AcceptsValid fmt cfg) (h1 : fmt c!"regex" c!"^(xs|s|m|l|xl)$" = true)
    (h2 : ∀ n, fmt c!"uri-reference" n = true) (h3 : ∀ n, fmt c!"uri" n = true)
    (h4 : cfg.pow10 2 = .fin false 5764607523034235 (-59)) :
    ∃ root, classdefToSchema cfg shopEnv shopCat (.list (.cls 0)) = .ok root ∧ MetaValid fmt (.obj root) := by
  obtain ⟨p, hp⟩ : ∃ p, classdefSchemas cfg shopEnv shopCat false (.list (.cls 0)) = .ok p := ⟨_, rfl⟩
  obtain ⟨root, h5, h6, -⟩ := C56_valid_partial (shop_expressible h1 (fun _ _ => h2 _) (h3 _) h4) hm (.list (.cls 0))
    (.list (.cls 0)) p.1 p.2 hp
  exact ⟨root, h5, h6⟩

/-- The spec accepts and refuses. -/
example : MetaValid (fun _ _ => true) (.obj [(c!"type", .arr [.str c!"string", .str c!"null"]), (c!"x-note", .null)]) := by
  refine MetaArgs.valid (.cons (metaArg_of (K := .types) rfl (Or.inr ⟨[c!"string", c!"null"], rfl, by simp, by simp, ?_⟩)
    (fun _ h => by cases h)) (.cons (metaArg_none rfl) .nil))
  decide

example : ¬ MetaValid fmt (.obj [(c!"items", .arr [])]) := by
  refine not_valid (k := c!"items") (K := .schema) (by decide +kernel) rfl ?_
  rintro ⟨-, h⟩
  have := h _ .self
  cases this

end Verif
