import Verif.Lemmas.Admits
import Verif.Props.C62_ValidRead
/-!
# C65: what a generated schema accepts is determined by the type

The values that are valid for the schema of a type are those of `Admits`, which is a definition by recursion on types that
knows nothing of schemas and references (Spec/Admits.lean).  In particular it does not matter which types are registered.
-/
namespace Verif

variable {fmt : Str → Str → Bool} {vc : ValidatorCfg} {cfg : SchemaCfg} {env : Env} {cat cat' : SchemaCatalog}

/-- C65: the schema of a type accepts the JSON values of the type and rejects all others.  Missing: programs with string
annotations, with schemas given by the user, or with two registered types of the same name, for which this is not so (see
below and C35), and other settings of `definitions_path`. -/
theorem C65_meaning_partial (hp : SchemaNames cfg env cat) (t : Ty) (root : Sch) (hr : classdefToSchema cfg env cat t = .ok root)
    (j : Json) (hw : j.Wf) :
    (Validates vc (.obj root) (.obj root) j ↔ Admits vc cfg env t j) ∧ (Rejects vc (.obj root) (.obj root) j ↔ ¬ Admits vc cfg env t j) := by
  obtain ⟨names, s, us, h1, h2, h3, h4⟩ := document_good hp hr
  have hs : TySch cfg env cat names false false t s := ⟨_, us, h1, h2⟩
  have key := ty_meaning (vc := vc) hp h4 _ t j (Nat.lt_succ_self _) hw false false s hs (fun h => by cases h)
  have hv : Validates vc (.obj root) (.obj root) j ↔ Admits vc cfg env t j := h3.validates_iff.trans key
  refine ⟨hv, fun h ha => (hv.2 ha).not_rejects h, fun h => ?_⟩
  exact (schema_decided hp hr j).not_validates (fun h' => h (hv.1 h'))

/-- C65: which types are registered has no bearing on what is valid. -/
theorem C65_catalog_partial (hp : SchemaNames cfg env cat) (hp' : SchemaNames cfg env cat') (t : Ty) (root root' : Sch)
    (hr : classdefToSchema cfg env cat t = .ok root) (hr' : classdefToSchema cfg env cat' t = .ok root') (j : Json) (hw : j.Wf) :
    Validates vc (.obj root) (.obj root) j ↔ Validates vc (.obj root') (.obj root') j :=
  (C65_meaning_partial hp t root hr j hw).1.trans (C65_meaning_partial hp' t root' hr' j hw).1.symm

/-! ### The hypotheses can be met -/

/-- `Leaf` is registered too. -/
def forestCat2 : SchemaCatalog := catalogOf [(1, c!"Node"), (0, c!"Leaf")]

private theorem forest2_get {k : RegKey} {e : CatEntry Sch (List Json)} (h : lookupKey k forestCat2.byType = some e) :
    ((k = .cls 1 ∧ e.identifier = c!"Node") ∨ (k = .cls 0 ∧ e.identifier = c!"Leaf")) ∧ e.schema = none := by
  by_cases h1 : RegKey.cls 1 = k
  · subst h1; cases h; exact ⟨Or.inl ⟨rfl, rfl⟩, rfl⟩
  · by_cases h2 : RegKey.cls 0 = k
    · subst h2; cases h; exact ⟨Or.inr ⟨rfl, rfl⟩, rfl⟩
    · simp [forestCat2, catalogOf, registerAll, register, Catalog.add, Catalog.empty, lookupKey, upsert, h1, h2] at h

theorem forest_names2 (hpath : cfg.definitionsPath = c!"#/definitions/") : SchemaNames cfg forestEnv forestCat2 where
  classes cd hc :=
    { strings := ((forest_program hpath).classes cd hc).strings
      distinct := ((forest_program hpath).classes cd hc).distinct
      forward := by
        intro f hf hw
        simp only [forestEnv, List.mem_cons, List.not_mem_nil, or_false] at hc
        rcases hc with rfl | rfl <;> simp only [ClassDef.hints, List.mem_cons, List.not_mem_nil, or_false] at hf <;>
          rcases hf with rfl | rfl | rfl <;> cases hw }
  path := hpath
  explicit r e h := by
    cases r with
    | ty k =>
      cases hk : lookupKey k forestCat2.byType with
      | none => simp [Catalog.get, hk] at h
      | some e' => simp only [Catalog.get, hk] at h; cases h; exact (forest2_get hk).2
    | fwd n =>
      by_cases h1 : c!"Node" = n
      · subst h1; cases h; rfl
      · by_cases h2 : c!"Leaf" = n
        · subst h2; cases h; rfl
        · simp [forestCat2, catalogOf, registerAll, register, Catalog.add, Catalog.get, Catalog.empty, lookupKey, upsert, h1, h2] at h
  names k e h := by rcases (forest2_get h).1 with ⟨_, h⟩ | ⟨_, h⟩ <;> rw [h] <;> decide
  unique k e k' e' h h' he := by
    rcases (forest2_get h).1 with ⟨h1, h2⟩ | ⟨h1, h2⟩ <;> rcases (forest2_get h').1 with ⟨h3, h4⟩ | ⟨h3, h4⟩ <;>
      first | exact h1.trans h3.symm | (rw [h2, h4] at he; cases he)

/-- Both catalogs have a document, hence `forestData` is valid for both, and a node of size 101 for none. -/
example (hpath : cfg.definitionsPath = c!"#/definitions/") (hm : AcceptsValid fmt cfg)
    (href : fmt c!"uri-reference" c!"#/definitions/Node" = true) (hleaf : fmt c!"uri-reference" c!"#/definitions/Leaf" = true) (hw : WordsMatch vc) :
    ValidateReturns vc cfg forestEnv forestCat2 (.cls 1) forestData := by
  obtain ⟨root, hr, hv⟩ := forest_validates hpath hw hm href
  obtain ⟨root', hr'⟩ : ∃ root, classdefToSchema cfg forestEnv forestCat2 (.cls 1) = .ok root := by
    obtain ⟨path, ex, pow, mok⟩ := cfg
    cases hpath
    exact ⟨_, document_checked [(c!"uri-reference", c!"#/definitions/Node"), (c!"uri-reference", c!"#/definitions/Leaf")]
      (by simp [href, hleaf]) hm rfl rfl⟩
  exact ⟨root', hr', (C65_catalog_partial (forest_program hpath).schemaNames (forest_names2 hpath) _ root root' hr hr' forestData
    forest_data.1).1 hv⟩

example (hpath : cfg.definitionsPath = c!"#/definitions/") (hm : AcceptsValid fmt cfg)
    (href : fmt c!"uri-reference" c!"#/definitions/Node" = true) :
    ValidateRefuses vc cfg forestEnv forestCat (.cls 1)
      (.obj [(c!"kind", .str c!"node"), (c!"size", .int 101), (c!"children", .arr [])]) := by
  obtain ⟨root, hr⟩ : ∃ root, classdefToSchema cfg forestEnv forestCat (.cls 1) = .ok root := by
    obtain ⟨path, ex, pow, mok⟩ := cfg
    cases hpath
    exact ⟨_, document_checked [(c!"uri-reference", c!"#/definitions/Node")] (by simpa using href) hm rfl rfl⟩
  refine ⟨root, hr, (C65_meaning_partial (forest_program hpath).schemaNames _ root hr _ ?_).2.2 ?_⟩
  · refine .obj (by decide) ?_
    simp only [List.mem_cons, List.not_mem_nil, or_false]
    rintro kv (rfl | rfl | rfl)
    · exact .str
    · exact .int
    · exact .arr (by simp)
  · rw [Admits]
    rintro ⟨kvs, cd, h1, h2, _, h3, _⟩
    cases h1
    cases h2
    have := h3 { name := c!"size", ty := .annotated .int [.intRange 0 100] } (by simp [ClassDef.hints]) (c!"size", .int 101)
      (by simp) rfl
    have h4 : (FieldDef.ty { name := c!"size", ty := .annotated .int [.intRange 0 100] }).required = .annotated .int [.intRange 0 100] := rfl
    rw [h4, Admits] at this
    exact absurd ((this.2 (by simp [Ty.IsPlain]) rfl).range 0 100 rfl trivial).2 (by decide)

/-! ### Disagreements -/

/-- Two classes of different modules by the same name, and a class with a field of each. -/
def pairEnv : Env :=
  ⟨[], [{ module := c!"m", name := c!"X", kind := .dataclass false, fields := [{ name := c!"a", ty := .int }] },
    { module := c!"n", name := c!"X", kind := .dataclass false, fields := [{ name := c!"b", ty := .str }] },
    { module := c!"m", name := c!"Pair", kind := .dataclass false, fields :=
      [{ name := c!"x", ty := .cls 0 }, { name := c!"y", ty := .cls 1 }] }], id⟩

/-- `Pair(x=X(a=1), y=X(b="s"))`. -/
def pairData : Json := .obj [(c!"x", .obj [(c!"a", .int 1)]), (c!"y", .obj [(c!"b", .str c!"s")])]

/-- C65 does not hold if two registered types have the same name: there is one definition for both, and the data of the pair,
which is valid as long as the types are not registered, is refused. -/
theorem C65_same_name_fails (vc : ValidatorCfg) (cfg : SchemaCfg) (hpath : cfg.definitionsPath = c!"#/definitions/")
    (hm : AcceptsValid fmt cfg) (href : fmt c!"uri-reference" c!"#/definitions/X" = true) :
    ValidateReturns vc cfg pairEnv noneRegistered (.cls 2) pairData ∧
    ValidateRefuses vc cfg pairEnv (catalogOf [(0, c!"X"), (1, c!"X")]) (.cls 2) pairData := by
  obtain ⟨path, ex, pow, ok⟩ := cfg
  cases hpath
  exact ⟨⟨_, document_checked [] (by simp) hm rfl rfl, 5, rfl⟩,
    ⟨_, document_checked [(c!"uri-reference", c!"#/definitions/X")] (by simpa using href) hm rfl rfl, 6, rfl⟩⟩

end Verif
