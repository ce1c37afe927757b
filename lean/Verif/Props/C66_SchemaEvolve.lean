import Verif.Lemmas.Widen
import Verif.Props.C65_Meaning
/-!
# C66: data that was valid stays valid when classes gain optional fields

Two versions of a program are compared by the schemas that are generated for the same type.  In the later one classes may
have more fields of optional types (`Widens`, Verif/Spec/Widen.lean).  Unions are such that no value is of two of the types.
-/
namespace Verif

variable {fmt : Str → Str → Bool} {vc : ValidatorCfg} {cfg : SchemaCfg} {env env' : Env} {cat cat' : SchemaCatalog}

/-- What is of a type in the earlier version is of the type in the later version. -/
theorem admits_later (hw : Widens env env') (hx : AllExclusive vc cfg env env') {t : Ty} (ht : Exclusive vc cfg env' t) {j : Json}
    (hj : j.Wf) (h : Admits vc cfg env t j) : Admits vc cfg env' t j := by
  refine admits_carry (P := fun _ => True) (fun _ _ _ _ => trivial) (fun _ _ _ _ => trivial) hw.enums ?_ _ t ht j
    (Nat.lt_succ_self _) hj trivial h
  intro c cd hc
  obtain ⟨cd', hc', hcw⟩ := hw.classes.get c cd hc
  refine ⟨cd', hc', ⟨?_, ?_, ?_⟩, fun f hf _ => hx cd (List.mem_of_getElem? hc) f hf⟩
  · intro kvs _ h1 hne kv hm
    obtain ⟨f, hf, hn⟩ := h1 (fun h => hne (hcw.empty h)) kv hm
    exact ⟨f, hcw.kept f hf, hn⟩
  · intro kvs _ h1 f hf
    rcases hcw.added f hf with h | ⟨_, h⟩
    · exact .inl h
    · refine .inr fun kv hm hk => ?_
      obtain ⟨g, hg, hn⟩ := h1 (fun h => by rw [hcw.empty h] at hf; cases hf) kv hm
      exact h g hg (hk.symm.trans hn.symm)
  · intro f hf ho
    rcases hcw.added f hf with h | ⟨h, _⟩
    · exact h
    · rw [ho] at h; cases h

/-- No object inside has a property of a new field. -/
def WithoutNew (env env' : Env) (j : Json) : Prop :=
  ∀ kvs, (Json.obj kvs).Within j → ∀ kv ∈ kvs, ∀ (c : Nat) cd cd', env.classes[c]? = some cd → env'.classes[c]? = some cd' →
    ∀ f ∈ cd'.hints, f ∉ cd.hints → kv.1 ≠ jsonName f

/-- What is of a type in the later version and has no new properties is of the type in the earlier version. -/
theorem admits_earlier (hw : Widens env env') (hx : AllExclusive vc cfg env env) {t : Ty} (ht : Exclusive vc cfg env t) {j : Json}
    (hj : j.Wf) (hn : WithoutNew env env' j) (h : Admits vc cfg env' t j) : Admits vc cfg env t j := by
  refine admits_carry (P := WithoutNew env env') (fun xs h x hx kvs hin => h kvs (.arr hx hin))
    (fun _ h kv hkv kvs hin => h kvs (.obj hkv hin)) hw.enums.symm ?_ _ t ht j (Nat.lt_succ_self _) hj hn h
  intro c cd' hc'
  have hlen := hw.classes.length
  obtain ⟨cd, hc⟩ : ∃ cd, env.classes[c]? = some cd :=
    ⟨_, List.getElem?_eq_getElem (by rw [hlen]; exact (List.getElem?_eq_some_iff.1 hc').1)⟩
  obtain ⟨cd'', hc'', hcw⟩ := hw.classes.get c cd hc
  rw [hc'] at hc''
  cases hc''
  refine ⟨cd, hc, ⟨?_, fun _ _ _ f hf => .inl (hcw.kept f hf), fun f hf _ => hcw.kept f hf⟩,
    fun f _ hf => hx cd (List.mem_of_getElem? hc) f hf⟩
  intro kvs hP h1 hne kv hm
  obtain ⟨g, hg⟩ := List.exists_mem_of_ne_nil _ hne
  obtain ⟨f, hf, hfn⟩ := h1 (List.ne_nil_of_mem (hcw.kept g hg)) kv hm
  by_cases hfo : f ∈ cd.hints
  · exact ⟨f, hfo, hfn⟩
  · exact absurd hfn.symm (hP kvs .self kv hm c cd cd' hc hc' f hf hfo)

/-- C66: data that is valid for the schema of the earlier version is valid for the schema of the later version.  Missing:
unions some values of which are of two of the types in the later version, new fields that are not optional, and classes that
had no fields, for which this is not so (see below); and what is missing from C65. -/
theorem C66_stays_valid_partial (hp : SchemaNames cfg env cat) (hp' : SchemaNames cfg env' cat') (hw : Widens env env')
    (hx : AllExclusive vc cfg env env') (t : Ty) (ht : Exclusive vc cfg env' t) (root root' : Sch)
    (hr : classdefToSchema cfg env cat t = .ok root) (hr' : classdefToSchema cfg env' cat' t = .ok root') (j : Json) (hj : j.Wf)
    (h : Validates vc (.obj root) (.obj root) j) : Validates vc (.obj root') (.obj root') j :=
  (C65_meaning_partial hp' t root' hr' j hj).1.2 (admits_later hw hx ht hj ((C65_meaning_partial hp t root hr j hj).1.1 h))

/-- C66: data that is valid for the schema of the later version is valid for the schema of the earlier version if it makes no
use of new properties. -/
theorem C66_was_valid_partial (hp : SchemaNames cfg env cat) (hp' : SchemaNames cfg env' cat') (hw : Widens env env')
    (hx : AllExclusive vc cfg env env) (t : Ty) (ht : Exclusive vc cfg env t) (root root' : Sch)
    (hr : classdefToSchema cfg env cat t = .ok root) (hr' : classdefToSchema cfg env' cat' t = .ok root') (j : Json) (hj : j.Wf)
    (hn : WithoutNew env env' j) (h : Validates vc (.obj root') (.obj root') j) : Validates vc (.obj root) (.obj root) j :=
  (C65_meaning_partial hp t root hr j hj).1.2 (admits_earlier hw hx ht hj hn ((C65_meaning_partial hp' t root' hr' j hj).1.1 h))

/-- Classes exclude each other that have a required field of the same property name with different words as literals. -/
theorem C66_tagged_exclude {c d : Nat} {cd dd : ClassDef} {f g : FieldDef} {a b : Str} (hc : env.classes[c]? = some cd)
    (hd : env.classes[d]? = some dd) (hf : f ∈ cd.hints) (hg : g ∈ dd.hints) (hft : f.ty = .literal [.str a])
    (hgt : g.ty = .literal [.str b]) (hn : jsonName f = jsonName g) (hab : a ≠ b) (j : Json) :
    ¬ (Admits vc cfg env (.cls c) j ∧ Admits vc cfg env (.cls d) j) := by
  rintro ⟨h1, h2⟩
  rw [Admits] at h1 h2
  obtain ⟨kvs, cd1, rfl, hc1, _, h3, h4⟩ := h1
  obtain ⟨kvs', dd1, h5, hd1, _, h6, h7⟩ := h2
  cases h5
  rw [hc] at hc1; cases hc1
  rw [hd] at hd1; cases hd1
  have word : ∀ {f : FieldDef} {a : Str} {x : Json}, f.ty = .literal [.str a] → Admits vc cfg env f.ty.required x → x = .str a := by
    intro f a x hf h
    rw [hf] at h
    have h : Admits vc cfg env (.literal [.str a]) x := h
    rw [Admits] at h
    obtain ⟨l, hl, s, hs, hx⟩ := h
    rw [List.mem_singleton] at hl
    subst hl
    cases hs
    cases x <;> simp [Json.same, Scalar.toJson] at hx
    rw [hx]
  obtain ⟨kv, hm, hk⟩ := h4 f hf (by rw [hft]; rfl)
  have e1 := word hft (h3 f hf kv hm hk)
  have e2 := word hgt (h6 g hg kv hm (hk.trans hn))
  rw [e1] at e2
  cases e2
  exact hab rfl

/-! ### The hypotheses can be met: the program of C34, with a leaf that has gained a weight, and a node a label -/

/-- The later version. -/
def forestEnv3 : Env :=
  ⟨[{ module := c!"m", name := c!"Color", members := [(c!"RED", .str c!"red"), (c!"GREEN", .str c!"green")] }],
   [{ module := c!"m", name := c!"Leaf", kind := .dataclass false, fields :=
      [{ name := c!"kind", ty := .literal [.str c!"leaf"] }, { name := c!"color", ty := .enum 0 },
       { name := c!"note", ty := .union [.str, .none] }, { name := c!"weight", ty := .union [.float, .none] }] },
    { module := c!"m", name := c!"Node", kind := .plain, fields :=
      [{ name := c!"kind", ty := .literal [.str c!"node"] },
       { name := c!"label", ty := .union [.annotated .str [.maxLength 10], .none] },
       { name := c!"size", ty := .annotated .int [.intRange 0 100] },
       { name := c!"children", ty := .list (.union [.cls 1, .cls 0]) }] }], id⟩

private theorem forest3_get {k : RegKey} {e : CatEntry Sch (List Json)} (h : lookupKey k forestCat.byType = some e) :
    k = .cls 1 ∧ e.identifier = c!"Node" ∧ e.schema = none := by
  by_cases hk : RegKey.cls 1 = k
  · subst hk; cases h; exact ⟨rfl, rfl, rfl⟩
  · simp [forestCat, catalogOf, registerAll, register, Catalog.add, Catalog.empty, lookupKey, upsert, hk] at h

theorem forest_names3 (hpath : cfg.definitionsPath = c!"#/definitions/") : SchemaNames cfg forestEnv3 forestCat where
  classes cd hc := by
    simp only [forestEnv3, List.mem_cons, List.not_mem_nil, or_false] at hc
    rcases hc with rfl | rfl <;> refine ⟨?_, by decide, ?_⟩ <;> intro f hf <;>
      simp only [ClassDef.hints, List.mem_cons, List.not_mem_nil, or_false] at hf <;>
      rcases hf with rfl | rfl | rfl | rfl <;> first | rfl | (intro h; cases h)
  path := hpath
  explicit := (forest_program hpath).explicit
  names := (forest_program hpath).names
  unique := (forest_program hpath).unique

theorem forest_widens : Widens forestEnv forestEnv3 where
  enums := rfl
  classes := by
    refine .cons ⟨?_, ?_, ?_⟩ (.cons ⟨?_, ?_, ?_⟩ .nil)
    · intro f hf
      simp only [ClassDef.hints, List.mem_cons, List.not_mem_nil, or_false] at hf ⊢
      rcases hf with rfl | rfl | rfl <;> simp
    · intro f hf
      simp only [ClassDef.hints, List.mem_cons, List.not_mem_nil, or_false] at hf ⊢
      rcases hf with rfl | rfl | rfl | rfl
      · simp
      · simp
      · simp
      · exact .inr ⟨rfl, by rintro g (rfl | rfl | rfl) <;> decide⟩
    · simp [ClassDef.hints]
    · intro f hf
      simp only [ClassDef.hints, List.mem_cons, List.not_mem_nil, or_false] at hf ⊢
      rcases hf with rfl | rfl | rfl <;> simp
    · intro f hf
      simp only [ClassDef.hints, List.mem_cons, List.not_mem_nil, or_false] at hf ⊢
      rcases hf with rfl | rfl | rfl | rfl
      · simp
      · exact .inr ⟨rfl, by rintro g (rfl | rfl | rfl) <;> decide⟩
      · simp
      · simp
    · simp [ClassDef.hints]

/-- The classes are told apart by their tag, in both versions. -/
theorem forest_exclusive (E : Env) (hE : E = forestEnv ∨ E = forestEnv3) : AllExclusive vc cfg forestEnv E := by
  have h10 : ∀ j, ¬ (Admits vc cfg E (.cls 1) j ∧ Admits vc cfg E (.cls 0) j) := by
    rcases hE with rfl | rfl <;>
    exact C66_tagged_exclude (f := { name := c!"kind", ty := .literal [.str c!"node"] })
      (g := { name := c!"kind", ty := .literal [.str c!"leaf"] }) rfl rfl (by simp [ClassDef.hints]) (by simp [ClassDef.hints])
      rfl rfl rfl (by decide)
  intro cd hc f hf
  simp only [forestEnv, List.mem_cons, List.not_mem_nil, or_false] at hc
  rcases hc with rfl | rfl <;> simp only [ClassDef.hints, List.mem_cons, List.not_mem_nil, or_false] at hf <;>
    rcases hf with rfl | rfl | rfl
  · exact .literal
  · exact .enum
  · exact .leaf (t := .str) (by simp)
  · exact .literal
  · exact .annotated (.leaf (by simp))
  · refine .list (.union ?_ ?_)
    · intro t ht
      simp only [List.mem_cons, List.not_mem_nil, or_false] at ht
      rcases ht with rfl | rfl <;> exact .cls
    · rintro (_ | _ | i) (_ | _ | k) t u hik ht hu j _
      all_goals first
        | exact absurd rfl hik
        | (cases ht; cases hu; exact h10 j)
        | (cases ht; cases hu; exact fun h => h10 j h.symm)
        | (simp at ht; done)
        | (simp at hu)

/-- A node with a leaf is valid for the schema of the later version. -/
example (hpath : cfg.definitionsPath = c!"#/definitions/") (hm : AcceptsValid fmt cfg)
    (href : fmt c!"uri-reference" c!"#/definitions/Node" = true) (hw : WordsMatch vc) (root' : Sch)
    (hr' : classdefToSchema cfg forestEnv3 forestCat (.cls 1) = .ok root') : Validates vc (.obj root') (.obj root') forestData := by
  obtain ⟨root, hr, hv⟩ := forest_validates hpath hw hm href
  exact C66_stays_valid_partial (forest_program hpath).schemaNames (forest_names3 hpath) forest_widens
    (forest_exclusive _ (.inr rfl)) (.cls 1) .cls root root' hr hr' forestData forest_data.1 hv

private theorem forest_without : WithoutNew forestEnv forestEnv3 forestData := by
  have hkeys : ∀ kvs, (Json.obj kvs).Within forestData → ∀ kv ∈ kvs, kv.1 ≠ c!"weight" ∧ kv.1 ≠ c!"label" := by
    intro kvs h
    cases h with
    | self =>
      simp only [List.mem_cons, List.not_mem_nil, or_false]
      rintro kv (rfl | rfl | rfl) <;> decide
    | obj hm h =>
      simp only [List.mem_cons, List.not_mem_nil, or_false] at hm
      rcases hm with rfl | rfl | rfl
      · cases h
      · cases h
      · cases h with
        | arr hm h =>
          rw [List.mem_singleton] at hm; subst hm
          cases h with
          | self =>
            simp only [List.mem_cons, List.not_mem_nil, or_false]
            rintro kv (rfl | rfl) <;> decide
          | obj hm h =>
            simp only [List.mem_cons, List.not_mem_nil, or_false] at hm
            rcases hm with rfl | rfl <;> cases h
  rintro kvs h kv hkv (_ | _ | c) cd cd' hc hc' f hf hno
  · cases hc; cases hc'
    simp only [ClassDef.hints, List.mem_cons, List.not_mem_nil, or_false] at hf hno
    rcases hf with rfl | rfl | rfl | rfl
    · simp at hno
    · simp at hno
    · simp at hno
    · exact (hkeys kvs h kv hkv).1
  · cases hc; cases hc'
    simp only [ClassDef.hints, List.mem_cons, List.not_mem_nil, or_false] at hf hno
    rcases hf with rfl | rfl | rfl | rfl
    · simp at hno
    · exact (hkeys kvs h kv hkv).2
    · simp at hno
    · simp at hno
  · cases hc

example (hpath : cfg.definitionsPath = c!"#/definitions/") (root root' : Sch)
    (hr : classdefToSchema cfg forestEnv forestCat (.cls 1) = .ok root)
    (hr' : classdefToSchema cfg forestEnv3 forestCat (.cls 1) = .ok root') (hv : Validates vc (.obj root') (.obj root') forestData) :
    Validates vc (.obj root) (.obj root) forestData :=
  C66_was_valid_partial (forest_program hpath).schemaNames (forest_names3 hpath) forest_widens (forest_exclusive _ (.inl rfl)) (.cls 1)
    .cls root root' hr hr' forestData forest_data.1 forest_without hv

/-! ### Disagreements -/

/-- A program with one class with field `x: int`, and perhaps others. -/
def pointEnv (more : List FieldDef) : Env := classEnv
  { module := c!"m", name := c!"P", kind := .dataclass false, fields := { name := c!"x", ty := .int } :: more }

/-- A new field with a default value but whose type is not optional is required by the schema: data that was valid, and that
the later version reads, is no longer valid. -/
theorem C66_default_fails (vc : ValidatorCfg) (cfg : SchemaCfg) (hm : AcceptsValid fmt cfg) :
    let later := pointEnv [{ name := c!"y", ty := .int, dflt := .value (.int 0) }]
    ValidateReturns vc cfg (pointEnv []) noneRegistered (.cls 0) (.obj [(c!"x", .int 1)]) ∧
    loads later false (.cls 0) (.obj [(c!"x", .int 1)]) = .ok (.obj 0 [(c!"x", .int 1), (c!"y", .int 0)]) ∧
    ValidateRefuses vc cfg later noneRegistered (.cls 0) (.obj [(c!"x", .int 1)]) :=
  ⟨⟨_, document_checked [] (by simp) hm rfl rfl, 5, rfl⟩, rfl, ⟨_, document_checked [] (by simp) hm rfl rfl, 5, rfl⟩⟩

/-- Data with a new property is not valid for the earlier version. -/
theorem C66_new_property_fails (vc : ValidatorCfg) (cfg : SchemaCfg) (hm : AcceptsValid fmt cfg) :
    let later := pointEnv [{ name := c!"y", ty := .union [.int, .none] }]
    ValidateReturns vc cfg later noneRegistered (.cls 0) (.obj [(c!"x", .int 1), (c!"y", .int 2)]) ∧
    ValidateRefuses vc cfg (pointEnv []) noneRegistered (.cls 0) (.obj [(c!"x", .int 1), (c!"y", .int 2)]) :=
  ⟨⟨_, document_checked [] (by simp) hm rfl rfl, 5, rfl⟩, ⟨_, document_checked [] (by simp) hm rfl rfl, 5, rfl⟩⟩

/-- Two classes, the second with fields `x` and `y`. -/
def twoEnv (more : List FieldDef) : Env :=
  ⟨[], [{ module := c!"m", name := c!"P", kind := .dataclass false, fields := { name := c!"x", ty := .int } :: more },
    { module := c!"m", name := c!"Q", kind := .dataclass false, fields := [{ name := c!"x", ty := .int }, { name := c!"y", ty := .int }] }],
    id⟩

/-- Data that was valid for a union of classes is not valid when one of them has gained an optional field by which it is of
both types. -/
theorem C66_union_fails (vc : ValidatorCfg) (cfg : SchemaCfg) (hm : AcceptsValid fmt cfg) :
    let later := twoEnv [{ name := c!"y", ty := .union [.int, .none] }]
    ValidateReturns vc cfg (twoEnv []) noneRegistered (.union [.cls 0, .cls 1]) (.obj [(c!"x", .int 1), (c!"y", .int 2)]) ∧
    ValidateRefuses vc cfg later noneRegistered (.union [.cls 0, .cls 1]) (.obj [(c!"x", .int 1), (c!"y", .int 2)]) :=
  ⟨⟨_, document_checked [] (by simp) hm rfl rfl, 6, rfl⟩, ⟨_, document_checked [] (by simp) hm rfl rfl, 6, rfl⟩⟩

/-- The schema of a class without fields is that of any object, but no longer so when it has gained an optional field. -/
theorem C66_no_fields_fails (vc : ValidatorCfg) (cfg : SchemaCfg) (hm : AcceptsValid fmt cfg) :
    let class_ (fs : List FieldDef) : Env := classEnv { module := c!"m", name := c!"P", kind := .dataclass false, fields := fs }
    ValidateReturns vc cfg (class_ []) noneRegistered (.cls 0) (.obj [(c!"z", .int 1)]) ∧
    ValidateRefuses vc cfg (class_ [{ name := c!"y", ty := .union [.int, .none] }]) noneRegistered (.cls 0) (.obj [(c!"z", .int 1)]) :=
  ⟨⟨_, document_checked [] (by simp) hm rfl rfl, 5, rfl⟩, ⟨_, document_checked [] (by simp) hm rfl rfl, 5, rfl⟩⟩

end Verif
