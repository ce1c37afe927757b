import Verif.Lemmas.ModuleLeft
import Verif.Props.C53_SchemaTypes
/-!
# C88: what a call of `schema_to_type` that fails leaves behind
-/
namespace Verif

/-- The model that keeps track of what is left behind gives the same results as the one that does not: the same type with the same
program and module, or the same error. -/
theorem C88_results (cfg : BuildCfg) (name : Str) (schema : Json) (st : BuildSt) :
    (∀ t st', schemaToType cfg name schema st = .ok (t, st') ↔ schemaLeft cfg name schema st = (.ok t, st')) ∧
      ∀ e, schemaToType cfg name schema st = .error e ↔ ∃ st', schemaLeft cfg name schema st = (.error e, st') := by
  rw [schema_left]
  match schemaLeft cfg name schema st with
  | (.error e, a) =>
    refine ⟨fun t st' => ⟨fun h => (nomatch h), fun h => (nomatch h)⟩, fun e' => ⟨fun h => ?_, fun ⟨st', h⟩ => ?_⟩⟩
    · cases h; exact ⟨a, rfl⟩
    · cases h; rfl
  | (.ok x, a) =>
    refine ⟨fun t st' => ⟨fun h => ?_, fun h => ?_⟩, fun e' => ⟨fun h => (nomatch h), fun ⟨st', h⟩ => (nomatch h)⟩⟩
    · cases h; rfl
    · cases h; rfl

/-- C88 in part: after a call that fails, classes and enumerations that existed are as they were, and so are the attributes of the
module with names that are not for types of the document.  What is left behind is of the module, and has a name for a type of the
document.  Missing: that nothing at all is left behind, which is violated (see below), and the cases excluded in C86. -/
theorem C88_kept_partial (cfg : BuildCfg) (name : Str) (schema : Json) (hw : schema.Wf) (hl : NoLibraryFormats schema)
    (st st' : BuildSt) (ho : OwnTypes cfg.modName st.env st.attrs) (e : Err) (h : schemaLeft cfg name schema st = (.error e, st')) :
    (st.env.classes <+: st'.env.classes ∧ st.env.enums <+: st'.env.enums ∧ st'.patched = st.patched) ∧
      (∀ n, ¬ NameFor name schema n → lookupKey n st'.attrs = lookupKey n st.attrs) ∧
      (∀ c cd, st.env.classes.length ≤ c → st'.env.classes[c]? = some cd → cd.module = cfg.modName ∧ NameFor name schema cd.name) ∧
      ∀ i ed, st.env.enums.length ≤ i → st'.env.enums[i]? = some ed → ed.module = cfg.modName ∧ NameFor name schema ed.name := by
  obtain ⟨hb, -, hp⟩ := schema_leaves hw hl ho h
  obtain ⟨cs, h1, h2⟩ := hb.classes
  obtain ⟨es, h3, h4⟩ := hb.enums
  have hc : ∀ c cd, st.env.classes.length ≤ c → st'.env.classes[c]? = some cd → cd.module = cfg.modName ∧ NameFor name schema cd.name := by
    intro c cd hc hcd
    rw [h1, List.getElem?_append_right hc] at hcd
    exact h2 cd (List.mem_of_getElem? hcd)
  have he : ∀ i ed, st.env.enums.length ≤ i → st'.env.enums[i]? = some ed → ed.module = cfg.modName ∧ NameFor name schema ed.name := by
    intro c cd hc hcd
    rw [h3, List.getElem?_append_right hc] at hcd
    exact h4 cd (List.mem_of_getElem? hcd)
  refine ⟨⟨⟨cs, h1.symm⟩, ⟨es, h3.symm⟩, hp⟩, fun n hn => ?_, hc, he⟩
  rcases hb.attrs n (by rintro ⟨x, hx, rfl⟩; exact hn (.inr ⟨x, hx, .inl rfl⟩)) with g | ⟨T, -, g⟩
  · exact g
  · cases g with
    | cls g1 g2 g3 g4 => exact absurd (g3 ▸ (hc _ _ g1 g2).2) hn
    | enum g1 g2 g3 g4 => exact absurd (g3 ▸ (he _ _ g1 g2).2) hn

/-- C88 in part: nothing is left behind by a document without definitions, and without objects and enumerations among the properties.
Missing: other documents, for which the statement is violated (see below). -/
theorem C88_flat_partial (cfg : BuildCfg) (name : Str) (schema : Json) (hw : schema.Wf) (hf : FlatDocument schema) (st st' : BuildSt)
    (e : Err) (h : schemaLeft cfg name schema st = (.error e, st')) : st' = st := flat_still hw hf h

/-- C88 in part: nothing is left behind if the document has keywords other than those of documents, or lacks one.  Missing: as in
`C88_flat_partial`. -/
theorem C88_words_partial (cfg : BuildCfg) (name : Str) (kvs : List (Str × Json)) (hv : ¬ documentVocabulary.Has kvs) (st st' : BuildSt)
    (r : Res Ty) (h : schemaLeft cfg name (.obj kvs) st = (r, st')) : st' = st := by
  unfold schemaLeft at h
  split at h
  · cases h; rfl
  rename_i top htop
  obtain ⟨_, vs, he, hr, hwords, -, -⟩ := top_inv htop
  cases he
  refine absurd ⟨hr.typeAttr _ (by intro cd hcd; cases hcd; exact ⟨rfl, rfl⟩), ?_, ?_⟩ hv
  · intro k hk
    rw [List.mem_singleton.1 hk]
    obtain ⟨w, x, _, hx, _⟩ := hr.req { name := c!"schema", ty := .annotated .str [.alias c!"$schema"] } c!"$schema" (by
      intro cd hcd; cases hcd; exact ⟨rfl, by decide, rfl, rfl, rfl⟩)
    rw [Absent, hx]
    simp
  · exact fun kv hkv => (by decide : ∀ k ∈ [c!"title", c!"description", c!"type", c!"properties", c!"$schema", c!"definitions"] ++ objKeywords.map (·.1), k ∈ documentVocabulary.words) _ (hwords kv hkv)

/-- Definitions are made one after the other up to the first that fails: what is left behind, and the error, do not depend on the
definitions after it, on the class itself, or on its name. -/
theorem C88_first_failure (cfg : BuildCfg) (schema : Json) (top : TopNode) (ht : readTop schema = .ok top)
    (pre post : List (Str × TNode)) (hd : top.definitions.getD [] = pre ++ post) (st st' : BuildSt) (e : Err)
    (h : definitionsLeft cfg pre st = (.error e, st')) (name : Str) : schemaLeft cfg name schema st = (.error e, st') := by
  have key : ∀ (pre : List (Str × TNode)) (st : BuildSt), definitionsLeft cfg pre st = (.error e, st') →
      definitionsLeft cfg (pre ++ post) st = (.error e, st') := by
    intro pre
    induction pre with
    | nil => intro st h; simp [definitionsLeft] at h
    | cons x pre ih =>
      intro st h
      simp only [definitionsLeft, List.cons_append] at h ⊢
      split at h
      · exact h
      · split at h
        · rename_i h'; rw [if_pos h']; exact h
        · rename_i h'
          rw [if_neg h']
          split at h
          · exact h
          · exact ih _ h
  unfold schemaLeft
  rw [ht]
  simp only [hd, key pre st h]

/-! ### The full statement -/

/-- A call that fails leaves nothing behind. -/
def C88_statement (cfg : BuildCfg) : Prop :=
  ∀ name schema st st' e, schema.Wf → schemaLeft cfg name schema st = (.error e, st') → st' = st

/-- A program in which the module has a class `A` from before. -/
def olderSt : BuildSt where
  env := { enums := [], classes := [{ module := c!"m", name := c!"A", kind := .dataclass false, fields := [{ name := c!"y", ty := .str }] }],
           setOrder := id }
  attrs := [(c!"A", .cls 0)]

/-- A definition, and a reference to another one that does not exist. -/
def danglingSchema : Json :=
  topSchema [(c!"d", refTo c!"D")] [c!"d"] [(c!"A", .obj (objSchema [(c!"x", typed c!"integer")] [c!"x"]))]

/-- A class of the module is replaced by that of a definition although the call fails. -/
theorem C88_replaced_fails : danglingSchema.Wf ∧ ∃ st, schemaLeft cfg53 c!"T" danglingSchema olderSt = (.error .attribute, st) ∧
    lookupKey c!"A" olderSt.attrs = some (.cls 0) ∧ lookupKey c!"A" st.attrs = some (.cls 1) ∧
    (st.env.classes[1]?).map (·.fields.map (·.name)) = some [c!"x"] ∧ lookupKey c!"T" st.attrs = Option.none :=
  ⟨wf_of (by decide +kernel), _, by with_unfolding_all rfl, rfl, rfl, rfl, rfl⟩

/-- A class for a property is left behind if a property that follows cannot be made. -/
theorem C88_property_fails : ∃ schema st, schema.Wf ∧ schemaDefs schema = [] ∧
    schemaLeft cfg53 c!"T" schema ⟨⟨[], [], id⟩, [], []⟩ = (.error .attribute, st) ∧ lookupKey c!"T__p" st.attrs = some (.cls 0) :=
  ⟨topSchema [(c!"p", .obj (objSchema [(c!"x", typed c!"integer")] [c!"x"])), (c!"d", refTo c!"D")] [] [], _,
    wf_of (by decide +kernel), rfl, by with_unfolding_all rfl, rfl⟩

/-- An enumeration is left behind if the default is not one of its members. -/
theorem C88_default_fails : ∃ schema st, schema.Wf ∧ schemaDefs schema = [] ∧
    schemaLeft cfg53 c!"T" schema ⟨⟨[], [], id⟩, [], []⟩ = (.error .valueError, st) ∧ lookupKey c!"T__p" st.attrs = some (.enum 0) :=
  ⟨topSchema [(c!"p", .obj [(c!"type", .str c!"string"), (c!"enum", .arr [.str c!"a", .str c!"b"]), (c!"default", .str c!"c")])] [] [], _,
    wf_of (by decide +kernel), rfl, by with_unfolding_all rfl, rfl⟩

/-- The full statement fails. -/
theorem C88_violated : ¬ C88_statement cfg53 := by
  intro h
  obtain ⟨hw, st, h1, h2, h3, -⟩ := C88_replaced_fails
  have := h _ _ _ _ _ hw h1
  rw [this, h2] at h3
  cases h3

/-! ### Concrete cases -/

/-- The second of three definitions refers to nothing: the first is made, the third is not. -/
example : ∃ st, (∀ name, schemaLeft cfg53 name (topSchema [] [] [(c!"A", .obj (objSchema [(c!"x", typed c!"integer")] [c!"x"])),
      (c!"B", refTo c!"D"), (c!"C", .obj (objSchema [(c!"x", typed c!"integer")] [c!"x"]))]) olderSt = (.error .attribute, st)) ∧
    lookupKey c!"A" st.attrs = some (.cls 1) ∧ lookupKey c!"C" st.attrs = Option.none ∧ st.env.classes.length = 2 :=
  ⟨_, C88_first_failure cfg53 _ _ (by with_unfolding_all rfl) [_, _] [_] (by with_unfolding_all rfl) olderSt _ _ (by with_unfolding_all rfl),
    rfl, rfl, rfl⟩

/-- A document with one property, which refers to nothing. -/
def flatSchema : Json := topSchema [(c!"n", typed c!"integer"), (c!"d", refTo c!"D")] [c!"d"] []

theorem flat_schema : FlatDocument flatSchema := by
  refine ⟨rfl, fun kvs xs he hx x hm w hw => ?_⟩
  have := everyObject_within (p := fun kvs => (lookupKey c!"enum" kvs).isNone && (match lookupKey c!"type" kvs with
      | some (.str t) => t != c!"object"
      | _ => true)) (Json.Within.trans hw (y := x.2) (z := .obj xs) (.obj hm .self))
    (by cases he; cases hx; decide +kernel)
  simp only [Bool.and_eq_true, Option.isNone_iff_eq_none] at this
  refine ⟨fun h => ?_, this.1⟩
  have h' : lookupKey c!"type" w = some (.str c!"object") := h
  rw [h'] at this
  exact absurd this.2 (by decide)

/-- Nothing is left behind by this document, which fails with any module that has no `D`. -/
example : ∃ e st', schemaLeft cfg53 c!"T" flatSchema olderSt = (.error e, st') ∧ st' = olderSt :=
  ⟨_, _, by with_unfolding_all rfl, C88_flat_partial cfg53 c!"T" flatSchema (wf_of (by decide +kernel)) flat_schema olderSt _ .attribute
    (by with_unfolding_all rfl)⟩

/-- A document with an unknown keyword leaves nothing behind. -/
example : ∃ r, schemaLeft cfg53 c!"T" (.obj [(c!"minProperties", .int 1)]) olderSt = (r, olderSt) := by
  obtain ⟨r, st', h⟩ : ∃ r st', schemaLeft cfg53 c!"T" (.obj [(c!"minProperties", .int 1)]) olderSt = (r, st') := ⟨_, _, rfl⟩
  have := C88_words_partial cfg53 c!"T" _ (fun h => absurd (h.2.2 _ (.head _)) (by decide)) olderSt st' r h
  exact ⟨r, by rw [h, this]⟩

/-- The hypotheses of the theorem on what is kept are met by the document with the dangling reference. -/
example : ∃ st, schemaLeft cfg53 c!"T" danglingSchema olderSt = (.error .attribute, st) ∧ olderSt.env.classes <+: st.env.classes ∧
    lookupKey c!"B" st.attrs = lookupKey c!"B" olderSt.attrs := by
  obtain ⟨hw, st, h, -⟩ := C88_replaced_fails
  have hl : NoLibraryFormats danglingSchema := by
    intro x hx kvs hk f t hf hl
    have := everyObject_within (p := fun kvs => (lookupKey c!"format" kvs).isNone)
      (Json.Within.trans hk (y := x.2) (z := .obj (schemaDefs danglingSchema)) (.obj hx .self)) (by decide +kernel)
    rw [hl] at this
    cases this
  have ho : OwnTypes cfg53.modName olderSt.env olderSt.attrs := by
    intro n t hn hf
    simp only [olderSt, lookupKey] at hn
    split at hn
    · cases hn
      cases hf with
      | cls hc => exact hc _ rfl rfl
      | library hm => simp [libraryTypes] at hm
    · cases hn
  obtain ⟨h1, h2, -⟩ := C88_kept_partial cfg53 c!"T" danglingSchema hw hl olderSt st ho _ h
  refine ⟨st, h, h1.1, h2 c!"B" ?_⟩
  rintro ((h | h) | ⟨x, hx, h⟩)
  · cases h
  · exact absurd h (by decide)
  · have hx' : x.1 ∈ [c!"A"] := List.mem_map.2 ⟨x, hx, rfl⟩
    rw [List.mem_singleton] at hx'
    rw [hx'] at h
    unfold NamedAfter at h
    exact absurd h (by decide)

end Verif
