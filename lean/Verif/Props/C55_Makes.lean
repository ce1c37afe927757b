import Verif.Lemmas.Buildable
import Verif.Lemmas.NoType
import Verif.Props.C53_SchemaTypes
/-!
# C55: from which documents a type is made
-/
namespace Verif

/-- The full statement: a type is made from every closed document in the vocabulary of `schema_to_type` whose references are to
its definitions. -/
def C55_statement (cfg : BuildCfg) : Prop :=
  ∀ name kvs env, Keywords objKeywords [c!"type", c!"properties", c!"$schema", c!"definitions"] kvs → HasType c!"object" kvs →
    (∃ m, lookupKey c!"$schema" kvs = some (.str m)) → lookupKey c!"additionalProperties" kvs = some (.bool false) →
    '\x00' ∉ name → (schemaDefs (.obj kvs) = [] → Absent c!"definitions" kvs) → ((schemaDefs (.obj kvs)).map (·.1)).Nodup →
    (∀ x ∈ schemaDefs (.obj kvs), '\x00' ∉ x.1 ∧ Makeable cfg (· ∈ (schemaDefs (.obj kvs)).map (·.1)) false x.2) →
    (∃ xs, lookupKey c!"properties" kvs = some (.obj xs) ∧ (xs.map (·.1)).Nodup ∧ (∀ x ∈ xs, FieldName cfg x.1) ∧
      ∀ x ∈ xs, Makeable cfg (· ∈ (schemaDefs (.obj kvs)).map (·.1)) true x.2) →
    ∃ r, schemaToType cfg name (.obj kvs) ⟨env, [], []⟩ = .ok r

/-- C55 in part: a data class with the given name and a field for every property is made from closed documents in the
vocabulary, if definitions refer only to definitions before them and are those of types whose module can be set.  Missing: other
definitions, for which the statement is violated (see below); default values of enumerations; names of properties that begin with
two underscores; objects without properties, `decimal.Decimal`, and constant numbers, which are not in the model. -/
theorem C55_made_partial (cfg : BuildCfg) (name : Str) (kvs : List (Str × Json)) (h : BuildableDocument cfg name kvs) (env : Env) :
    ∃ c st cd xs, schemaToType cfg name (.obj kvs) ⟨env, [], []⟩ = .ok (.cls c, st) ∧ st.env.classes[c]? = some cd ∧
      cd.name = name ∧ cd.module = cfg.modName ∧ cd.kind = .dataclass false ∧
      lookupKey c!"properties" kvs = some (.obj xs) ∧ (cd.fields.map (·.name)).Perm (xs.map (·.1)) := document_builds h env

/-- C55, the other direction: no type is made from documents with other keywords, open objects, names that are not those of
fields, references to names that are not defined, defaults within lists and alternatives, no alternatives at all, or definitions of
types whose module cannot be set; however deep these are within the document. -/
theorem C55_not_made (cfg : BuildCfg) (name : Str) (kvs : List (Str × Json)) (hw : (Json.obj kvs).Wf)
    (h : NoTypeDocument cfg kvs) (env : Env) : ∃ e, schemaToType cfg name (.obj kvs) ⟨env, [], []⟩ = .error e := by
  cases hr : schemaToType cfg name (.obj kvs) ⟨env, [], []⟩ with
  | error e => exact ⟨e, rfl⟩
  | ok r => exact absurd hr (document_fails h hw name env r)

/-! ### Concrete cases -/

/-- Is the value of the kind?  Floats are left out. -/
def KwKind.test : KwKind → Json → Bool
  | .str, .str _ => true
  | .bool, .bool _ => true
  | .int, .int _ => true
  | .strs, .arr xs => xs.all fun x => match x with | .str _ => true | _ => false
  | _, _ => false

theorem KwKind.test_holds {K : KwKind} {x : Json} (h : K.test x = true) : K.Holds x := by
  cases K <;> cases x <;> simp only [KwKind.test, Bool.false_eq_true] at h
  case str => exact ⟨_, rfl⟩
  case bool => exact ⟨_, rfl⟩
  case int => exact ⟨_, rfl⟩
  case strs xs =>
    refine ⟨xs, rfl, fun y hy => ?_⟩
    have := List.all_eq_true.1 h y hy
    cases y <;> simp only [Bool.false_eq_true] at this
    exact ⟨_, rfl⟩

theorem keywords_of {table : List (Str × KwKind)} {others : List Str} {kvs : List (Str × Json)}
    (h : (kvs.all fun kv => others.contains kv.1 || (textKeywords ++ table).any fun p => p.1 = kv.1 && p.2.test kv.2) = true) :
    Keywords table others kvs := by
  intro k x hx ho
  have := List.all_eq_true.1 h _ (lookupKey_some_mem hx)
  simp only [Bool.or_eq_true, List.contains_eq_mem, decide_eq_true_eq, ho, false_or, List.any_eq_true, Bool.and_eq_true] at this
  obtain ⟨⟨k', K⟩, hm, hk, ht⟩ := this
  simp only at hk ht
  subst hk
  exact ⟨K, hm, KwKind.test_holds ht⟩

theorem splits_cons {α : Type} {P : List α → α → Prop} {a : α} {l : List α} (h : P [] a)
    (ht : ∀ pre x post, l = pre ++ x :: post → P (a :: pre) x) : ∀ pre x post, a :: l = pre ++ x :: post → P pre x := by
  intro pre x post he
  cases pre with
  | nil => cases he; exact h
  | cons b pre =>
    simp only [List.cons_append, List.cons.injEq] at he
    exact he.1 ▸ ht pre x post he.2

theorem splits_nil {α : Type} {P : List α → α → Prop} : ∀ pre x post, [] = pre ++ x :: post → P pre x := by
  intro pre x post he; simp at he

theorem notFormat {table : List Str} {kvs : List (Str × Json)} (h : lookupKey c!"format" kvs = Option.none) :
    ¬ HasFormat table kvs := by
  rintro ⟨f, _, hf⟩; rw [h] at hf; cases hf

/-- Points with a colour and a label, and a list of points. -/
def pointDefs : List (Str × Json) :=
  [(c!"Color", enumOf [c!"red", c!"green"]),
   (c!"Point", .obj (objSchema [(c!"x", .obj [(c!"type", .str c!"integer"), (c!"format", .str c!"int16")]),
      (c!"color", refTo c!"Color")] [c!"x"]))]

def pointProps : List (Str × Json) :=
  [(c!"label", .obj [(c!"type", .str c!"string"), (c!"default", .str c!"none")]),
   (c!"points", .obj [(c!"type", .str c!"array"), (c!"items", refTo c!"Point")]),
   (c!"choice", .obj [(c!"oneOf", .arr [typed c!"boolean", refTo c!"Color"])])]

def pointDocument : List (Str × Json) :=
  (c!"$schema", .str c!"s") :: objSchema pointProps [c!"points"] ++ [(c!"definitions", .obj pointDefs)]

theorem refTo_buildable {Known : Str → Prop} {d : Bool} {n : Str} (hn : n ≠ []) (hw : n.all (isWordChar cfg53.word) = true)
    (hk : Known n) : Makeable cfg53 Known d (refTo n) :=
  .ref (keywords_of rfl) rfl ⟨hn, List.all_eq_true.1 hw⟩ hk

theorem fieldName_of {ps : List (Str × Json)}
    (h : (ps.all fun p => isIdentifier cfg53 p.1 && !isKeyword p.1 && !isDunderName p.1) = true) :
    ∀ x ∈ ps, FieldName cfg53 x.1 := by
  intro x hx
  have := List.all_eq_true.1 h x hx
  simp only [Bool.and_eq_true, Bool.not_eq_true'] at this
  exact ⟨this.1.1, this.1.2, this.2⟩

theorem color_buildable {Known : Str → Prop} : Makeable cfg53 Known false (enumOf [c!"red", c!"green"]) :=
  .str (keywords_of (by decide)) rfl
    (.enum (notFormat rfl) (vs := [c!"red", c!"green"]) rfl (by decide) ⟨by decide, by decide⟩ rfl)

theorem pointDocument_buildable : BuildableDocument cfg53 c!"Drawing" pointDocument where
  words := keywords_of (by decide)
  type := rfl
  schema := ⟨_, rfl⟩
  closed := rfl
  nul := by decide
  defs := .inr ⟨pointDefs, rfl, by decide, splits_cons
    ⟨color_buildable, .text rfl (notFormat rfl) (.inl (by intro h; cases h)), by decide⟩
    (splits_cons ⟨.obj (keywords_of (by decide)) rfl rfl rfl (by decide) (fieldName_of (by decide)) (by
        intro x hx
        simp only [List.mem_cons, List.not_mem_nil, or_false] at hx
        rcases hx with rfl | rfl
        · exact .int (keywords_of (by decide)) rfl (by intro h; cases h) (.inr (.inl rfl))
        · exact refTo_buildable (by decide) (by decide) (by simp)), .object rfl, by decide⟩ splits_nil)⟩
  props := ⟨pointProps, rfl, by decide, fieldName_of (by decide), by
    intro x hx
    simp only [pointProps, List.mem_cons, List.not_mem_nil, or_false] at hx
    rcases hx with rfl | rfl | rfl
    · exact .str (keywords_of (by decide)) rfl (.text (notFormat rfl) rfl (by intro i h; cases h) (.inl rfl))
    · exact .arr (keywords_of (by decide)) rfl rfl (refTo_buildable (by decide) (by decide) (by decide))
    · refine .oneOf (keywords_of (by decide)) rfl (by simp) ?_
      intro x hx
      simp only [List.mem_cons, List.not_mem_nil, or_false] at hx
      rcases hx with rfl | rfl
      · exact .bool (keywords_of (by decide)) rfl (.inr (.inr rfl))
      · exact refTo_buildable (by decide) (by decide) (by decide)⟩

example (env : Env) : ∃ c st, schemaToType cfg53 c!"Drawing" (.obj pointDocument) ⟨env, [], []⟩ = .ok (.cls c, st) := by
  obtain ⟨c, st, _, _, h, _⟩ := C55_made_partial cfg53 c!"Drawing" pointDocument pointDocument_buildable env
  exact ⟨c, st, h⟩

/-- A document with a misspelt keyword deep inside: within the alternatives of the items of a list. -/
def misspelt : List (Str × Json) :=
  (c!"$schema", .str c!"s") :: objSchema [(c!"xs", .obj [(c!"type", .str c!"array"),
    (c!"items", .obj [(c!"oneOf", .arr [typed c!"boolean", .obj [(c!"type", .str c!"integer"), (c!"minimun", .int 1)]])])])] []

example (env : Env) (name : Str) : ∃ e, schemaToType cfg53 name (.obj misspelt) ⟨env, [], []⟩ = .error e := by
  refine C55_not_made cfg53 name misspelt (wf_of (by decide)) (.property rfl (List.mem_singleton.2 rfl) (.items rfl
    (.member rfl (List.mem_cons_of_mem _ (List.mem_singleton.2 rfl)) (.words ?_)))) env
  intro V hV h
  have h1 := h.2.2 (c!"minimun", .int 1) (by simp)
  simp only [vocabularies, List.mem_cons, List.not_mem_nil, or_false] at hV
  rcases hV with rfl | rfl | rfl | rfl | rfl | rfl | rfl | rfl <;> exact absurd h1 (by decide)

/-- A document that refers to a name that is not defined. -/
def dangling : List (Str × Json) := (c!"$schema", .str c!"s") :: objSchema [(c!"x", refTo c!"Missing")] []

example (env : Env) (name : Str) : ∃ e, schemaToType cfg53 name (.obj dangling) ⟨env, [], []⟩ = .error e := by
  refine C55_not_made cfg53 name dangling (wf_of (by decide)) (.property rfl (List.mem_singleton.2 rfl) (.ref rfl ?_)) env
  rintro n ⟨hn, he⟩ hk
  have : n = c!"Missing" := by
    rcases he with he | he
    · exact (List.append_cancel_left he).symm
    · exfalso
      have h1 : c!"Missing" = n ++ ['\n'] := List.append_cancel_left (he.trans (List.append_assoc _ _ _))
      have h2 : '\n' ∈ c!"Missing" := by rw [h1]; simp
      exact absurd h2 (by decide)
  subst this
  rcases hk with hk | ⟨a, b, hab⟩
  · exact absurd hk (by decide)
  · have : '_' ∈ c!"Missing" := by rw [hab]; simp
    exact absurd this (by decide)

/-- The other conditions on documents can be met: an open object, a property named like a keyword, a default within a list, no
alternatives, and a definition of a list. -/
example : NoTypeDocument cfg53 [(c!"properties", .obj [])] := .open rfl (by intro h; cases h)
example : NoTypeDocument cfg53 [(c!"properties", .obj [(c!"class", typed c!"string")])] :=
  .name rfl (List.mem_singleton.2 rfl) (.inr (by decide))
example : NoTypeDocument cfg53 [(c!"properties", .obj [(c!"x", .obj [(c!"items", .obj [(c!"default", .int 1)])])])] :=
  .property rfl (List.mem_singleton.2 rfl) (.itemsDefault rfl ⟨rfl, _, rfl, by intro h; cases h⟩)
example : NoTypeDocument cfg53 [(c!"properties", .obj [(c!"x", .obj [(c!"oneOf", .arr [])])])] :=
  .property rfl (List.mem_singleton.2 rfl) (.never rfl)
example : NoTypeDocument cfg53 [(c!"definitions", .obj [(c!"L", .obj [(c!"type", .str c!"array")])])] :=
  .immovable (List.mem_singleton.2 rfl) (.array rfl)

/-! ### Where the statement does not hold -/

/-- A definition that refers to a later one. -/
def forwardDocument : List (Str × Json) :=
  (c!"$schema", .str c!"s") :: objSchema [(c!"a", refTo c!"A")] [c!"a"] ++
    [(c!"definitions", .obj [(c!"A", .obj (objSchema [(c!"b", refTo c!"B")] [c!"b"])), (c!"B", enumOf [c!"red", c!"green"])])]

/-- A definition of a text. -/
def textDocument : List (Str × Json) :=
  (c!"$schema", .str c!"s") :: objSchema [(c!"a", refTo c!"A")] [c!"a"] ++ [(c!"definitions", .obj [(c!"A", typed c!"string")])]

theorem C55_violated : ¬ C55_statement cfg53 := by
  intro h
  obtain ⟨r, hr⟩ := h c!"T" forwardDocument ⟨[], [], id⟩ (keywords_of (by decide)) rfl ⟨_, rfl⟩ rfl (by decide)
    (by intro h; cases h) (by decide) (by
      intro x hx
      have hx : x ∈ [(c!"A", Json.obj (objSchema [(c!"b", refTo c!"B")] [c!"b"])), (c!"B", enumOf [c!"red", c!"green"])] := hx
      simp only [List.mem_cons, List.not_mem_nil, or_false] at hx
      rcases hx with rfl | rfl
      · refine ⟨by decide, .obj (keywords_of (by decide)) rfl rfl rfl (by decide) (fieldName_of (by decide)) ?_⟩
        intro x hx
        rw [List.mem_singleton.1 hx]
        exact refTo_buildable (by decide) (by decide) (by decide)
      · exact ⟨by decide, color_buildable⟩)
    ⟨_, rfl, by decide, fieldName_of (by decide), by
      intro x hx
      rw [List.mem_singleton.1 hx]
      exact refTo_buildable (by decide) (by decide) (by decide)⟩
  have : schemaToType cfg53 c!"T" (.obj forwardDocument) ⟨⟨[], [], id⟩, [], []⟩ = .error .attribute := by with_unfolding_all rfl
  rw [this] at hr
  cases hr

/-- A reference to a definition of a text: the module of `str` cannot be set. -/
theorem C55_text_definition (env : Env) (name : Str) :
    schemaToType cfg53 name (.obj textDocument) ⟨env, [], []⟩ = .error .typeError := by with_unfolding_all rfl

end Verif
