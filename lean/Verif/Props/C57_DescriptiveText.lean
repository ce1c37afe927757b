import Verif.Lemmas.TextInstances
import Verif.Props.C56_MetaSchema
/-!
# C57: titles and descriptions do not change what a schema accepts

By default `classdef_to_schema` adds titles and descriptions, which it takes from documentation strings.  Apart from these the
schema is the one that is made without them, and it is valid for the same documents.  Where the text comes from is stated as
well.  The exceptions are shown at the end.
-/
namespace Verif

variable {fmt : Str → Str → Bool} {vc : ValidatorCfg} {cfg : SchemaCfg} {tx : SchemaTexts} {env : Env} {cat : SchemaCatalog}

/-- C57 in full: with and without text, `classdef_to_schema` fails with the same error, or returns schemas that are equal apart
from titles and descriptions. -/
def SameApartFromText (cfg : SchemaCfg) (tx : SchemaTexts) (env : Env) (cat : SchemaCatalog) (t : Ty) : Prop :=
  (∃ root root', classdefToSchema cfg env cat t = .ok root ∧ classdefToSchemaT cfg tx env cat t = .ok root' ∧
    stripText (.obj root') = stripText (.obj root)) ∨
  ∃ e, classdefToSchema cfg env cat t = .error e ∧ classdefToSchemaT cfg tx env cat t = .error e

def C57_statement : Prop :=
  ∀ fmt cfg tx env cat t, ChecksSchemas fmt cfg → SameApartFromText cfg tx env cat t

theorem not_fault (hd : DocsReadable tx) (e : Err) : ¬ DocFault tx e := by
  rintro ⟨t, b, hb, h⟩
  obtain ⟨d, hd⟩ := hd t b hb
  rw [hd] at h
  cases h

theorem body_checked (hm : ChecksSchemas fmt cfg) {b b' : Sch} (h : StripRel cat b b')
    (hu : ∀ r e s, cat.get r = .ok e → e.schema = some s → MetaValid fmt (.obj s) ∧ (s.map Prod.fst).Nodup) :
    cfg.metaOk b' = cfg.metaOk b := by
  have ht := h.2 fun r e u h1 h2 kv hkv => textArg_of_meta (MetaArgs.of_valid (hu r e u h1 h2).2 (hu r e u h1 h2).1 kv hkv)
  have hs : stripText (.obj b') = stripText (.obj b) := by rw [stripText_obj, stripText_obj, h.1]
  rw [Bool.eq_iff_iff, hm, hm]
  constructor
  · intro hv
    exact metaValid_unstrip ht.1.text (hs ▸ metaValid_strip hv)
  · intro hv
    exact metaValid_unstrip ht.2.text (hs ▸ metaValid_strip hv)

/-- C57: schemas with and without text are equal apart from text.  Missing: documentation strings that cannot be read, and
schemas in the catalog that are not valid. -/
theorem C57_same_partial (hm : ChecksSchemas fmt cfg) (hd : DocsReadable tx)
    (hu : ∀ r e s, cat.get r = .ok e → e.schema = some s → MetaValid fmt (.obj s) ∧ (s.map Prod.fst).Nodup) (t : Ty) :
    SameApartFromText cfg tx env cat t := by
  have h := classdefSchemasT_follows (tx := tx) (cfg := cfg) (env := env) (stripRel_text (cat := cat)) false t
  unfold SameApartFromText classdefToSchema classdefToSchemaT
  match h1 : classdefSchemasT cfg tx env cat false t with
  | .error e =>
    rw [h1] at h
    rcases h with h | h
    · rw [h]; exact Or.inr ⟨e, rfl, rfl⟩
    · exact absurd h (not_fault hd e)
  | .ok (s', defs') =>
    rw [h1] at h
    obtain ⟨⟨s, defs⟩, h2, h3, h4⟩ := h
    dsimp only at h3 h4
    have hb := documentBody_rel h3 h4
    rw [h2]
    dsimp only
    have hc := body_checked hm hb hu
    unfold documentBody at hb hc
    rw [hc]
    by_cases hk : cfg.metaOk (updateSch (if defs.isEmpty = true then [] else
        [(c!"definitions", Json.obj (defs.map fun d => (d.1, Json.obj d.2)))]) s) = true
    · rw [if_pos hk, if_pos hk]
      refine Or.inl ⟨_, _, rfl, rfl, ?_⟩
      have hs := hb.1
      revert hs
      generalize updateSch _ s = b
      generalize updateSch _ s' = b'
      intro hs
      rw [stripText_obj, stripText_obj, stripKws_updateSch, stripKws_updateSch, hs]
    · rw [if_neg hk, if_neg hk]
      exact Or.inr ⟨_, rfl, rfl⟩

/-- Schemas that are made without text are made with it unless a documentation string cannot be read, and then the error is the
one from reading it; and a schema that is made with text is made without it. -/
theorem C57_schemas (t : Ty) :
    (∀ s' defs', classdefSchemasT cfg tx env cat false t = .ok (s', defs') → ∃ s defs,
      classdefSchemas cfg env cat false t = .ok (s, defs) ∧ stripText (.obj s') = stripText (.obj s) ∧
      All2 (fun d d' => d.1 = d'.1 ∧ stripText (.obj d'.2) = stripText (.obj d.2)) defs defs') ∧
    (∀ e, classdefSchemasT cfg tx env cat false t = .error e → classdefSchemas cfg env cat false t = .error e ∨
      ∃ t, ∃ b ∈ (tx.ofType t).toDocBase :: (tx.ofType t).bases, b.parse = .error e) := by
  have h := classdefSchemasT_follows (tx := tx) (cfg := cfg) (env := env) (stripRel_text (cat := cat)) false t
  constructor
  · intro s' defs' h1
    rw [h1] at h
    obtain ⟨⟨s, defs⟩, h2, h3, h4⟩ := h
    refine ⟨s, defs, h2, by rw [stripText_obj, stripText_obj, h3.1], h4.imp ?_⟩
    rintro d d' ⟨h5, h6⟩
    exact ⟨h5, by rw [stripText_obj, stripText_obj, h6.1]⟩
  · intro e h1
    rw [h1] at h
    exact h

/-- C57: the same documents are valid for schemas that are equal apart from text.  Missing: references other than to a definition
at the top of the document. -/
theorem C57_validates_partial (hp : PlainNames cfg env cat) (t : Ty) (root root' : Sch)
    (h : classdefToSchema cfg env cat t = .ok root) (hs : stripText (.obj root') = stripText (.obj root)) (n : Nat) (v : Json) :
    validate vc (.obj root') n (.obj root') v = validate vc (.obj root) n (.obj root) v := by
  have hroot : PlainRefs (.obj root) ∧ ∀ n d ps, lookupKey c!"definitions" root = some (.obj ps) → lookupKey n ps = some d →
      PlainRefs d := by
    obtain ⟨s, us, defs, h1, h2, rfl⟩ := document_ok h
    have hc : classdefSchemas cfg env cat false t = .ok (s, sortByName defs) := by
      unfold classdefSchemas; rw [h1]; dsimp only; rw [h2]
    obtain ⟨k1, k2, k3⟩ := classdef_plain hp hc
    obtain ⟨d1, _, d3⟩ := document_spec (x := js metaSchemaId) k1 (sortByName defs)
    refine ⟨fun r hr => k2 r ((d3 r).1 hr), ?_⟩
    intro n d ps hl hn
    unfold definitionsOf at d1
    rw [hl] at d1
    dsimp only at d1
    subst d1
    obtain ⟨d', hd', he⟩ := List.mem_map.1 (lookupKey_some_mem hn)
    cases he
    exact k3 d' hd'
  have hroot' : PlainRefs (.obj root') ∧ ∀ n d ps, lookupKey c!"definitions" root' = some (.obj ps) → lookupKey n ps = some d →
      PlainRefs d := by
    refine ⟨fun r hr => hroot.1 r (hasRef_strip.1 (hs ▸ hr.strip)), ?_⟩
    intro n d ps hl hn
    rw [stripText_obj, stripText_obj] at hs
    injection hs with hs
    have he := congrArg (lookupKey c!"definitions") hs
    rw [lookup_stripKws definitions_kind.1, lookup_stripKws definitions_kind.1, hl] at he
    simp only [Option.map_some, stripOf, definitions_kind.2, stripArg_schemaMap] at he
    cases hl' : lookupKey c!"definitions" root with
    | none => rw [hl'] at he; cases he
    | some a =>
      rw [hl'] at he
      simp only [Option.map_some, Option.some.injEq] at he
      cases a with
      | obj qs =>
        simp only [stripOf, definitions_kind.2, stripArg_schemaMap] at he
        injection he with he
        have h1 := congrArg (lookupKey n) he
        rw [lookup_mapText, lookup_mapText, hn] at h1
        cases hq : lookupKey n qs with
        | none => rw [hq] at h1; cases h1
        | some x =>
          rw [hq] at h1
          simp only [Option.map_some, Option.some.injEq] at h1
          intro r hr
          exact hroot.2 n x qs hl' hq r (hasRef_strip.1 (h1 ▸ hr.strip))
      | _ => simp [stripOf, definitions_kind.2, stripArg] at he
  rw [← validate_strip (vc := vc) hroot.2 n (.obj root) v hroot.1, ← validate_strip (vc := vc) hroot'.2 n (.obj root') v hroot'.1, hs]

/-- `validate_object(t, j)` returns, schema.py:594-604, with default options. -/
def ValidateReturnsT (vc : ValidatorCfg) (cfg : SchemaCfg) (tx : SchemaTexts) (env : Env) (cat : SchemaCatalog) (t : Ty)
    (j : Json) : Prop :=
  ∃ root, classdefToSchemaT cfg tx env cat t = .ok root ∧ Validates vc (.obj root) (.obj root) j

/-- With and without text, `validate_object` returns for the same documents. -/
theorem C57_validate_iff_partial (hm : ChecksSchemas fmt cfg) (hd : DocsReadable tx) (hp : PlainNames cfg env cat)
    (hu : ∀ r e s, cat.get r = .ok e → e.schema = some s → MetaValid fmt (.obj s) ∧ (s.map Prod.fst).Nodup) (t : Ty) (j : Json) :
    ValidateReturnsT vc cfg tx env cat t j ↔ ValidateReturns vc cfg env cat t j := by
  rcases C57_same_partial (env := env) hm hd hu t with ⟨root, root', h1, h2, h3⟩ | ⟨e, h1, h2⟩
  · have hv := C57_validates_partial (vc := vc) hp t root root' h1 h3
    unfold ValidateReturnsT ValidateReturns Validates
    rw [h1, h2]
    constructor
    · rintro ⟨r, hr, n, hn⟩
      cases hr
      exact ⟨root, rfl, n, by rw [← hv]; exact hn⟩
    · rintro ⟨r, hr, n, hn⟩
      cases hr
      exact ⟨root', rfl, n, by rw [hv]; exact hn⟩
  · unfold ValidateReturnsT ValidateReturns
    rw [h1, h2]

/-- With C34 and C56: `validate_object(t, object_to_json(v))` returns, with default options. -/
theorem C57_validate_object_partial (hc : ProgramChecks cfg env cat) (hs : SchemaProgram env cat) (hcat : MadeByRegistering cat)
    (hp : ExpressibleProgram fmt cfg env cat) (hn : PlainNames cfg env cat) (hd : DocsReadable tx) (hm : ChecksSchemas fmt cfg)
    (hw : WordsMatch vc) (t : Ty) (h1 : Checkable env t) (h2 : Schemable env t) (h3 : t.Expressible fmt cfg env) (v : Val)
    (hv : Conforms vc cfg env v t) (j : Json) (hj : objectToJson env v = .ok j) : ValidateReturnsT vc cfg tx env cat t j :=
  (C57_validate_iff_partial hm hd hn hp.catalog t j).2
    (C56_validate_object_partial hc hs hcat hp (fun s => (hm s).2) hw t h1 h2 h3 v hv j hj)

theorem root_text (hu : ∀ r e s, cat.get r = .ok e → e.schema = some s → MetaValid fmt (.obj s) ∧ (s.map Prod.fst).Nodup)
    {t : Ty} {root' : Sch} (h : classdefToSchemaT cfg tx env cat t = .ok root') : TextOk (.obj root') := by
  have hf := classdefSchemasT_follows (tx := tx) (cfg := cfg) (env := env) (stripRel_text (cat := cat)) false t
  unfold classdefToSchemaT at h
  match h1 : classdefSchemasT cfg tx env cat false t with
  | .error e => rw [h1] at h; cases h
  | .ok (s', defs') =>
    rw [h1] at h hf
    obtain ⟨⟨s, defs⟩, h2, h3, h4⟩ := hf
    dsimp only at h h3 h4
    have hb := documentBody_rel h3 h4
    have ht := (hb.2 fun r e u h1 h2 kv hkv =>
      textArg_of_meta (MetaArgs.of_valid (hu r e u h1 h2).2 (hu r e u h1 h2).1 kv hkv)).2
    unfold documentBody at ht
    generalize updateSch _ s' = b at h ht
    split at h
    · cases h
      refine (TextArgs.update ?_ ht).text
      intro kv hkv
      cases List.mem_singleton.1 hkv
      refine (fixed_flat _ (by decide) ?_).2.2
      intro K hK
      rw [show lookupKey c!"$schema" metaKeywords = some (.formatted c!"uri") by decide +kernel] at hK
      cases hK
      rfl
    · cases h

/-- With C56: a schema with text is returned, and it is valid for the meta-schema. -/
theorem C57_valid_partial (hp : ExpressibleProgram fmt cfg env cat) (hd : DocsReadable tx) (hm : ChecksSchemas fmt cfg) (t : Ty)
    (ht : t.Expressible fmt cfg env) (p : Sch × List (Str × Sch)) (h : classdefSchemas cfg env cat false t = .ok p) :
    ∃ root', classdefToSchemaT cfg tx env cat t = .ok root' ∧ MetaValid fmt (.obj root') := by
  obtain ⟨root, h1, h2, -⟩ := C56_valid_partial hp (fun s => (hm s).2) t ht p.1 p.2 h
  rcases C57_same_partial (tx := tx) (env := env) hm hd hp.catalog t with ⟨r, root', h3, h4, h5⟩ | ⟨e, h3, -⟩
  · rw [h1] at h3
    cases h3
    exact ⟨root', h4, metaValid_unstrip (root_text hp.catalog h4) (h5 ▸ metaValid_strip h2)⟩
  · rw [h1] at h3
    cases h3

/-! ### Where the text comes from -/

theorem lookup_textKeyword (k k' : Str) (o : Option Str) :
    lookupKey k (textKeyword k' o) = if k' = k then (shown o).map Json.str else none := by
  unfold textKeyword shown
  rcases o with - | ⟨- | ⟨c, r⟩⟩
  · simp [lookupKey]
  · simp [lookupKey]
  · by_cases h : k' = k <;> simp [lookupKey, h]

theorem docstringSchema_spec {b : DocBase} {d : Docstring} (h : b.parse = .ok d) :
    ∃ text, docstringSchema b = .ok text ∧ (text.map Prod.fst).Nodup ∧
      lookupKey c!"title" text = (b.title d).map Json.str ∧ lookupKey c!"description" text = (b.description d).map Json.str ∧
      ∀ k, k ∉ descriptiveKeywords → lookupKey k text = none := by
  unfold docstringSchema classDocstrings
  rw [h]
  dsimp only
  have happ : ∀ k (l l' : Sch), lookupKey k (l ++ l') = match lookupKey k l with | some a => some a | none => lookupKey k l' := by
    intro k l l'
    induction l with
    | nil => rfl
    | cons p l ih =>
      obtain ⟨k', a⟩ := p
      rw [List.cons_append, lookupKey, lookupKey]
      split
      · rfl
      · exact ih
  have hnd : ∀ o o', ((textKeyword c!"title" o ++ textKeyword c!"description" o').map Prod.fst).Nodup := by
    intro o o'
    rcases o with - | ⟨- | ⟨c, r⟩⟩ <;> rcases o' with - | ⟨- | ⟨c', r'⟩⟩ <;> simp [textKeyword]
  unfold DocBase.title DocBase.description
  by_cases hdf : b.isDefault = true
  · rw [if_pos hdf, if_pos hdf, if_pos hdf]
    exact ⟨_, rfl, hnd none none, rfl, rfl, fun k _ => rfl⟩
  · rw [if_neg hdf, if_neg hdf, if_neg hdf]
    refine ⟨_, rfl, hnd _ _, ?_, ?_, ?_⟩
    · rw [happ, lookup_textKeyword, lookup_textKeyword]
      cases shown d.short <;> simp
    · rw [happ, lookup_textKeyword, lookup_textKeyword]
      simp
    · intro k hk
      simp only [descriptiveKeywords, List.mem_cons, List.not_mem_nil, or_false, not_or] at hk
      rw [happ, lookup_textKeyword, lookup_textKeyword, if_neg (fun h => hk.1 h.symm), if_neg (fun h => hk.2 h.symm)]

theorem classSchema_no_text (ps : List (Str × Json)) (req : List Str) :
    ((classSchema ps req).map Prod.fst).Nodup ∧ ∀ k ∈ descriptiveKeywords, lookupKey k (classSchema ps req) = none := by
  have hk : ∀ k ∈ (classSchema ps req).map Prod.fst, k ∈ [c!"type", c!"properties", c!"additionalProperties", c!"required"] := by
    intro k hk
    unfold classSchema at hk
    simp only [List.map_append, List.mem_append] at hk
    rcases hk with (hk | hk) | hk
    · simp at hk; simp [hk]
    · split at hk
      · cases hk
      · simp at hk; rcases hk with rfl | rfl <;> simp
    · split at hk
      · cases hk
      · simp at hk; simp [hk]
  refine ⟨?_, ?_⟩
  · unfold classSchema
    split <;> split <;> simp
  · intro k hk'
    rw [lookupKey_none_iff']
    intro h
    have := hk k h
    revert this
    simp only [descriptiveKeywords, List.mem_cons, List.not_mem_nil, or_false] at hk'
    rcases hk' with rfl | rfl <;> decide

/-- C57: the schema of a class has the first paragraph of its documentation as title and the others as description. -/
theorem C57_class_text (hu : tx.useDescriptions = true) (n c : Nat) (s : Sch) (us : List TypeUse)
    (h : clsSchemaT cfg tx env cat n c = .ok (s, us)) (d : Docstring) (hd : (tx.ofType (.cls c)).parse = .ok d) :
    lookupKey c!"title" s = ((tx.ofType (.cls c)).title d).map Json.str ∧
    lookupKey c!"description" s = ((tx.ofType (.cls c)).description d).map Json.str := by
  cases n with
  | zero => cases h
  | succ n =>
    rw [clsSchemaT] at h
    split at h
    · cases h
    · split at h
      · cases h
      · rw [SchRes.map_ok] at h
        obtain ⟨ps, -, h2⟩ := h
        obtain ⟨text, t1, t2, t3, t4, -⟩ := docstringSchema_spec hd
        rcases withText_ok h2 with ⟨h3, -⟩ | ⟨-, text', h3, rfl⟩
        · rw [hu] at h3; cases h3
        · rw [t1] at h3
          cases h3
          obtain ⟨-, hc⟩ := classSchema_no_text ps ((‹ClassDef›.hints.filter (schemaRequired ‹ClassDef›.kind)).map (schemaProp ‹ClassDef›.kind))
          rw [lookupKey_updateSch _ _ _ t2, lookupKey_updateSch _ _ _ t2, t3, t4, hc _ (by decide), hc _ (by decide)]
          constructor
          · cases (tx.ofType (.cls c)).title d <;> rfl
          · cases (tx.ofType (.cls c)).description d <;> rfl

/-- C57: so does the definition of a registered type, also if its schema is given in the catalog. -/
theorem C57_definition_text (hu : tx.useDescriptions = true) (t : Ty) (s : Sch) (us : List TypeUse)
    (h : schemaWithLookupT cfg tx env cat (.ty t) = .ok (s, us)) (d : Docstring) (hd : (tx.ofType t).parse = .ok d) :
    (∀ x, (tx.ofType t).title d = some x → lookupKey c!"title" s = some (.str x)) ∧
    (∀ x, (tx.ofType t).description d = some x → lookupKey c!"description" s = some (.str x)) := by
  unfold schemaWithLookupT at h
  split at h
  · cases h
  · split at h
    · cases h
    · rename_i entry _
      rw [SchRes.map_ok] at h
      obtain ⟨s0, -, h2⟩ := h
      obtain ⟨text, t1, t2, t3, t4, -⟩ := docstringSchema_spec hd
      simp only [entryText] at h2
      split at h2
      · cases h2
      · rename_i s1 h3
        cases h2
        have hex : ∀ k ∈ descriptiveKeywords, lookupKey k (withExamples cfg entry.examples s1) = lookupKey k s1 := by
          intro k hk
          unfold withExamples
          split
          · split
            · rw [lookupKey_upsert, if_neg]
              rintro rfl
              revert hk
              decide
            · rfl
          · rfl
        rcases withText_ok h3 with ⟨h4, -⟩ | ⟨-, text', h4, rfl⟩
        · rw [hu] at h4; cases h4
        · rw [t1] at h4
          cases h4
          constructor
          · intro x hx
            rw [hex _ (by decide), lookupKey_updateSch _ _ _ t2, t3, hx]
            rfl
          · intro x hx
            rw [hex _ (by decide), lookupKey_updateSch _ _ _ t2, t4, hx]
            rfl

/-- What becomes of the text for a parameter: `property_description_fun`, or the text itself. -/
def SchemaTexts.render (tx : SchemaTexts) (t : Ty) (n x : Str) : Str :=
  match tx.propertyDescription with
  | none => x
  | some f => f t n x

theorem addPropDocs_lookup (f : Str → Str → Str) (n : Str) : ∀ (l acc : List (Str × Str)),
    lookupKey n (addPropDocs f l acc) = match lookupKey n acc with | some y => some y | none => (lookupKey n l).map (f n)
  | [], acc => by rw [addPropDocs]; cases lookupKey n acc <;> rfl
  | (m, x) :: l, acc => by
    rw [addPropDocs, addPropDocs_lookup f n l]
    by_cases hm : m = n
    · subst hm
      cases h : lookupKey m acc with
      | some y => simp [h]
      | none => simp [lookupKey_upsert, lookupKey]
    · have : lookupKey n (if (lookupKey m acc).isSome then acc else upsert m (f m x) acc) = lookupKey n acc := by
        split
        · rfl
        · rw [lookupKey_upsert, if_neg hm]
      rw [this]
      cases lookupKey n acc <;> simp [lookupKey, hm]

theorem propDocsFrom_lookup {f : Str → Str → Str} {n : Str} : ∀ {bs : List DocBase} {acc docs : List (Str × Str)},
    propDocsFrom f bs acc = .ok docs →
    (∀ y, lookupKey n acc = some y → lookupKey n docs = some y) ∧
    (lookupKey n acc = none → (∀ x, FirstDoc n x bs → lookupKey n docs = some (f n x)) ∧
      (Undocumented n bs → lookupKey n docs = none))
  | [], acc, docs, h => by
    cases h
    exact ⟨fun y hy => hy, fun hn => ⟨fun x hx => (by cases hx), fun _ => hn⟩⟩
  | b :: bs, acc, docs, h => by
    rw [propDocsFrom] at h
    split at h
    · cases h
    · rename_i d hd
      have ih := propDocsFrom_lookup (n := n) h
      rw [addPropDocs_lookup] at ih
      refine ⟨fun y hy => ih.1 y (by rw [hy]), fun hn => ?_⟩
      rw [hn] at ih
      dsimp only at ih
      refine ⟨?_, ?_⟩
      · intro x hx
        cases hx with
        | here h1 h2 =>
          rw [hd] at h1
          cases h1
          exact ih.1 _ (by rw [h2]; rfl)
        | later h1 h2 h3 =>
          rw [hd] at h1
          cases h1
          exact (ih.2 (by rw [h2]; rfl)).1 x h3
      · intro hun
        exact (ih.2 (by rw [hun b (by simp) d hd]; rfl)).2 fun b hb => hun b (by simp [hb])

/-- C57: the text for a property comes from the first class in the method resolution order that documents a parameter of this
name. -/
theorem C57_property_docs (t : Ty) (docs : List (Str × Str)) (h : classPropDocs tx t = .ok docs) (n : Str) :
    (∀ x, FirstDoc n x ((tx.ofType t).toDocBase :: (tx.ofType t).bases) → lookupKey n docs = some (tx.render t n x)) ∧
    (Undocumented n ((tx.ofType t).toDocBase :: (tx.ofType t).bases) → lookupKey n docs = none) := by
  have h1 := (propDocsFrom_lookup (n := n) h).2 rfl
  refine ⟨fun x hx => ?_, h1.2⟩
  rw [h1.1 x hx]
  unfold SchemaTexts.render
  cases tx.propertyDescription <;> rfl

/-- C57: this text, unless empty, is the description of the property; a title is dropped. -/
theorem C57_property_text {cls : Nat → SchRes Sch} (t : Ty) (docs : List (Str × Str)) (h : classPropDocs tx t = .ok docs)
    (kind : ClassKind) (f : FieldDef) (s : Sch) (us : List TypeUse)
    (hs : propSchemaT cfg tx env cat cls docs kind f = .ok (s, us)) (x : Str)
    (hx : FirstDoc f.name x ((tx.ofType t).toDocBase :: (tx.ofType t).bases)) (hne : tx.render t f.name x ≠ []) :
    lookupKey c!"description" s = some (.str (tx.render t f.name x)) ∧ lookupKey c!"title" s = none := by
  unfold propSchemaT at hs
  rw [SchRes.map_ok] at hs
  obtain ⟨s0, -, h2⟩ := hs
  split at h2
  · cases h2
  · rename_i s1 _
    cases h2
    have hl := (C57_property_docs t docs h f.name).1 x hx
    unfold withPropDoc
    rw [hl]
    dsimp only
    rw [if_neg (by simpa using hne)]
    refine ⟨by rw [lookupKey_upsert, if_pos rfl], ?_⟩
    rw [lookupKey_upsert, if_neg (by decide), lookupKey_none_iff']
    intro hm
    obtain ⟨kv, hkv, he⟩ := List.mem_map.1 hm
    have := (List.mem_filter.1 hkv).2
    simp [he] at this

/-- With `use_descriptions=False`, and if no parameters are documented, there is no text.  Missing: classes with documented
parameters, see below. -/
theorem C57_switch_partial (hu : tx.useDescriptions = false)
    (hd : ∀ t n, Undocumented n ((tx.ofType t).toDocBase :: (tx.ofType t).bases)) (hr : DocsReadable tx) (t : Ty) :
    classdefToSchemaT cfg tx env cat t = classdefToSchema cfg env cat t := by
  have h2 : ∀ t docs, classPropDocs tx t = .ok docs → docs = [] := by
    intro t docs h
    cases docs with
    | nil => rfl
    | cons p docs =>
      have := (C57_property_docs t _ h p.1).2 (hd t p.1)
      simp [lookupKey] at this
  have h := classdefSchemasT_follows (tx := tx) (cfg := cfg) (env := env) (eq_text (cat := cat) hu h2) false t
  have he : classdefSchemasT cfg tx env cat false t = classdefSchemas cfg env cat false t := by
    match h1 : classdefSchemasT cfg tx env cat false t with
    | .error e =>
      rw [h1] at h
      rcases h with h | h
      · exact h.symm
      · exact absurd h (not_fault hr e)
    | .ok (s', defs') =>
      rw [h1] at h
      obtain ⟨⟨s, defs⟩, h3, h4, h5⟩ := h
      dsimp only at h4 h5
      subst h4
      have : defs = defs' := by
        clear h3 h1
        induction h5 with
        | nil => rfl
        | @cons p p' _ _ hp _ ih =>
          obtain ⟨k, a⟩ := p
          obtain ⟨k', a'⟩ := p'
          obtain ⟨h6, h7⟩ := hp
          dsimp only at h6 h7
          rw [h6, h7, ih]
      rw [h3, this]
  unfold classdefToSchemaT classdefToSchema
  rw [he]
  cases classdefSchemas cfg env cat false t <;> rfl

/-! ### Exceptions -/

/-- A documentation string for a class; other types have none. -/
def textsFor (b : DocBase) (use : Bool) : SchemaTexts :=
  { useDescriptions := use, ofType := fun t => match t with | .cls 0 => { b with } | _ => { target := .other, doc := none } }

theorem readable_for {b : DocBase} {d : Docstring} (use : Bool) (h : b.parse = .ok d) : DocsReadable (textsFor b use) := by
  intro t b' hb
  simp only [textsFor] at hb
  split at hb
  · simp only [List.mem_singleton] at hb
    subst hb
    exact ⟨d, h⟩
  · simp only [List.mem_singleton] at hb
    subst hb
    exact ⟨{}, rfl⟩

/-- A data class `class Thing: x: int`. -/
def thingClass : ClassDef := { module := c!"m", name := c!"Thing", kind := .dataclass false, fields := [{ name := c!"x", ty := .int }] }

def thingEnv : Env := classEnv thingClass

/-- `Thing` with a documentation string. -/
def thingDoc (doc : Str) : DocBase := { target := .dataclass c!"Thing" [(c!"x", .int)] [], doc := some doc }

/-- Options with a documentation string for `Thing`. -/
def thingTexts (doc : Str) (use : Bool) : SchemaTexts := textsFor (thingDoc doc) use

/-- The schema of `Thing`, possibly with a description of the property. -/
def thingSchema (text : Sch) : Sch :=
  [(c!"type", js c!"object"), (c!"properties", .obj [(c!"x", .obj ((c!"type", js c!"integer") :: text))]),
   (c!"additionalProperties", .bool false), (c!"required", .arr [.str c!"x"])]

theorem thing_plain : classdefSchemas cfg thingEnv noneRegistered false (.cls 0) = .ok (thingSchema [], []) := rfl

theorem thing_expressible (hf : ∀ k x, fmt k x = true) : ExpressibleProgram fmt cfg thingEnv noneRegistered where
  types cd hcd f hf := by
    simp only [thingEnv, classEnv, List.mem_singleton] at hcd
    subst hcd
    simp only [thingClass, ClassDef.hints, List.mem_singleton] at hf
    subst hf
    exact .leaf (Or.inl (show Ty.int ∈ scalarTys by simp [scalarTys]))
  names cd hcd := by
    simp only [thingEnv, classEnv, List.mem_singleton] at hcd
    subst hcd
    decide
  references n hn := hf _ _
  metaId := hf _ _
  catalog r e s he hs := by cases r <;> cases he

theorem thing_returned (hm : ChecksSchemas (fun _ _ => true) cfg) :
    classdefToSchema cfg thingEnv noneRegistered (.cls 0) = .ok ((c!"$schema", js metaSchemaId) :: thingSchema []) := by
  obtain ⟨root, h1, -⟩ := C56_valid_partial (thing_expressible fun _ _ => rfl) (fun s => (hm s).2) (.cls 0) (.cls 0) _ _
    (thing_plain (cfg := cfg))
  unfold classdefToSchema at h1 ⊢
  rw [thing_plain] at h1 ⊢
  dsimp only [List.isEmpty_nil] at h1 ⊢
  by_cases hc : cfg.metaOk (updateSch [] (thingSchema [])) = true
  · exact if_pos hc
  · exact absurd (h1.symm.trans (if_neg hc)) (by simp)

/-- A name of a parameter that `Thing` does not have. -/
theorem thing_wrong : (thingDoc c!"A thing.\n\n:param colour: A word.").parse.map (fun _ => ()) = .error .typeError := by
  decide +kernel

theorem unreadable_class {e : Err} (h : (tx.ofType (.cls 0)).parse = .error e) (n : Nat) (hn : env.classes[0]? ≠ none) :
    clsSchemaT cfg tx env cat (n + 1) 0 = .error e := by
  rw [clsSchemaT]
  cases hc : env.classes[0]? with
  | none => exact absurd hc hn
  | some cd =>
    dsimp only
    rw [show classPropDocs tx (.cls 0) = .error e by unfold classPropDocs propDocsFrom; rw [h]]

/-- No schema is made if a documentation string of a class names a parameter that the class does not have, with or without
`use_descriptions`. -/
theorem C57_unknown_parameter (use : Bool) :
    classdefToSchemaT cfg (thingTexts c!"A thing.\n\n:param colour: A word." use) thingEnv noneRegistered (.cls 0) =
      .error .typeError := by
  have h : (thingDoc c!"A thing.\n\n:param colour: A word.").parse = .error .typeError := by
    have := thing_wrong
    revert this
    cases (thingDoc c!"A thing.\n\n:param colour: A word.").parse with
    | error e => intro h; cases h; rfl
    | ok d => intro h; cases h
  unfold classdefToSchemaT classdefSchemasT typeToSchemaT
  rw [tySchemaT, if_neg (by simp)]
  rw [show thingEnv.classes.length = 0 + 1 from rfl]
  dsimp only [noneRegistered]
  rw [unreadable_class (e := .typeError) h 0 (by simp [thingEnv, classEnv])]
  rfl

/-- So C57 does not hold in full. -/
theorem C57_violated : ¬ C57_statement := by
  intro h
  classical
  have hm : ChecksSchemas (fun _ _ => true) { pow10 := fun _ => .nan, metaOk := fun s => decide (MetaValid (fun _ _ => true) (.obj s)) } :=
    fun s => by simp
  rcases h _ _ (thingTexts c!"A thing.\n\n:param colour: A word." true) thingEnv noneRegistered (.cls 0) hm with
    ⟨root, root', -, h2, -⟩ | ⟨e, h1, -⟩
  · rw [C57_unknown_parameter] at h2
    cases h2
  · rw [thing_returned hm] at h1
    cases h1

theorem thing_parse : (thingDoc c!"A thing.\n\nOf some kind.\n\n:param x: A number.").parse =
    .ok { short := some c!"A thing.", long := some c!"Of some kind.", params := [(c!"x", c!"A number.")] } := by
  have h : (thingDoc c!"A thing.\n\nOf some kind.\n\n:param x: A number.").parse.toOption =
    some { short := some c!"A thing.", long := some c!"Of some kind.", params := [(c!"x", c!"A number.")] } := by decide +kernel
  revert h
  cases (thingDoc c!"A thing.\n\nOf some kind.\n\n:param x: A number.").parse with
  | error e => intro h; cases h
  | ok d => intro h; cases h; rfl

/-- The schema with text. -/
theorem thing_text : classdefSchemasT cfg (thingTexts c!"A thing.\n\nOf some kind.\n\n:param x: A number." true) thingEnv noneRegistered
    false (.cls 0) = .ok (thingSchema [(c!"description", js c!"A number.")] ++ [(c!"title", js c!"A thing."),
      (c!"description", js c!"Of some kind.")], []) := by
  with_unfolding_all rfl

/-- Without `use_descriptions`, properties still have descriptions. -/
theorem C57_switch_violated : classdefSchemasT cfg (thingTexts c!"A thing.\n\nOf some kind.\n\n:param x: A number." false) thingEnv
    noneRegistered false (.cls 0) = .ok (thingSchema [(c!"description", js c!"A number.")], []) := by
  with_unfolding_all rfl

/-! ### Examples -/

/-- The class and its property have text. -/
example (s : Sch) (us : List TypeUse) (h : clsSchemaT cfg (thingTexts c!"A thing.\n\nOf some kind.\n\n:param x: A number." true) thingEnv
    noneRegistered 1 0 = .ok (s, us)) :
    lookupKey c!"title" s = some (.str c!"A thing.") ∧ lookupKey c!"description" s = some (.str c!"Of some kind.") := by
  have := C57_class_text rfl 1 0 s us h _ thing_parse
  exact this

example : ∃ p, clsSchemaT cfg (thingTexts c!"A thing.\n\nOf some kind.\n\n:param x: A number." true) thingEnv noneRegistered 1 0 = .ok p :=
  ⟨_, by with_unfolding_all rfl⟩

example : FirstDoc c!"x" c!"A number." [thingDoc c!"A thing.\n\nOf some kind.\n\n:param x: A number."] := .here thing_parse rfl

/-- A text from a base class. -/
example : FirstDoc c!"x" c!"A number." [{ target := .other, doc := none }, thingDoc c!"A thing.\n\nOf some kind.\n\n:param x: A number."] :=
  .later (d := {}) rfl rfl (.here thing_parse rfl)

/-- With `use_descriptions=False` and without documented parameters there is no text. -/
example (h : (thingDoc c!"A thing.").parse = .ok { short := some c!"A thing." }) :
    classdefToSchemaT cfg (thingTexts c!"A thing." false) thingEnv noneRegistered (.cls 0) =
      classdefToSchema cfg thingEnv noneRegistered (.cls 0) := by
  refine C57_switch_partial rfl ?_ (readable_for false h) _
  intro t n b hb d hd
  simp only [textsFor] at hb
  split at hb
  · simp only [List.mem_singleton] at hb
    subst hb
    have : d = { short := some c!"A thing." } := by
      have := hd.symm.trans h
      cases this
      rfl
    subst this
    rfl
  · simp only [List.mem_singleton] at hb
    subst hb
    cases hd
    rfl

example : (thingDoc c!"A thing.").parse.toOption = some { short := some c!"A thing." } := by decide +kernel

/-! `Leaf` of the example for C34 with a documentation string. -/

def leafDoc : DocBase :=
  { target := .dataclass c!"Leaf" [(c!"kind", .literal [.str c!"leaf"]), (c!"color", .enum 0), (c!"note", .union [.str, .none])] [],
    doc := some c!"A leaf.\n\n:param color: Color of the leaf." }

theorem leaf_parse : ∃ d, leafDoc.parse = .ok d := by
  have h : leafDoc.parse.toOption.isSome = true := by decide +kernel
  revert h
  cases leafDoc.parse with
  | error e => intro h; cases h
  | ok d => exact fun _ => ⟨d, rfl⟩

theorem forest_entry {r : TypeRef RegKey} {e : CatEntry Sch (List Json)} (he : forestCat.get r = .ok e) :
    e.identifier = c!"Node" ∧ e.schema = none := by
  cases r with
  | ty k =>
    by_cases hk : RegKey.cls 1 = k
    · subst hk; cases he; exact ⟨rfl, rfl⟩
    · simp [forestCat, catalogOf, registerAll, register, Catalog.add, Catalog.get, Catalog.empty, lookupKey, upsert, hk] at he
  | fwd n =>
    by_cases hk : c!"Node" = n
    · subst hk; cases he; exact ⟨rfl, rfl⟩
    · simp [forestCat, catalogOf, registerAll, register, Catalog.add, Catalog.get, Catalog.empty, lookupKey, upsert, hk] at he

theorem forest_expressible (hf : ∀ k x, fmt k x = true) : ExpressibleProgram fmt cfg forestEnv forestCat where
  types cd hcd f hf := by
    have sc : ∀ t ∈ scalarTys, t.Expressible fmt cfg forestEnv := fun t h => .leaf (Or.inl h)
    simp only [forestEnv, List.mem_cons, List.not_mem_nil, or_false] at hcd
    rcases hcd with rfl | rfl <;> simp only [ClassDef.hints, List.mem_cons, List.not_mem_nil, or_false] at hf <;>
      rcases hf with rfl | rfl | rfl
    · exact .literal _
    · exact .enum 0
    · exact sc .str (by simp [scalarTys])
    · exact .literal _
    · exact .annotated (by simp [Meta.Expressible]) (sc .int (by simp [scalarTys]))
    · refine .list (.union (by simp) fun t ht => ?_)
      simp only [List.mem_cons, List.not_mem_nil, or_false] at ht
      rcases ht with rfl | rfl
      · exact .cls 1
      · exact .cls 0
  names cd hcd := by
    simp only [forestEnv, List.mem_cons, List.not_mem_nil, or_false] at hcd
    rcases hcd with rfl | rfl <;> decide
  references n hn := hf _ _
  metaId := hf _ _
  catalog r e s he hs := by rw [(forest_entry he).2] at hs; cases hs

theorem forest_plain (hpath : cfg.definitionsPath = c!"#/definitions/") : PlainNames cfg forestEnv forestCat where
  path := hpath
  names n hn := by
    rcases hn with ⟨cd, hcd, rfl⟩ | ⟨ed, hed, rfl⟩ | hn | ⟨r, e, he, rfl⟩
    · simp only [forestEnv, List.mem_cons, List.not_mem_nil, or_false] at hcd
      rcases hcd with rfl | rfl <;> decide
    · simp only [forestEnv, List.mem_singleton] at hed
      subst hed
      decide
    · simp only [List.mem_cons, List.not_mem_nil, or_false] at hn
      rcases hn with rfl | rfl | rfl | rfl | rfl <;> decide
    · rw [(forest_entry he).1]
      decide
  catalog r e s he hs := by rw [(forest_entry he).2] at hs; cases hs

/-- `validate_object` accepts what `object_to_json` returns for a node with a leaf, with the text for `Leaf`. -/
example (hpath : cfg.definitionsPath = c!"#/definitions/") (hw : WordsMatch vc) (hm : ChecksSchemas (fun _ _ => true) cfg) :
    ValidateReturnsT vc cfg (textsFor leafDoc true) forestEnv forestCat (.cls 1) (.obj [(c!"kind", .str c!"node"), (c!"size", .int 3),
      (c!"children", .arr [.obj [(c!"kind", .str c!"leaf"), (c!"color", .str c!"green")]])]) := by
  obtain ⟨d, hd⟩ := leaf_parse
  exact C57_validate_object_partial (forest_program hpath) forest_schemas ⟨_, _, rfl⟩ (forest_expressible fun _ _ => rfl)
    (forest_plain hpath) (readable_for true hd) hm hw _ .cls (.cls (c := 1) rfl) (.cls 1) forestVal forest_conforms _ rfl

end Verif
