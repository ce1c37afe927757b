import Verif.Lemmas.StripValid
import Verif.Spec.SchemaText
/-!
# Relations kept by descriptive text
-/
namespace Verif

variable {tx : SchemaTexts} {cat : SchemaCatalog} {cfg : SchemaCfg} {env : Env}

theorem textKeyword_mem {k : Str} {o : Option Str} {kv : Str × Json} (h : kv ∈ textKeyword k o) : kv.1 = k ∧ ∃ s, kv.2 = .str s := by
  unfold textKeyword at h
  split at h
  · cases h
  · split at h
    · cases h
    · rw [List.mem_singleton] at h
      subst h
      exact ⟨rfl, _, rfl⟩

theorem docstringSchema_mem {b : DocBase} {text : Sch} (h : docstringSchema b = .ok text) :
    ∀ kv ∈ text, kv.1 ∈ descriptiveKeywords ∧ ∃ s, kv.2 = .str s := by
  unfold docstringSchema at h
  split at h
  · cases h
  · cases h
    intro kv hkv
    rcases List.mem_append.1 hkv with hkv | hkv <;> obtain ⟨h1, h2⟩ := textKeyword_mem hkv <;> exact ⟨by rw [h1]; decide, h2⟩

theorem withText_ok {t : Ty} {s s' : Sch} (h : withText tx t s = .ok s') :
    tx.useDescriptions = false ∧ s' = s ∨ tx.useDescriptions = true ∧
      ∃ text, docstringSchema (tx.ofType t).toDocBase = .ok text ∧ s' = updateSch s text := by
  unfold withText at h
  split at h
  · rename_i hu
    split at h
    · cases h
    · rename_i text ht
      cases h
      exact Or.inr ⟨hu, text, ht, rfl⟩
  · rename_i hu
    cases h
    exact Or.inl ⟨by simpa using hu, rfl⟩

/-- Equal apart from text, and all text is text if that is so for the schemas that users supply. -/
def StripRel (cat : SchemaCatalog) (s s' : Sch) : Prop :=
  stripKws s' = stripKws s ∧
  ((∀ r e u, cat.get r = .ok e → e.schema = some u → TextArgs u) → TextArgs s ∧ TextArgs s')

theorem TextArgs.cons {k : Str} {a : Json} {s : Sch} (ha : TextArg k a) (hs : TextArgs s) : TextArgs ((k, a) :: s) := by
  intro kv hkv
  rcases List.mem_cons.1 hkv with rfl | h
  · exact ha
  · exact hs kv h

theorem textArg_sub {k : Str} {K : MetaKind} {a : Json} (hk : k ∉ descriptiveKeywords) (hK : lookupKey k metaKeywords = some K)
    (h : ∀ j, SubSchema K a j → TextOk j) : TextArg k a := by
  refine ⟨fun h' => absurd h' hk, ?_⟩
  intro K' j hK' hj
  rw [hK] at hK'
  cases hK'
  exact h j hj

theorem schemaKeys_spec {k : Str} (h : k ∈ schemaKeys) : k ∉ descriptiveKeywords ∧ lookupKey k metaKeywords = some .schema := by
  refine schemaKind_of ?_
  simp only [schemaKeys, List.mem_cons, List.not_mem_nil, or_false] at h ⊢
  rcases h with h | h <;> simp [h]

/-- A keyword with related arguments. -/
theorem StripRel.cons {k : Str} {a a' : Json} {s s' : Sch} (hk : k ∉ descriptiveKeywords) (h : stripOf k a' = stripOf k a)
    (ht : (∀ r e u, cat.get r = .ok e → e.schema = some u → TextArgs u) → TextArg k a ∧ TextArg k a') (hs : StripRel cat s s') :
    StripRel cat ((k, a) :: s) ((k, a') :: s') := by
  refine ⟨?_, fun hu => ⟨.cons (ht hu).1 (hs.2 hu).1, .cons (ht hu).2 (hs.2 hu).2⟩⟩
  rw [stripKws_cons hk, stripKws_cons hk, h, hs.1]

theorem stripRel_text : TextRel tx cat (StripRel cat) where
  nil := ⟨rfl, fun _ => ⟨fun kv h => (by cases h), fun kv h => (by cases h)⟩⟩
  fixed hf hs := hs.cons hf.1 rfl fun _ => ⟨hf.2.2, hf.2.2⟩
  upsert hf hs := by
    refine ⟨?_, fun hu => ⟨(hs.2 hu).1.upsert hf.2.2, (hs.2 hu).2.upsert hf.2.2⟩⟩
    rw [stripKws_upsert hf.1, stripKws_upsert hf.1, hs.1]
  schema {k u u' s s'} hk hu hs := by
    obtain ⟨h1, h2⟩ := schemaKeys_spec hk
    refine hs.cons h1 ?_ fun h => ⟨textArg_sub h1 h2 ?_, textArg_sub h1 h2 ?_⟩
    · rw [stripOf, stripOf, h2, stripArg_schema, stripArg_schema, stripText_obj, stripText_obj, hu.1]
    · intro j hj; cases hj; exact (hu.2 h).1.text
    · intro j hj; cases hj; exact (hu.2 h).2.text
  schemas {k us us' s s'} hk hu hs := by
    obtain ⟨h1, h2⟩ := schemasKind_of hk
    refine hs.cons h1 ?_ fun h => ⟨textArg_sub h1 h2 ?_, textArg_sub h1 h2 ?_⟩
    · rw [stripOf, stripOf, h2, stripArg_schemas, stripArg_schemas, List.map_map, List.map_map]
      congr 1
      clear hs
      induction hu with
      | nil => rfl
      | cons h _ ih =>
        rw [List.map_cons, List.map_cons, ih]
        simp only [Function.comp, stripText_obj, h.1]
    · intro j hj
      cases hj with
      | item hj =>
        obtain ⟨x, hx, rfl⟩ := List.mem_map.1 hj
        obtain ⟨y, -, hy⟩ := hu.mem_left hx
        exact (hy.2 h).1.text
    · intro j hj
      cases hj with
      | item hj =>
        obtain ⟨x, hx, rfl⟩ := List.mem_map.1 hj
        obtain ⟨y, -, hy⟩ := hu.mem_right hx
        exact (hy.2 h).2.text
  props {ps ps' s s'} hu hs := by
    obtain ⟨h1, h2⟩ := properties_kind
    refine hs.cons h1 ?_ fun h => ⟨textArg_sub h1 h2 ?_, textArg_sub h1 h2 ?_⟩
    · rw [stripOf, stripOf, h2, stripArg_schemaMap, stripArg_schemaMap]
      congr 1
      clear hs
      induction hu with
      | nil => rfl
      | @cons p p' ps ps' h _ ih =>
        obtain ⟨h3, u, u', h4, h5, h6⟩ := h
        rw [List.map_cons, List.map_cons, ih, h3, h4, h5, stripText_obj, stripText_obj, h6.1]
    · intro j hj
      cases hj with
      | member hj =>
        obtain ⟨y, -, -, u, u', h4, h5, h6⟩ := hu.mem_left hj
        dsimp only at h4
        subst h4
        exact (h6.2 h).1.text
    · intro j hj
      cases hj with
      | member hj =>
        obtain ⟨y, -, -, u, u', h4, h5, h6⟩ := hu.mem_right hj
        dsimp only at h5
        subst h5
        exact (h6.2 h).2.text
  text {t s s' s''} ht hs := by
    rcases withText_ok ht with ⟨-, rfl⟩ | ⟨-, text, h1, rfl⟩
    · exact hs
    · have hm := docstringSchema_mem h1
      refine ⟨?_, fun hu => ⟨(hs.2 hu).1, (hs.2 hu).2.update ?_⟩⟩
      · rw [stripKws_addText _ _ fun kv h => (hm kv h).1, hs.1]
      · rintro ⟨k, a⟩ hkv
        obtain ⟨x, hx⟩ := (hm _ hkv).2
        dsimp only at hx
        subst hx
        exact textArg_str _ _
  propDoc {t docs n s s'} _ hs := by
    unfold withPropDoc
    split
    · exact hs
    · split
      · exact hs
      · refine ⟨?_, fun hu => ⟨(hs.2 hu).1, TextArgs.upsert ?_ (textArg_str _ _)⟩⟩
        · rw [stripKws_upsert_text (by decide), popKey, stripKws_pop (by decide), hs.1]
        · intro kv hkv
          exact (hs.2 hu).2 kv (List.mem_filter.1 hkv).1
  user h1 h2 := ⟨rfl, fun hu => ⟨hu _ _ _ h1 h2, hu _ _ _ h1 h2⟩⟩

/-- The documents are related. -/
theorem documentBody_rel {s s' : Sch} {defs defs' : List (Str × Sch)} (hs : StripRel cat s s')
    (hd : All2 (NamedRel (StripRel cat)) defs defs') : StripRel cat (documentBody s defs) (documentBody s' defs') := by
  have h0 : StripRel cat (if defs.isEmpty then [] else [(c!"definitions", .obj (defs.map fun d => (d.1, .obj d.2)))])
      (if defs'.isEmpty then [] else [(c!"definitions", .obj (defs'.map fun d => (d.1, .obj d.2)))]) := by
    have hnil : StripRel cat [] [] := ⟨rfl, fun _ => ⟨fun kv h => (by cases h), fun kv h => (by cases h)⟩⟩
    obtain ⟨h1, h2⟩ := definitions_kind
    have hcons : StripRel cat [(c!"definitions", .obj (defs.map fun d => (d.1, .obj d.2)))]
        [(c!"definitions", .obj (defs'.map fun d => (d.1, .obj d.2)))] := by
      refine hnil.cons h1 ?_ fun h => ⟨textArg_sub h1 h2 ?_, textArg_sub h1 h2 ?_⟩
      · rw [stripOf, stripOf, h2, stripArg_schemaMap, stripArg_schemaMap]
        congr 1
        induction hd with
        | nil => rfl
        | @cons p p' ps ps' h _ ih =>
          obtain ⟨h3, h4⟩ := h
          simp only [List.map_cons] at ih ⊢
          rw [ih, h3, stripText_obj, stripText_obj, h4.1]
      · intro j hj
        cases hj with
        | member hj =>
          obtain ⟨d, hd', he⟩ := List.mem_map.1 hj
          cases he
          obtain ⟨y, -, -, h4⟩ := hd.mem_left hd'
          exact (h4.2 h).1.text
      · intro j hj
        cases hj with
        | member hj =>
          obtain ⟨d, hd', he⟩ := List.mem_map.1 hj
          cases he
          obtain ⟨y, -, -, h4⟩ := hd.mem_right hd'
          exact (h4.2 h).2.text
    cases hd with
    | nil => exact hnil
    | cons _ _ => exact hcons
  unfold documentBody
  refine ⟨?_, fun hu => ⟨(h0.2 hu).1.update (hs.2 hu).1, (h0.2 hu).2.update (hs.2 hu).2⟩⟩
  rw [stripKws_updateSch, stripKws_updateSch, h0.1, hs.1]

/-- Without text, nothing changes. -/
theorem eq_text (h1 : tx.useDescriptions = false) (h2 : ∀ t docs, classPropDocs tx t = .ok docs → docs = []) :
    TextRel tx cat Eq where
  nil := rfl
  fixed _ h := by rw [h]
  upsert _ h := by rw [h]
  schema _ h h' := by rw [h, h']
  schemas {k us us' s s'} _ h h' := by
    subst h'
    have : us = us' := by
      induction h with
      | nil => rfl
      | cons h _ ih => rw [h, ih]
    rw [this]
  props {ps ps' s s'} h h' := by
    subst h'
    have : ps = ps' := by
      induction h with
      | nil => rfl
      | @cons p p' _ _ h _ ih =>
        obtain ⟨k, a⟩ := p
        obtain ⟨k', a'⟩ := p'
        obtain ⟨h3, u, u', h4, h5, h6⟩ := h
        dsimp only at h3 h4 h5
        rw [h3, h4, h5, h6, ih]
    rw [this]
  text h h' := by
    rcases withText_ok h with ⟨-, rfl⟩ | ⟨h3, -⟩
    · exact h'
    · rw [h1] at h3; cases h3
  propDoc h h' := by
    rw [h2 _ _ h]
    exact h'
  user _ _ := rfl

/-! ### References of generated schemas -/

/-- What makes all references plain. -/
structure PlainNames (cfg : SchemaCfg) (env : Env) (cat : SchemaCatalog) : Prop where
  path : cfg.definitionsPath = c!"#/definitions/"
  names : ∀ n, ReferenceName env cat n → '/' ∉ n
  catalog : ∀ r e s, cat.get r = .ok e → e.schema = some s → PlainRefs (.obj s)

theorem PlainNames.ref (h : PlainNames cfg env cat) {n : Str} (hn : ReferenceName env cat n) : PlainRefs (.obj (refSch cfg n)) := by
  intro r hr
  rw [refSch, hasRef_ref] at hr
  exact ⟨n, h.names n hn, by rw [hr, h.path]⟩

theorem plain_closed (h : PlainNames cfg env cat) : ClsClosed cfg env cat (fun s _ => PlainRefs (.obj s)) (fun _ _ => True) where
  plain s hs r hr := absurd hr (not_hasRef hs.plain r)
  ref k t e hk he := by
    refine h.ref (Or.inr (Or.inr (Or.inr ⟨.ty k, e, ?_, rfl⟩)))
    simp [Catalog.get, he]
  list s us hs r hr := hs r ((hasRef_list _ _).1 hr)
  set s us hs r hr := hs r ((hasRef_set _ _).1 hr)
  dict k s us s' hs hd r hr := hs r ((dict_refs hd r).1 hr)
  union ps hs r hr := by
    obtain ⟨s, hs', hr⟩ := (hasRef_union _ _).1 hr
    obtain ⟨p, hp, rfl⟩ := List.mem_map.1 hs'
    exact hs p hp r hr
  tuple n m ps hs r hr := by
    obtain ⟨s, hs', hr⟩ := (hasRef_tuple _ _ _ _).1 hr
    obtain ⟨p, hp, rfl⟩ := List.mem_map.1 hs'
    exact hs p hp r hr
  name k b s us _ hn := by
    unfold nameSchema at hn
    split at hn
    · cases hn
    · rename_i n hk
      split at hn
      · rename_i e he
        cases hn
        refine h.ref (Or.inr (Or.inr (Or.inr ⟨.fwd n, e, ?_, rfl⟩)))
        cases b with
        | true => cases he
        | false => simp only [Bool.false_eq_true, if_false] at he; simp [Catalog.get, he]
      · cases hn
        refine h.ref ?_
        cases k with
        | enum e =>
          simp only [RegKey.typeName] at hk
          split at hk
          · rename_i ed hed; cases hk; exact Or.inr (Or.inl ⟨ed, List.mem_of_getElem? hed, rfl⟩)
          · cases hk
        | cls c =>
          simp only [RegKey.typeName] at hk
          split at hk
          · rename_i cd hcd; cases hk; exact Or.inl ⟨cd, List.mem_of_getElem? hcd, rfl⟩
          · cases hk
  occurs _ _ _ _ _ _ _ _ := trivial
  str cd hcd f hf hs s us hst := by
    unfold strSchema at hst
    split at hst
    · split at hst
      · cases hst
      · rename_i cd hcd; cases hst; exact h.ref (Or.inl ⟨cd, List.mem_of_getElem? hcd, rfl⟩)
    · split at hst
      · cases hst
      · rename_i ed hed; cases hst; exact h.ref (Or.inr (Or.inl ⟨ed, List.mem_of_getElem? hed, rfl⟩))
    all_goals first
      | (cases hst; exact h.ref (Or.inr (Or.inr (Or.inl (by simp)))))
      | cases hst
  dflt j s us _ hs r hr := hs r ((hasRef_upsert (by decide) r).1 hr)
  cls cd _ ps us req _ hs _ r hr := by
    obtain ⟨n, x, hm, hr⟩ := (hasRef_class _ _ _).1 hr
    obtain ⟨s, us', rfl, hp, -⟩ := hs n x hm
    exact hp r hr

/-- All references in the schema and in the definitions are plain. -/
theorem classdef_plain (h : PlainNames cfg env cat) {t : Ty} {s : Sch} {defs : List (Str × Sch)} {force : Bool}
    (hc : classdefSchemas cfg env cat force t = .ok (s, defs)) :
    KeysOk s ∧ PlainRefs (.obj s) ∧ ∀ d ∈ defs, PlainRefs (.obj d.2) := by
  unfold classdefSchemas at hc
  split at hc
  · cases hc
  · rename_i s0 us h1
    split at hc
    · cases hc
    · rename_i defs0 h2
      cases hc
      refine ⟨typeToSchema_rec keys_closed h1, typeToSchema_rec (plain_closed h) h1, ?_⟩
      obtain ⟨used, -, h4, -⟩ := defineLoop_rec (cfg := cfg) (env := env) (cat := cat)
        (P := fun used defined => ∀ d ∈ defined, PlainRefs (.obj d.2))
        (by
          intro n t used defined s' us' _ hp _ hn _ hl d hd
          rcases upsert_mem hd with rfl | hd
          · exact (schemaWithLookup_rec (plain_closed h) h.catalog
              (fun j s us _ hs r hr => hs r ((hasRef_upsert (by decide) r).1 hr)) hl).2
          · exact hp d hd)
        _ _ _ _ ⟨(addUses_spec us []).2.1 (by simp), by simp, by simp⟩ (by simp) h2
      intro d hd
      exact h4 d (mem_sortByName.1 hd)

end Verif
