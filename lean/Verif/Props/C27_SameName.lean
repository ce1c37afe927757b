import Verif.Lemmas.Schema
import Verif.Props.C13_PlainJson
import Verif.Props.C16_C20_Classes
import Verif.Props.C26_Names
/-!
# C27: writer, reader and schema use the same property name for a field

The three code paths agree except in three cases, each with a witness below:
* the name of a field without alias is a keyword with an underscore: the writer and the reader of data classes and other
  classes drop the underscore, the schema does not, and neither does the reader of named tuples;
* a field of a named tuple has an alias: the writer and the schema use it, the reader does not;
* a data class field whose annotation is a string has an alias: the reader uses it, the writer and the schema do not.
-/
namespace Verif

/-- The name that a field has in JSON unless it is a keyword with an underscore: its alias, or else its own name. -/
def plainName (f : FieldDef) : Str := f.ty.alias.getD f.name

/-- A keyword with an underscore. -/
def KeywordName (n : Str) : Prop := ∃ k ∈ pyKeywords, n = k ++ ['_']

/-- When the three code paths agree on the name of a field. -/
inductive NameAgrees (kind : ClassKind) (f : FieldDef) : Prop
  | name : f.ty.alias = none → ¬ KeywordName f.name → NameAgrees kind f
  /-- A data class field with alias and evaluated annotation. -/
  | dataclass {frozen a} : kind = .dataclass frozen → f.ty.alias = some a → f.strAnn = false → NameAgrees kind f
  | plain {a} : kind = .plain → f.ty.alias = some a → NameAgrees kind f
  /-- An alias that is the name of the field. -/
  | sameTuple {typed} : kind = .namedTuple typed → f.ty.alias = some f.name → NameAgrees kind f
  | sameString {frozen} : kind = .dataclass frozen → f.ty.alias = some f.name → ¬ KeywordName f.name → NameAgrees kind f

private theorem plain_prop (n : Str) : fieldToProperty n none = n ↔ ¬ KeywordName n := by
  rw [C26_underscore_iff_keyword]
  constructor
  · rintro (⟨h, _⟩ | ⟨_, h⟩)
    · have := congrArg List.length h
      simp at this
    · rintro ⟨k, hk, he⟩; exact h k hk he
  · intro h
    exact Or.inr ⟨rfl, fun k hk he => h ⟨k, hk, he⟩⟩

/-- C27, for a field: the names used by the writer, the reader and the schema are equal exactly in the cases listed. -/
theorem C27_agree_iff (kind : ClassKind) (f : FieldDef) :
    (writeProp kind f = fieldProp kind f ∧ fieldProp kind f = schemaProp kind f) ↔ NameAgrees kind f := by
  have alias_prop : ∀ a, fieldToProperty f.name (some a) = a := fun a => rfl
  constructor
  · rintro ⟨h1, h2⟩
    cases ha : f.ty.alias with
    | none =>
      refine .name ha ((plain_prop _).1 ?_)
      cases kind with
      | dataclass fr =>
        simp only [fieldProp, schemaProp, strField, ha, Option.getD_none, ite_self] at h2
        exact h2
      | namedTuple ty => simp only [writeProp, fieldProp, ha] at h1; exact h1
      | plain =>
        simp only [fieldProp, schemaProp, strField, ha, Option.getD_none, ite_self] at h2
        exact h2
    | some a =>
      cases kind with
      | dataclass fr =>
        cases hs : f.strAnn with
        | false => exact .dataclass rfl ha hs
        | true =>
          simp only [writeProp, fieldProp, schemaProp, strField, ha, hs, if_true, alias_prop] at h1 h2
          subst h2
          exact .sameString rfl ha ((plain_prop _).1 h1)
      | namedTuple ty =>
        simp only [writeProp, fieldProp, ha, alias_prop] at h1
        subst h1
        exact .sameTuple rfl ha
      | plain => exact .plain rfl ha
  · intro h
    cases h with
    | name ha hn =>
      have hn := (plain_prop _).2 hn
      cases kind <;> simp [writeProp, fieldProp, schemaProp, strField, ha, hn]
    | dataclass hk ha hs => subst hk; simp [writeProp, fieldProp, schemaProp, strField, ha, hs, alias_prop]
    | plain hk ha => subst hk; simp [writeProp, fieldProp, schemaProp, strField, ha, alias_prop]
    | sameTuple hk ha => subst hk; simp [writeProp, fieldProp, schemaProp, strField, ha, alias_prop]
    | sameString hk ha hn =>
      have hn := (plain_prop _).2 hn
      subst hk
      cases hs : f.strAnn <;> simp [writeProp, fieldProp, schemaProp, strField, ha, hs, alias_prop, hn]

private theorem names_plain {kind : ClassKind} {f : FieldDef} (h : NameAgrees kind f) :
    writeProp kind f = plainName f ∧ fieldProp kind f = plainName f ∧ schemaProp kind f = plainName f := by
  obtain ⟨h1, h2⟩ := (C27_agree_iff kind f).2 h
  have h3 : schemaProp kind f = plainName f := by
    unfold schemaProp plainName
    cases h with
    | name ha _ => simp [ha]
    | dataclass hk ha hs => subst hk; simp [ha, strField, hs]
    | plain hk ha => subst hk; simp [ha, strField]
    | sameTuple hk ha => subst hk; simp [ha, strField]
    | sameString hk ha _ => simp [ha]
  exact ⟨h1.trans (h2.trans h3), h2.trans h3, h3⟩

/-- C27, as seen from outside, for a class whose fields are of the kinds on which the code paths agree: the objects written
hold the JSON of an attribute under the name `p` of the field, and nothing else; the reader takes the field from property
`p`; and the schema lists exactly these names.  Missing: the other kinds of fields, for which it is not true. -/
theorem C27_same_name_partial (env : Env) (hk : env.Ok) (c : Nat) (cd : ClassDef) (hr : Readable env c cd)
    (hf : cd.toJson = none) (hkind : cd.kind ≠ .namedTuple false) (hne : cd.fields ≠ [])
    (ha : ∀ f ∈ cd.fields, NameAgrees cd.kind f) (hp : (cd.fields.map plainName).Nodup) :
    (∀ fs j, HasTy env (.obj c fs) (.cls c) → objectToJson env (.obj c fs) = .ok j → ∃ ps, j = .obj ps ∧
      (∀ f ∈ cd.fields, ∀ w, lookupKey f.name fs = some w →
        (w = .none ∧ lookupKey (plainName f) ps = none) ∨
        (w ≠ .none ∧ ∃ x, objectToJson env w = .ok x ∧ lookupKey (plainName f) ps = some x)) ∧
      ∀ p ∈ ps, ∃ f ∈ cd.fields, plainName f = p.1) ∧
    (∀ skip kvs v, loads env skip (.cls c) (.obj kvs) = .ok v → ∃ vs, v = .obj c vs ∧
      ∀ f ∈ cd.fields, ∃ w, (f.name, w) ∈ vs ∧
        (∀ x, Present kvs (plainName f) x → loads env skip (fieldTy cd.kind f) x = .ok w) ∧
        ((∀ x, ¬ Present kvs (plainName f) x) → absentValue cd.kind f = some w)) ∧
    (∀ cfg cat s us, typeToSchema cfg env cat true (.cls c) = .ok (s, us) → ∃ ps, lookupKey c!"properties" s = some (.obj ps) ∧
      ∀ p, p ∈ ps.map Prod.fst ↔ ∃ f ∈ cd.fields, plainName f = p) := by
  have hhints : cd.hints = cd.fields := by
    unfold ClassDef.hints; split
    · rename_i hk'; exact absurd hk' hkind
    · rfl
  have hw : cd.fields.map (writeProp cd.kind) = cd.fields.map plainName :=
    List.map_congr_left fun f hf => (names_plain (ha f hf)).1
  refine ⟨?_, ?_, ?_⟩
  · intro fs j hty h
    obtain ⟨ps, rfl, h1, h2⟩ := C13_complete env hk c cd fs j hr.cls hf hkind hne (hw ▸ hp) hty h
    refine ⟨ps, rfl, ?_, ?_⟩
    · intro f hf w hl
      have := h1 f hf w hl
      rwa [(names_plain (ha f hf)).1] at this
    · intro p hp
      obtain ⟨f, hf, he⟩ := h2 p hp
      exact ⟨f, hf, (names_plain (ha f hf)).1 ▸ he⟩
  · intro skip kvs v h
    obtain ⟨vs, rfl, _, h2⟩ := C20_fields env hk skip c cd hr kvs v h
    refine ⟨vs, rfl, ?_⟩
    intro f hf
    have := h2 f (hhints ▸ hf)
    rwa [(names_plain (ha f hf)).2.1] at this
  · intro cfg cat s us h
    have h : clsSchema cfg env cat env.classes.length c = .ok (s, us) := h
    obtain ⟨n, hn⟩ : ∃ n, env.classes.length = n + 1 := by
      have := (List.getElem?_eq_some_iff.1 hr.cls).1
      exact ⟨env.classes.length - 1, by omega⟩
    rw [hn] at h
    obtain ⟨ps, h1, rfl⟩ := clsSchema_ok hr.cls h
    rw [hhints] at h1
    obtain ⟨_, h3, _, _, _⟩ := propSchemas_ok h1
    have h4 : ∀ p, p ∈ ps.map Prod.fst ↔ ∃ f ∈ cd.fields, plainName f = p := by
      intro p
      have h5 := h3 p
      rw [show lookupKey p ([] : List (Str × Json)) = none from rfl] at h5
      constructor
      · intro hp
        have : (lookupKey p ps).isSome := by
          cases hl : lookupKey p ps with
          | some x => rfl
          | none => exact absurd hp (lookupKey_none_iff'.1 hl)
        rcases h5.1 this with h | ⟨f, hf, he⟩
        · cases h
        · exact ⟨f, hf, (names_plain (ha f hf)).2.2 ▸ he⟩
      · rintro ⟨f, hf, rfl⟩
        have := h5.2 (Or.inr ⟨f, hf, (names_plain (ha f hf)).2.2⟩)
        refine Classical.byContradiction fun hc => ?_
        rw [lookupKey_none_iff'.2 hc] at this
        cases this
    refine ⟨ps, classSchema_properties ps _ ?_, h4⟩
    rintro rfl
    obtain ⟨f, hf⟩ := List.exists_mem_of_ne_nil _ hne
    exact absurd ((h4 _).2 ⟨f, hf, rfl⟩) (by simp)

/-! ### Disagreements -/

/-- A program with one class. -/
def oneClass (kind : ClassKind) (f : FieldDef) : Env :=
  { enums := [], classes := [{ module := c!"m", name := c!"C", kind, fields := [f] }], setOrder := id }

/-- C27 does not hold for a field called `from_`: it is written and read as `from`, but the schema requires `from_`. -/
theorem C27_keyword_fails (cfg : SchemaCfg) (i : Int) :
    let env := oneClass (.dataclass false) { name := c!"from_", ty := .int }
    objectToJson env (.obj 0 [(c!"from_", .int i)]) = .ok (.obj [(c!"from", .int i)]) ∧
    loads env false (.cls 0) (.obj [(c!"from", .int i)]) = .ok (.obj 0 [(c!"from_", .int i)]) ∧
    typeToSchema cfg env Catalog.empty true (.cls 0) = .ok ([(c!"type", .str c!"object"),
      (c!"properties", .obj [(c!"from_", .obj [(c!"type", .str c!"integer")])]), (c!"additionalProperties", .bool false),
      (c!"required", .arr [.str c!"from_"])], []) :=
  ⟨rfl, rfl, rfl⟩

/-- C27 does not hold for a field of a named tuple with an alias: it is written and listed under its alias, but the reader
looks for its name. -/
theorem C27_tuple_alias_fails (cfg : SchemaCfg) (i : Int) :
    let env := oneClass (.namedTuple true) { name := c!"a", ty := .annotated .int [.alias c!"b"] }
    objectToJson env (.obj 0 [(c!"a", .int i)]) = .ok (.obj [(c!"b", .int i)]) ∧
    loads env false (.cls 0) (.obj [(c!"b", .int i)]) = .error .jsonKey ∧
    typeToSchema cfg env Catalog.empty true (.cls 0) = .ok ([(c!"type", .str c!"object"),
      (c!"properties", .obj [(c!"b", .obj [(c!"type", .str c!"integer")])]), (c!"additionalProperties", .bool false),
      (c!"required", .arr [.str c!"b"])], []) :=
  ⟨rfl, rfl, rfl⟩

/-- C27 does not hold for a data class field with an alias in an annotation that is a string: it is written under its name,
but the reader looks for the alias. -/
theorem C27_string_alias_fails (i : Int) :
    let env := oneClass (.dataclass false) { name := c!"a", ty := .annotated .int [.alias c!"b"], strAnn := true }
    objectToJson env (.obj 0 [(c!"a", .int i)]) = .ok (.obj [(c!"a", .int i)]) ∧
    loads env false (.cls 0) (.obj [(c!"a", .int i)]) = .error .jsonKey :=
  ⟨rfl, rfl⟩

/-! ### The hypotheses are met -/

/-- A class with an alias and an optional field. -/
def c27Class : ClassDef :=
  { module := c!"m", name := c!"C", kind := .dataclass false,
    fields := [{ name := c!"in_", ty := .annotated .int [.alias c!"input"] }, { name := c!"b", ty := .union [.str, .none] }] }

example : (⟨[], [c27Class], id⟩ : Env).Ok ∧ Readable ⟨[], [c27Class], id⟩ 0 c27Class :=
  ⟨⟨by simp, by simp, by simp [c27Class], fun _ => .refl _⟩, rfl, rfl, by simp [c27Class], by
    intro f hf
    simp only [c27Class, ClassDef.hints, List.mem_cons, List.not_mem_nil, or_false] at hf
    rcases hf with rfl | rfl <;> exact ⟨_, rfl⟩⟩

example : (∀ f ∈ c27Class.fields, NameAgrees c27Class.kind f) ∧ (c27Class.fields.map plainName).Nodup := by
  refine ⟨?_, by decide⟩
  intro f hf
  simp only [c27Class, List.mem_cons, List.not_mem_nil, or_false] at hf
  rcases hf with rfl | rfl
  · exact .dataclass rfl rfl rfl
  · exact .name rfl (by rintro ⟨k, hk, he⟩; revert he; revert k; decide +kernel)

end Verif
