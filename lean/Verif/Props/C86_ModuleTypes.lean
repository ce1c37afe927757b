import Verif.Lemmas.ModuleTypes
import Verif.Props.C53_SchemaTypes
/-!
# C86: what `schema_to_type` does to the module
-/
namespace Verif

/-- C86 in part: classes and enumerations that exist keep all that they are, and so do the classes of the library.  What is made is of
the module, and has the name of the class, of a definition, or one joined to it by `__`.  Missing: modules with classes of other
modules in them and definitions of types of the library, for which the statement is violated (see below). -/
theorem C86_kept_partial (cfg : BuildCfg) (name : Str) (schema : Json) (hw : schema.Wf) (hl : NoLibraryFormats schema)
    (st st' : BuildSt) (ho : OwnTypes cfg.modName st.env st.attrs) (t : Ty) (h : schemaToType cfg name schema st = .ok (t, st')) :
    st.env.classes <+: st'.env.classes ∧ st.env.enums <+: st'.env.enums ∧ st'.patched = st.patched ∧
      (∀ c cd, st.env.classes.length ≤ c → st'.env.classes[c]? = some cd → cd.module = cfg.modName ∧ NameFor name schema cd.name) ∧
      ∀ e ed, st.env.enums.length ≤ e → st'.env.enums[e]? = some ed → ed.module = cfg.modName ∧ NameFor name schema ed.name := by
  obtain ⟨hb, hp, -, -⟩ := schemaToType_enlarges hw hl ho h
  obtain ⟨cs, h1, h2⟩ := hb.classes
  obtain ⟨es, h3, h4⟩ := hb.enums
  refine ⟨⟨cs, h1.symm⟩, ⟨es, h3.symm⟩, hp, fun c cd hc hcd => ?_, fun e ed he hed => ?_⟩
  · rw [h1, List.getElem?_append_right hc] at hcd
    exact h2 cd (List.mem_of_getElem? hcd)
  · rw [h3, List.getElem?_append_right he] at hed
    exact h4 ed (List.mem_of_getElem? hed)

/-- C86 in part: attributes of the module with other names are not changed.  Missing: as in `C86_kept_partial`. -/
theorem C86_attributes_partial (cfg : BuildCfg) (name : Str) (schema : Json) (hw : schema.Wf) (hl : NoLibraryFormats schema)
    (st st' : BuildSt) (ho : OwnTypes cfg.modName st.env st.attrs) (t : Ty) (h : schemaToType cfg name schema st = .ok (t, st'))
    (n : Str) (hn : ¬ NameFor name schema n) : lookupKey n st'.attrs = lookupKey n st.attrs := by
  obtain ⟨hk, hk', -, hc, he⟩ := C86_kept_partial cfg name schema hw hl st st' ho t h
  obtain ⟨hb, -, -, -⟩ := schemaToType_enlarges hw hl ho h
  rcases hb.attrs n (by rintro ⟨x, hx, rfl, -⟩; exact hn (.inr ⟨x, hx, .inl rfl⟩)) with g | ⟨T, -, g⟩
  · exact g
  · cases g with
    | cls g1 g2 g3 g4 => exact absurd (g3 ▸ (hc _ _ g1 g2).2) hn
    | enum g1 g2 g3 g4 => exact absurd (g3 ▸ (he _ _ g1 g2).2) hn

/-- C86 in part: the class that is returned is new, has the given name, and is found under it in the module.  A class or enumeration
that was made is found under its name, if no other was made with the same name, and the name is not that of a definition
of something other than an object.  Missing: as in `C86_kept_partial`, and types made with the same name (see below). -/
theorem C86_found_partial (cfg : BuildCfg) (name : Str) (schema : Json) (hw : schema.Wf) (hl : NoLibraryFormats schema)
    (st st' : BuildSt) (ho : OwnTypes cfg.modName st.env st.attrs) (t : Ty) (h : schemaToType cfg name schema st = .ok (t, st')) :
    (NewType cfg.modName st.env st'.env name t ∧ lookupKey name st'.attrs = some t) ∧
      ∀ n T, NewType cfg.modName st.env st'.env n T → (∀ T', NewType cfg.modName st.env st'.env n T' → T' = T) →
        (∀ x ∈ schemaDefs schema, x.1 = n → ObjectSchema x.2) → lookupKey n st'.attrs = some T := by
  obtain ⟨hb, -, h1, h2⟩ := schemaToType_enlarges hw hl ho h
  refine ⟨⟨h1, h2⟩, fun n T hT hu hd => ?_⟩
  obtain ⟨T', g1, g2⟩ := hb.found n (by rintro ⟨x, hx, hxn, hnx⟩; exact hnx (hd x hx hxn)) T hT
  rw [g1, hu T' g2]


/-! ### The full statement -/

/-- Types are only added to the program, and to the module under names for them, where each of them is found. -/
def C86_statement (cfg : BuildCfg) : Prop :=
  ∀ name schema st st' t, schema.Wf → schemaToType cfg name schema st = .ok (t, st') →
    (st.env.classes <+: st'.env.classes ∧ st.env.enums <+: st'.env.enums ∧ st'.patched = st.patched) ∧
    (∀ n, ¬ NameFor name schema n → lookupKey n st'.attrs = lookupKey n st.attrs) ∧
    ∀ n T, NewType cfg.modName st.env st'.env n T → lookupKey n st'.attrs = some T

/-- A program with a class `C` of another module, which is imported into the module. -/
def importedSt : BuildSt where
  env := { enums := [], classes := [{ module := c!"other", name := c!"C", kind := .dataclass false, fields := [] }], setOrder := id }
  attrs := [(c!"C", .cls 0)]

/-- A definition that refers to an imported class makes it a class of this module. -/
theorem C86_import_fails : ∃ schema t st, schema.Wf ∧ NoLibraryFormats schema ∧
    schemaToType cfg53 c!"A" schema importedSt = .ok (t, st) ∧ (importedSt.env.classes[0]?).map (·.module) = some c!"other" ∧
    (st.env.classes[0]?).map (·.module) = some c!"m" := by
  refine ⟨topSchema [(c!"d", refTo c!"D")] [c!"d"] [(c!"D", refTo c!"C")], _, _, wf_of (by decide +kernel), ?_,
    by with_unfolding_all rfl, rfl, rfl⟩
  intro x hx kvs hk f t hf
  have := everyObject_within (p := fun kvs => (lookupKey c!"format" kvs).isNone)
    (Json.Within.trans hk (y := x.2) (z := .obj (schemaDefs (topSchema [(c!"d", refTo c!"D")] [c!"d"] [(c!"D", refTo c!"C")])))
      (.obj hx .self)) (by decide +kernel)
  intro h
  rw [h] at this
  cases this

/-- A definition of UUIDs makes `uuid.UUID` a class of the module. -/
theorem C86_library_fails : ∃ schema t st, schema.Wf ∧
    schemaToType cfg53 c!"A" schema ⟨⟨[], [], id⟩, [], []⟩ = .ok (t, st) ∧ st.patched = [.uuid] :=
  ⟨topSchema [(c!"d", refTo c!"Id")] [c!"d"] [(c!"Id", .obj [(c!"type", .str c!"string"), (c!"format", .str c!"uuid")])], _, _,
    wf_of (by decide +kernel), by with_unfolding_all rfl, rfl⟩

/-- A property with a choice of two objects. -/
def choiceSchema : Json :=
  topSchema [(c!"u", .obj [(c!"oneOf", .arr [.obj (objSchema [(c!"a", typed c!"integer")] [c!"a"]),
    .obj (objSchema [(c!"b", typed c!"integer")] [c!"b"])])])] [c!"u"] []

/-- Classes for the members of a choice have the same name, and only the last is found in the module.  (Readers of classes with the
same name are mixed up, see C28.) -/
theorem C86_choice_fails : choiceSchema.Wf ∧ NoLibraryFormats choiceSchema ∧
    ∃ t st, schemaToType cfg53 c!"A" choiceSchema ⟨⟨[], [], id⟩, [], []⟩ = .ok (t, st) ∧
      NewType c!"m" ⟨[], [], id⟩ st.env c!"A__u" (.cls 0) ∧ NewType c!"m" ⟨[], [], id⟩ st.env c!"A__u" (.cls 1) ∧
      lookupKey c!"A__u" st.attrs = some (.cls 1) :=
  ⟨wf_of (by decide +kernel), (fun x hx => by have hx : x ∈ ([] : List (Str × Json)) := hx; cases hx), _, _, by with_unfolding_all rfl, .cls (Nat.zero_le _) rfl rfl rfl,
    .cls (Nat.zero_le _) rfl rfl rfl, rfl⟩

/-- A definition with a name like that of the class for a property. -/
def joinedSchema : Json :=
  topSchema [(c!"p", .obj (objSchema [(c!"x", typed c!"integer")] [c!"x"])), (c!"q", refTo c!"A__p")] [c!"q"]
    [(c!"A__p", .obj (objSchema [(c!"y", typed c!"integer")] [c!"y"]))]

/-- A definition with a name that is also joined for a property is replaced in the module; a reference to it that follows is to the
class of the property. -/
theorem C86_joined_fails : joinedSchema.Wf ∧ ∃ c st cd f, schemaToType cfg53 c!"A" joinedSchema ⟨⟨[], [], id⟩, [], []⟩ = .ok (.cls c, st) ∧
    NewType c!"m" ⟨[], [], id⟩ st.env c!"A__p" (.cls 0) ∧ (st.env.classes[0]?).map (·.fields.map (·.name)) = some [c!"y"] ∧
    lookupKey c!"A__p" st.attrs = some (.cls 1) ∧ (st.env.classes[1]?).map (·.fields.map (·.name)) = some [c!"x"] ∧
    st.env.classes[c]? = some cd ∧ f ∈ cd.fields ∧ f.name = c!"q" ∧ f.ty = .cls 1 :=
  ⟨wf_of (by decide +kernel), 2, _, _, { name := c!"q", ty := .cls 1 }, by with_unfolding_all rfl,
    .cls (Nat.zero_le _) rfl rfl rfl, rfl, rfl, rfl, rfl, .tail _ (.head _), rfl, rfl⟩

/-- The full statement fails. -/
theorem C86_violated : ¬ C86_statement cfg53 := by
  intro h
  obtain ⟨hw, -, t, st, h1, h2, -, h4⟩ := C86_choice_fails
  have := (h _ _ _ _ _ hw h1).2.2 _ _ h2
  rw [h4] at this
  cases this

/-! ### A concrete case -/

/-- A module with a class of its own. -/
def ownSt : BuildSt where
  env := { enums := [], classes := [{ module := c!"m", name := c!"Old", kind := .dataclass false, fields := [] }], setOrder := id }
  attrs := [(c!"Old", .cls 0)]

/-- Types for shapes are made in this module: `Old` is still there, and the classes that are made are found. -/
example : ∃ t st, schemaToType cfg53 c!"Shape" shapeSchema ownSt = .ok (t, st) ∧ lookupKey c!"Old" st.attrs = some (.cls 0) ∧
    st.env.classes[0]? = ownSt.env.classes[0]? ∧ lookupKey c!"Shape" st.attrs = some t ∧
    ∃ T, NewType c!"m" ownSt.env st.env c!"Square" T ∧ lookupKey c!"Square" st.attrs = some T := by
  have h : ∃ t st, schemaToType cfg53 c!"Shape" shapeSchema ownSt = .ok (t, st) ∧
      st.env.classes.map (·.name) = [c!"Old", c!"Circle", c!"Square", c!"Shape"] ∧ st.env.enums.map (·.name) = [c!"Color"] :=
    ⟨_, _, by with_unfolding_all rfl, rfl, rfl⟩
  obtain ⟨t, st, h, hcs, hes⟩ := h
  have hl : NoLibraryFormats shapeSchema := by
    intro x hx kvs hk f t hf hl
    have := everyObject_within (p := fun kvs => (lookupKey c!"format" kvs).isNone)
      (Json.Within.trans hk (y := x.2) (z := .obj (schemaDefs shapeSchema)) (.obj hx .self)) (by decide +kernel)
    rw [hl] at this
    cases this
  have ho : OwnTypes cfg53.modName ownSt.env ownSt.attrs := by
    intro n t hn hf
    simp only [ownSt, lookupKey] at hn
    split at hn
    · cases hn
      cases hf with
      | cls hc => exact hc _ rfl rfl
      | library hm => simp [libraryTypes] at hm
    · cases hn
  have hname : ∀ n, n ∈ [c!"Old"] → ¬ NameFor c!"Shape" shapeSchema n := by
    intro n hn
    simp only [List.mem_singleton] at hn
    subst hn
    rintro ((h | h) | ⟨x, hx, h⟩)
    · cases h
    · exact absurd h (by decide)
    · have hx' : x.1 ∈ [c!"Circle", c!"Color", c!"Square"] := List.mem_map.2 ⟨x, hx, rfl⟩
      simp only [List.mem_cons, List.not_mem_nil, or_false] at hx'
      unfold NamedAfter at h
      rcases hx' with h' | h' | h' <;> rw [h'] at h <;> exact absurd h (by decide)
  obtain ⟨⟨h1, h2⟩, h3⟩ := C86_found_partial cfg53 c!"Shape" shapeSchema shape_wf.1 hl ownSt st ho t h
  obtain ⟨k1, k2, k3, k4, k5⟩ := C86_kept_partial cfg53 c!"Shape" shapeSchema shape_wf.1 hl ownSt st ho t h
  have hat := C86_attributes_partial cfg53 c!"Shape" shapeSchema shape_wf.1 hl ownSt st ho t h c!"Old" (hname _ (by simp))
  have hget : ∀ i : Nat, (st.env.classes[i]?).map (·.name) = [c!"Old", c!"Circle", c!"Square", c!"Shape"][i]? := by
    intro i; rw [← List.getElem?_map, hcs]
  have hgete : ∀ i : Nat, (st.env.enums[i]?).map (·.name) = [c!"Color"][i]? := by
    intro i; rw [← List.getElem?_map, hes]
  obtain ⟨cd, hcd, hcn⟩ : ∃ cd, st.env.classes[2]? = some cd ∧ cd.name = c!"Square" := by
    have := hget 2
    cases hc : st.env.classes[2]? with
    | none => rw [hc] at this; cases this
    | some cd => rw [hc] at this; exact ⟨cd, rfl, Option.some.inj this⟩
  have hnew : NewType c!"m" ownSt.env st.env c!"Square" (.cls 2) := .cls (by decide) hcd hcn (k4 2 cd (by decide) hcd).1
  refine ⟨t, st, h, hat, ?_, h2, .cls 2, hnew, h3 _ _ hnew ?_ ?_⟩
  · obtain ⟨r, hr⟩ := k1
    rw [← hr]; rfl
  · intro T' hT
    cases hT with
    | @cls i cd' g1 g2 g3 g4 =>
      have := hget i
      rw [g2, Option.map_some, g3] at this
      match i, this with
      | 0, h => cases h
      | 1, h => cases h
      | 2, _ => rfl
      | 3, h => cases h
      | n + 4, h => cases h
    | @enum i cd' g1 g2 g3 g4 =>
      have := hgete i
      rw [g2, Option.map_some, g3] at this
      match i, this with
      | 0, h => cases h
      | n + 1, h => cases h
  · intro x hx hn
    simp only [shapeSchema, topSchema, schemaDefs] at hx
    rw [show lookupKey c!"definitions" _ = some (Json.obj _) from rfl] at hx
    simp only [List.mem_cons, List.not_mem_nil, or_false] at hx
    rcases hx with rfl | rfl | rfl
    · cases hn
    · cases hn
    · exact ⟨rfl, rfl, rfl⟩

end Verif
