import Verif.Lemmas.ClassBuildValid
import Verif.Lemmas.ClassBuildNames
/-!
# C53: types made from a schema read what the schema permits
-/
namespace Verif

/-- The full statement: whatever is valid for the schema is read by the type that is made from the schema. -/
def C53_statement (cfg : BuildCfg) (vc : ValidatorCfg) : Prop :=
  ∀ name schema env t st, schema.Wf → schemaToType cfg name schema ⟨env, [], []⟩ = .ok (t, st) →
    ∀ j, j.Wf → Validates vc schema schema j → ∃ v, loads st.env false t j = .ok v

/-- C53 in part: valid data is read, for schemas whose names do not clash and types whose unions are read dependably, and data
without floats in place of integers.  Missing: definitions that refer to themselves or whose names extend each other by `__`,
enumerations with values that look alike, properties named like a keyword with an underscore, unions with members that raise
errors other than `JsonKeyError` and `JsonTypeError`; these are violated in general, see below. -/
theorem C53_partial (cfg : BuildCfg) (vc : ValidatorCfg) (hf : FormatsRead vc) (name : Str) (schema : Json) (env : Env) (t : Ty)
    (st : BuildSt) (hw : schema.Wf) (hs : SchemaSafe cfg.word name schema)
    (h : schemaToType cfg name schema ⟨env, [], []⟩ = .ok (t, st)) (hk : st.env.Ok) (hp : Plain st.env t) (j : Json) (hj : j.Wf)
    (hi : SmallInts j) (hfi : ¬ FloatForInt st.env t j) (hv : Validates vc schema schema j) :
    ∃ v, loads st.env false t j = .ok v := by
  unfold schemaToType at h
  split at h
  · cases h
  rename_i top htop
  split at h
  · cases h
  rename_i st1 hst1
  split at h
  · cases h
  rename_i d st2 hd
  cases h
  obtain ⟨hden, kvs, rfl, hdefs⟩ := readTop_denotes hw htop
  have hnd : ((schemaDefs (.obj kvs)).map (·.1)).Nodup := by
    unfold schemaDefs
    simp only
    split
    · rename_i ds hds
      cases hw with
      | obj _ hwk =>
        have := hwk _ (lookupKey_some_mem hds)
        cases this with
        | obj hnd _ => exact hnd
    · simp
  have hin : ∀ x ∈ schemaDefs (.obj kvs), x.2.Within (.obj kvs) := by
    intro x hx
    unfold schemaDefs at hx
    simp only at hx
    split at hx
    · rename_i ds hds
      exact Json.Within.trans (.obj hx .self) (within_lookup hds)
    · cases hx
  have hdd : ∃ xs, DenotesD (top.definitions.getD []) xs ∧ (xs = [] ∨ xs = schemaDefs (.obj kvs)) := by
    cases htd : top.definitions with
    | none => exact ⟨[], trivial, .inl rfl⟩
    | some ds =>
      obtain ⟨xs, hx, hdx⟩ := hdefs ds htd
      exact ⟨xs, by simpa using hdx, .inr (by simp [schemaDefs, hx])⟩
  obtain ⟨xs, hdx, hxs⟩ := hdd
  have hsub : ∀ x ∈ xs, x ∈ schemaDefs (.obj kvs) := by
    rcases hxs with rfl | rfl
    · intro x hx; cases hx
    · exact fun x hx => hx
  obtain ⟨F, -, hattrs, -, hF⟩ := definitions_ok (names := (schemaDefs (.obj kvs)).map (·.1)) hs.lines (top.definitions.getD [])
    xs ⟨env, [], []⟩ st1 [] hdx
    (fun x hx kws hkw => ⟨fun _ => hs.self x (hsub x hx) kws hkw,
      fun vs he => hs.enums kws vs (hkw.trans (hin x (hsub x hx))) he⟩)
    (fun x hx => hs.apart x.1 (List.mem_cons_of_mem _ (List.mem_map.2 ⟨x, hsub x hx, rfl⟩)))
    (by
      rcases hxs with rfl | rfl
      · simp
      · exact hnd)
    (fun _ _ => rfl) (fun _ k T hkT => by cases hkT) hst1
  obtain ⟨hgrow, -, -, htype⟩ := node_ok (F := F) hs.lines (hs.apart name (by simp)) top.node (.obj kvs) name st1 d st hden
    (fun kws hkw => ⟨fun hm => absurd hm hs.top, fun vs he => hs.enums kws vs hkw he⟩) (.inl rfl) (hattrs name) hd
  have hS : Setting vc (.obj kvs) st.env ((schemaDefs (.obj kvs)).map (·.1)) F := by
    refine ⟨hk, hf, fun k s hl => List.mem_map.2 ⟨_, lookupKey_some_mem hl, rfl⟩, fun k T s hl hls => ?_⟩
    rcases hF k T hl with h' | ⟨n, s', hm, hdn, ht⟩
    · cases h'
    · have : s' = s := Option.some.inj ((lookupKey_of_mem hnd (hsub _ hm)).symm.trans hls)
      subst this
      exact ⟨n, hdn, ht _ _ hgrow (fun _ _ h => h)⟩
  obtain ⟨n, hn⟩ := hv
  obtain ⟨h1, h2⟩ := valid_reads hS n top.node (.obj kvs) d.ty j hden (htype _ _ (.refl _) fun _ _ h => h) hj hi hn
  exact h2.good hk hi h1 d.ty (Ty.same_refl _) hp hfi

/-- Where a float stands in place of an integer, the data has a float with an integer as value. -/
theorem FloatForInt.hasFloat {env : Env} {t : Ty} {j : Json} (h : FloatForInt env t j) :
    ∃ f, Json.HasFloat f j ∧ f.isInteger = true := by
  induction h with
  | int h => exact ⟨_, .float, h⟩
  | literal h => exact ⟨_, .float, h⟩
  | annotated _ ih => exact ih
  | list hm _ ih | set hm _ ih => obtain ⟨f, hf, h⟩ := ih; exact ⟨f, .arr hm hf, h⟩
  | tuple _ hm _ ih => obtain ⟨f, hf, h⟩ := ih; exact ⟨f, .arr (List.mem_of_getElem? hm) hf, h⟩
  | dict hm _ ih => obtain ⟨f, hf, h⟩ := ih; exact ⟨f, .obj hm hf, h⟩
  | union _ _ ih => exact ih
  | cls _ _ hl _ ih => obtain ⟨f, hf, h⟩ := ih; exact ⟨f, .obj (lookupKey_some_mem hl) hf, h⟩

/-- C53 in part, for schemas without `oneOf`: the conditions are on the schema, its names, the data, and the program before, which
has nothing in the module in which types are made; none is on the types that are made, apart from floats in place of integers.
Missing: as in `C53_partial`, and schemas with unions. -/
theorem C53_no_unions_partial (cfg : BuildCfg) (vc : ValidatorCfg) (hf : FormatsRead vc) (name : Str) (schema : Json) (env : Env)
    (he : env.Ok) (hm : ∀ k ∈ env.enums.map EnumDef.key ++ env.classes.map ClassDef.key, k.1 ≠ cfg.modName) (t : Ty)
    (st : BuildSt) (hw : schema.Wf) (hs : SchemaSafe cfg.word name schema) (ht : Tame schema) (hn : TidyNames schema)
    (ha : NamesApart name schema) (h : schemaToType cfg name schema ⟨env, [], []⟩ = .ok (t, st)) (j : Json) (hj : j.Wf)
    (hi : SmallInts j) (hfi : ¬ FloatForInt st.env t j) (hv : Validates vc schema schema j) :
    ∃ v, loads st.env false t j = .ok v := by
  obtain ⟨h1, h2⟩ := schemaToType_simple hw ht ⟨he.enums, he.fields, he.setOrder⟩ h
  obtain ⟨es, cs, h3, h4, h5, h6⟩ := schemaToType_names hw ht hn ha h
  refine C53_partial cfg vc hf name schema env t st hw hs h ⟨?_, h1.enums, h1.fields, h1.setOrder⟩ h2.plain j hj hi hfi hv
  rw [h3, h4]
  refine (keysOf_append _ _ _ _).nodup_iff.2 (List.nodup_append.2 ⟨he.keys, h5, ?_⟩)
  rintro k hk _ hk' rfl
  exact hm k hk (h6 k hk')

/-! ### Concrete cases -/

mutual
/-- Is something true of everything within the data? -/
def everywhere (p : Json → Bool) : Json → Bool
  | .arr xs => p (.arr xs) && everywhereL p xs
  | .obj kvs => p (.obj kvs) && everywhereO p kvs
  | j => p j
/-- In a list. -/
def everywhereL (p : Json → Bool) : List Json → Bool
  | [] => true
  | x :: xs => everywhere p x && everywhereL p xs
/-- In properties. -/
def everywhereO (p : Json → Bool) : List (Str × Json) → Bool
  | [] => true
  | (_, x) :: xs => everywhere p x && everywhereO p xs
end

theorem everywhereL_mem {p : Json → Bool} {xs : List Json} (h : everywhereL p xs = true) : ∀ x ∈ xs, everywhere p x = true := by
  induction xs with
  | nil => intro x hx; cases hx
  | cons y xs ih =>
    simp only [everywhereL, Bool.and_eq_true] at h
    intro x hx
    rcases List.mem_cons.1 hx with rfl | hx
    · exact h.1
    · exact ih h.2 x hx

theorem everywhereO_mem {p : Json → Bool} {xs : List (Str × Json)} (h : everywhereO p xs = true) :
    ∀ x ∈ xs, everywhere p x.2 = true := by
  induction xs with
  | nil => intro x hx; cases hx
  | cons y xs ih =>
    obtain ⟨k, y⟩ := y
    simp only [everywhereO, Bool.and_eq_true] at h
    intro x hx
    rcases List.mem_cons.1 hx with rfl | hx
    · exact h.1
    · exact ih h.2 x hx

theorem everywhere_self {p : Json → Bool} {j : Json} (h : everywhere p j = true) : p j = true := by
  cases j <;> simp only [everywhere, Bool.and_eq_true] at h <;> first | exact h.1 | exact h

theorem everywhere_within {p : Json → Bool} {x j : Json} (h : x.Within j) (he : everywhere p j = true) : p x = true := by
  induction h with
  | self => exact everywhere_self he
  | arr hy _ ih =>
    simp only [everywhere, Bool.and_eq_true] at he
    exact ih (everywhereL_mem he.2 _ hy)
  | obj hy _ ih =>
    simp only [everywhere, Bool.and_eq_true] at he
    exact ih (everywhereO_mem he.2 _ hy)

/-- Is something true of every object within the data? -/
def everyObject (p : List (Str × Json) → Bool) (j : Json) : Bool :=
  everywhere (fun j => match j with | .obj kvs => p kvs | _ => true) j

theorem everyObject_within {p : List (Str × Json) → Bool} {kvs : List (Str × Json)} {j : Json} (h : (Json.obj kvs).Within j)
    (he : everyObject p j = true) : p kvs = true := everywhere_within h he

theorem wf_of {j : Json} (h : everyObject (fun kvs => decide ((kvs.map (·.1)).Nodup)) j = true) : j.Wf := by
  generalize hsz : sizeOf j = sz
  induction sz using Nat.strongRecOn generalizing j with
  | _ sz ih =>
    subst hsz
    unfold everyObject at h ih
    cases j with
    | arr xs =>
      simp only [everywhere, Bool.and_eq_true] at h
      exact .arr fun x hx => ih _ (by have := List.sizeOf_lt_of_mem hx; simp; omega) (everywhereL_mem h.2 x hx) rfl
    | obj kvs =>
      simp only [everywhere, Bool.and_eq_true, decide_eq_true_eq] at h
      refine .obj h.1 fun x hx => ih _ ?_ (everywhereO_mem h.2 x hx) rfl
      have := List.sizeOf_lt_of_mem hx
      obtain ⟨k, x⟩ := x
      simp at this ⊢
      omega
    | null => exact .null
    | bool => exact .bool
    | int => exact .int
    | float => exact .float
    | str => exact .str

theorem hasInt_within {i : Int} {j : Json} (h : Json.HasInt i j) : (Json.int i).Within j := by
  induction h with
  | int => exact .self
  | arr hm _ ih => exact .arr hm ih
  | obj hm _ ih => exact .obj hm ih

theorem hasFloat_within {f : PyFloat} {j : Json} (h : Json.HasFloat f j) : (Json.float f).Within j := by
  induction h with
  | float => exact .self
  | arr hm _ ih => exact .arr hm ih
  | obj hm _ ih => exact .obj hm ih

/-- Data with small integers and no floats. -/
theorem small_of {j : Json} (h : everywhere (fun j => match j with | .int i => decide (i.natAbs < 2 ^ 64) | .float _ => false | _ => true) j = true) :
    SmallInts j ∧ ∀ f, ¬ Json.HasFloat f j := by
  constructor
  · intro i hi
    have := everywhere_within (hasInt_within hi) h
    simp only [decide_eq_true_eq] at this
    have h2 : 2 ^ 64 < 2 ^ 1024 - 2 ^ 970 := by decide +kernel
    omega
  · intro f hf
    have := everywhere_within (hasFloat_within hf) h
    cases this

/-- The configuration used in the examples. -/
def cfg53 : BuildCfg := { modName := c!"m", word := fun _ => false, idStart := fun _ => false, idCont := fun _ => false }

/-- A validator whose format checker accepts what the library reads. -/
def vc53 : ValidatorCfg where
  format p s := match lookupKey p textFormats with
    | some t => (loads ⟨[], [], id⟩ false t (.str s)).isOk
    | Option.none => true
  pattern _ _ := true
  multipleOf _ _ := true

theorem vc53_formats : FormatsRead vc53 := by
  intro f t hm s h env
  have key : ∀ r : Res Val, r.isOk = true → ∃ v, r = .ok v := by
    intro r hr; cases r with
    | ok v => exact ⟨v, rfl⟩
    | error e => cases hr
  simp only [textFormats, List.mem_cons, Prod.mk.injEq, List.not_mem_nil, or_false] at hm
  rcases hm with ⟨rfl, rfl⟩ | ⟨rfl, rfl⟩ | ⟨rfl, rfl⟩ | ⟨rfl, rfl⟩ | ⟨rfl, rfl⟩ | ⟨rfl, rfl⟩ | ⟨rfl, rfl⟩ <;> exact key _ h

/-- The schema of an object with the given properties. -/
def objSchema (ps : List (Str × Json)) (req : List Str) : List (Str × Json) :=
  [(c!"type", .str c!"object"), (c!"properties", .obj ps), (c!"additionalProperties", .bool false),
   (c!"required", .arr (req.map Json.str))]

/-- A schema with definitions. -/
def topSchema (ps : List (Str × Json)) (req : List Str) (defs : List (Str × Json)) : Json :=
  .obj ((c!"$schema", .str c!"s") :: objSchema ps req ++ [(c!"definitions", .obj defs)])

def refTo (name : Str) : Json := .obj [(c!"$ref", .str (defRef name))]
def typed (name : Str) : Json := .obj [(c!"type", .str name)]
def constStr (s : Str) : Json := .obj [(c!"type", .str c!"string"), (c!"const", .str s)]
def enumOf (vs : List Str) : Json := .obj [(c!"type", .str c!"string"), (c!"enum", .arr (vs.map Json.str))]

/-- Shapes with a colour, a date, a list of numbers, and a member of a tagged union. -/
def shapeSchema : Json :=
  topSchema
    [(c!"color", refTo c!"Color"), (c!"made", .obj [(c!"type", .str c!"string"), (c!"format", .str c!"date")]),
     (c!"sizes", .obj [(c!"type", .str c!"array"), (c!"items", typed c!"integer")]),
     (c!"shape", .obj [(c!"oneOf", .arr [refTo c!"Circle", refTo c!"Square"])])]
    [c!"color", c!"shape"]
    [(c!"Circle", .obj (objSchema [(c!"kind", constStr c!"circle"), (c!"radius", typed c!"number")] [c!"kind", c!"radius"])),
     (c!"Color", enumOf [c!"red", c!"blue"]),
     (c!"Square", .obj (objSchema [(c!"kind", constStr c!"square"), (c!"side", typed c!"number")] [c!"kind"]))]

def shapeData : Json :=
  .obj [(c!"color", .str c!"blue"), (c!"made", .str c!"2024-02-29"), (c!"sizes", .arr [.int 1, .int 2]),
        (c!"shape", .obj [(c!"kind", .str c!"square"), (c!"side", .int 3)])]

def shapeEnv : Env where
  enums := [{ module := c!"m", name := c!"Color", members := [(c!"red", .str c!"red"), (c!"blue", .str c!"blue")] }]
  classes :=
    [{ module := c!"m", name := c!"Circle", kind := .dataclass false,
       fields := [{ name := c!"kind", ty := .literal [.str c!"circle"] }, { name := c!"radius", ty := .float }] },
     { module := c!"m", name := c!"Square", kind := .dataclass false,
       fields := [{ name := c!"kind", ty := .literal [.str c!"square"] }, { name := c!"side", ty := .union [.none, .float] }] },
     { module := c!"m", name := c!"Shape", kind := .dataclass false,
       fields := [{ name := c!"color", ty := .enum 0 }, { name := c!"made", ty := .union [.none, .date] },
                  { name := c!"sizes", ty := .union [.none, .list .int] }, { name := c!"shape", ty := .union [.cls 0, .cls 1] }] }]

theorem shape_type : ∃ st, schemaToType cfg53 c!"Shape" shapeSchema ⟨⟨[], [], id⟩, [], []⟩ = .ok (.cls 2, st) ∧ st.env = shapeEnv :=
  ⟨_, by with_unfolding_all rfl, rfl⟩

theorem shapeEnv_ok : shapeEnv.Ok where
  keys := by decide +kernel
  enums := by
    intro ed h
    simp only [shapeEnv, List.mem_singleton] at h
    subst h
    constructor <;> decide +kernel
  fields := by decide +kernel
  setOrder := fun l => List.Perm.refl l

theorem shape_tag : IsTag shapeEnv [.cls 0, .cls 1] c!"kind" := mem_discProps.1 (by decide +kernel)

theorem shape_plain : Plain shapeEnv (.cls 2) := by
  refine .cls (cd := shapeEnv.classes[2]) rfl rfl rfl (by decide +kernel) ?_
  have h0 : Plain shapeEnv (.cls 0) := by
    refine .cls (cd := shapeEnv.classes[0]) rfl rfl rfl (by decide +kernel) ?_
    intro f hf
    simp only [shapeEnv, List.getElem_cons_zero, List.mem_cons, List.not_mem_nil, or_false] at hf
    rcases hf with rfl | rfl
    · exact .literal (by simp)
    · exact .leaf (t := .float) (by simp)
  have h1 : Plain shapeEnv (.cls 1) := by
    refine .cls (cd := shapeEnv.classes[1]) rfl rfl rfl (by decide +kernel) ?_
    intro f hf
    simp only [shapeEnv, List.getElem_cons_zero, List.getElem_cons_succ, List.mem_cons, List.not_mem_nil, or_false] at hf
    rcases hf with rfl | rfl
    · exact .literal (by simp)
    · exact .leaf (t := .float) (by simp)
  intro f hf
  simp only [shapeEnv, List.getElem_cons_zero, List.getElem_cons_succ, List.mem_cons, List.not_mem_nil, or_false] at hf
  rcases hf with rfl | rfl | rfl | rfl
  · exact .enum (e := 0) rfl
  · exact .leaf (t := .date) (by simp)
  · exact .list (t := .int) (.leaf (by simp))
  · refine .tagged (ts := [.cls 0, .cls 1]) ⟨_, shape_tag⟩ ?_ ?_ ?_
    · exact ((C23_ambiguous_iff shapeEnv shapeEnv_ok _ ⟨_, shape_tag⟩).2).1 ⟨_, rfl⟩
    · intro t ht
      simp at ht
      rcases ht with rfl | rfl
      · exact h0
      · exact h1
    · intro p c cd f _ hc hcd hf _
      have : ∀ cd ∈ shapeEnv.classes, ∀ f ∈ cd.fields, f.hasDefault = false := by decide +kernel
      have := this cd (List.mem_of_getElem? hcd) f hf
      unfold FieldDef.hasDefault at this
      cases hd : f.dflt <;> simp [hd] at this
      rfl

/-- Texts in a list. -/
def strList : List Json → Option (List Str)
  | [] => some []
  | .str s :: xs => (strList xs).map (s :: ·)
  | _ => Option.none

theorem strList_map (vs : List Str) : strList (vs.map Json.str) = some vs := by
  induction vs with
  | nil => rfl
  | cons v vs ih => simp [strList, ih]

/-- Are the values of `enum` safe? -/
def enumSafe (uni : Char → Bool) (kvs : List (Str × Json)) : Bool :=
  match lookupKey c!"enum" kvs with
  | some (.arr xs) =>
    (match strList xs with
     | some vs => decide ((vs.map (enumSafeName uni)).Nodup) && vs.all fun v => (enumSafeName uni v).head? ≠ some '_'
     | Option.none => true)
  | _ => true

/-- Is there no reference to the name? -/
def noRefTo (name : Str) (kvs : List (Str × Json)) : Bool :=
  match lookupKey c!"$ref" kvs with
  | some (.str r) => r ≠ defRef name
  | _ => true

theorem schemaSafe_of {uni : Char → Bool} {name : Str} {schema : Json} (h1 : name ∉ (schemaDefs schema).map (·.1))
    (h2 : ∀ d ∈ name :: (schemaDefs schema).map (·.1), ∀ d' ∈ (schemaDefs schema).map (·.1), ¬ (d ++ c!"__") <+: d')
    (h3 : ∀ d ∈ (schemaDefs schema).map (·.1), '\n' ∉ d)
    (h4 : (schemaDefs schema).all (fun d => everyObject (noRefTo d.1) d.2) = true)
    (h5 : everyObject (enumSafe uni) schema = true) : SchemaSafe uni name schema where
  top := h1
  apart := h2
  lines := h3
  self := by
    intro d hd kvs hk hr
    have := everyObject_within hk (List.all_eq_true.1 h4 d hd)
    simp [noRefTo, hr] at this
  enums := by
    intro kvs vs hk he
    have := everyObject_within hk h5
    simp only [enumSafe, he, strList_map, Bool.and_eq_true, decide_eq_true_eq, List.all_eq_true] at this
    exact this

theorem shape_safe : SchemaSafe cfg53.word c!"Shape" shapeSchema :=
  schemaSafe_of (by decide +kernel) (by decide +kernel) (by decide +kernel) (by decide +kernel) (by decide +kernel)

theorem shape_wf : shapeSchema.Wf ∧ shapeData.Wf := ⟨wf_of (by decide +kernel), wf_of (by decide +kernel)⟩

/-- The hypotheses of `C53_partial` are met by shapes. -/
example : ∃ st v, schemaToType cfg53 c!"Shape" shapeSchema ⟨⟨[], [], id⟩, [], []⟩ = .ok (.cls 2, st) ∧
    loads st.env false (.cls 2) shapeData = .ok v := by
  obtain ⟨st, h, he⟩ := shape_type
  have hsm := small_of (j := shapeData) (by decide +kernel)
  obtain ⟨v, hv⟩ := C53_partial cfg53 vc53 vc53_formats c!"Shape" shapeSchema ⟨[], [], id⟩ (.cls 2) st shape_wf.1 shape_safe h
    (he ▸ shapeEnv_ok) (he ▸ shape_plain) shapeData shape_wf.2 hsm.1 (fun hf => hsm.2 _ hf.hasFloat.choose_spec.1)
    ⟨10, by with_unfolding_all rfl⟩
  exact ⟨st, v, h, hv⟩

/-- Is the object free of `oneOf` and of properties with names that fields do not keep? -/
def tameObj (kvs : List (Str × Json)) : Bool :=
  (lookupKey c!"oneOf" kvs).isNone &&
    (match lookupKey c!"properties" kvs with
     | some (.obj xs) => xs.all fun x => fieldToProperty x.1 Option.none = x.1
     | _ => true)

theorem tame_of {s : Json} (h : everyObject tameObj s = true) : Tame s := by
  intro kvs hk
  have := everyObject_within hk h
  simp only [tameObj, Bool.and_eq_true, Option.isNone_iff_eq_none] at this
  refine ⟨this.1, fun xs hx x hm => ?_⟩
  rw [hx] at this
  exact of_decide_eq_true (List.all_eq_true.1 this.2 x hm)

/-- An order with its customer and its lines, each with a price and an optional note. -/
def orderSchema : Json :=
  topSchema
    [(c!"customer", refTo c!"Customer"), (c!"ordered", .obj [(c!"type", .str c!"string"), (c!"format", .str c!"date")]),
     (c!"lines", .obj [(c!"type", .str c!"array"), (c!"items", .obj (objSchema
       [(c!"price", typed c!"number"), (c!"count", typed c!"integer"), (c!"note", typed c!"string")] [c!"price", c!"count"]))]),
     (c!"state", enumOf [c!"open", c!"paid"])]
    [c!"customer", c!"lines", c!"state"]
    [(c!"Customer", .obj (objSchema [(c!"name", typed c!"string")] [c!"name"]))]

def orderData : Json :=
  .obj [(c!"customer", .obj [(c!"name", .str c!"A")]), (c!"state", .str c!"paid"),
        (c!"lines", .arr [.obj [(c!"price", .float (.fin false 5 (-1))), (c!"count", .int 2)],
                          .obj [(c!"price", .int 3), (c!"count", .int 1), (c!"note", .str c!"n")]])]

theorem order_data : SmallInts orderData ∧ ∀ f, Json.HasFloat f orderData → f.isInteger = false := by
  constructor
  · intro i hi
    have := everywhere_within (p := fun j => match j with | .int i => decide (i.natAbs < 2 ^ 64) | _ => true) (hasInt_within hi)
      (j := orderData) (by decide +kernel)
    simp only [decide_eq_true_eq] at this
    have h2 : 2 ^ 64 < 2 ^ 1024 - 2 ^ 970 := by decide +kernel
    omega
  · intro f hf
    have := everywhere_within (p := fun j => match j with | .float f => !f.isInteger | _ => true) (hasFloat_within hf)
      (j := orderData) (by decide +kernel)
    simpa using this

/-- Are there two underscores in a row? -/
def hasDouble : Str → Bool
  | '_' :: '_' :: _ => true
  | _ :: s => hasDouble s
  | [] => false

theorem hasDouble_of {s : Str} (h : c!"__" <:+: s) : hasDouble s = true := by
  obtain ⟨a, b, rfl⟩ := h
  induction a with
  | nil => rfl
  | cons c a ih =>
    rw [List.append_assoc] at ih ⊢
    simp only [List.cons_append] at ih ⊢
    unfold hasDouble
    split
    · rfl
    · rename_i h; cases h; exact ih
    · rename_i h; cases h

/-- Can the names of properties be joined? -/
def tidyObj (kvs : List (Str × Json)) : Bool :=
  match lookupKey c!"properties" kvs with
  | some (.obj xs) => xs.all fun x => x.1.getLast? ≠ some '_' && !hasDouble x.1
  | _ => true

theorem tidy_of {s : Json} (h : everyObject tidyObj s = true) : TidyNames s := by
  intro kvs hk xs hx x hm
  have := everyObject_within hk h
  simp only [tidyObj, hx] at this
  have := List.all_eq_true.1 this x hm
  simp only [Bool.and_eq_true, decide_eq_true_eq, Bool.not_eq_true'] at this
  refine ⟨this.1, fun h' => ?_⟩
  rw [hasDouble_of h'] at this
  exact absurd this.2 (by simp)

/-- The hypotheses of `C53_no_unions_partial` are met by orders. -/
example : ∃ t st v, schemaToType cfg53 c!"Order" orderSchema ⟨⟨[], [], id⟩, [], []⟩ = .ok (t, st) ∧
    loads st.env false t orderData = .ok v := by
  have h : ∃ t st, schemaToType cfg53 c!"Order" orderSchema ⟨⟨[], [], id⟩, [], []⟩ = .ok (t, st) :=
    ⟨_, _, by with_unfolding_all rfl⟩
  obtain ⟨t, st, h⟩ := h
  obtain ⟨v, hv⟩ := C53_no_unions_partial cfg53 vc53 vc53_formats c!"Order" orderSchema ⟨[], [], id⟩
    ⟨by simp, by simp, by simp, fun _ => .refl _⟩ (by simp) t st (wf_of (by decide +kernel))
    (schemaSafe_of (by decide +kernel) (by decide +kernel) (by decide +kernel) (by decide +kernel) (by decide +kernel))
    (tame_of (by decide +kernel)) (tidy_of (by decide +kernel)) ⟨by decide +kernel, by decide +kernel, by decide +kernel⟩ h
    orderData (wf_of (by decide +kernel)) order_data.1
    (fun hf => by obtain ⟨f, h1, h2⟩ := hf.hasFloat; rw [order_data.2 f h1] at h2; cases h2)
    ⟨10, by with_unfolding_all rfl⟩
  exact ⟨t, st, v, h, hv⟩

/-! ### Violations -/

/-- The data is valid for the schema of a class `A`, and reading it with the type made from the schema raises an error. -/
def Refused (schema j : Json) (e : Err) : Prop :=
  schema.Wf ∧ j.Wf ∧ Validates vc53 schema schema j ∧
    ∃ t st, schemaToType cfg53 c!"A" schema ⟨⟨[], [], id⟩, [], []⟩ = .ok (t, st) ∧ loads st.env false t j = .error e

/-- A property named like a keyword with an underscore is read under the keyword. -/
theorem C53_keyword_property :
    Refused (topSchema [(c!"from_", typed c!"string")] [c!"from_"] []) (.obj [(c!"from_", .str c!"x")]) .jsonKey :=
  ⟨wf_of (by decide +kernel), wf_of (by decide +kernel), ⟨5, by with_unfolding_all rfl⟩, _, _, by with_unfolding_all rfl,
    by with_unfolding_all rfl⟩

/-- Values of an enumeration with the same name: only the last one stays. -/
theorem C53_enum_collision :
    Refused (topSchema [(c!"e", enumOf [c!"a b", c!"a-b"])] [c!"e"] []) (.obj [(c!"e", .str c!"a b")]) .valueError :=
  ⟨wf_of (by decide +kernel), wf_of (by decide +kernel), ⟨5, by with_unfolding_all rfl⟩, _, _, by with_unfolding_all rfl,
    by with_unfolding_all rfl⟩

/-- A union whose first member is an enumeration: the `ValueError` of the enumeration is not caught. -/
theorem C53_enum_in_union :
    Refused (topSchema [(c!"u", .obj [(c!"oneOf", .arr [enumOf [c!"a"], constStr c!"b"])])] [c!"u"] [])
      (.obj [(c!"u", .str c!"b")]) .valueError :=
  ⟨wf_of (by decide +kernel), wf_of (by decide +kernel), ⟨5, by with_unfolding_all rfl⟩, _, _, by with_unfolding_all rfl,
    by with_unfolding_all rfl⟩

/-- JSON Schema counts `1.0` among the integers. -/
theorem C53_integral_float :
    Refused (topSchema [(c!"i", typed c!"integer")] [c!"i"] []) (.obj [(c!"i", .float (.fin false 1 0))]) .jsonType :=
  ⟨wf_of (by decide +kernel), wf_of (by decide +kernel), ⟨5, by with_unfolding_all rfl⟩, _, _, by with_unfolding_all rfl,
    by with_unfolding_all rfl⟩

/-- The full statement fails. -/
theorem C53_violated : ¬ C53_statement cfg53 vc53 := by
  intro h
  obtain ⟨h1, h2, h3, t, st, h4, h5⟩ := C53_integral_float
  obtain ⟨v, hv⟩ := h _ _ _ _ _ h1 h4 _ h2 h3
  rw [h5] at hv
  cases hv

end Verif
