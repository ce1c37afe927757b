import Verif.Lemmas.RebuildNode
import Verif.Lemmas.SchemaWf
/-!
# Classes made again from their schemas: the document
-/
namespace Verif

/-- A type is made from the schema, if the types that the schema refers to are known. -/
def RebuiltFrom (cfg : BuildCfg) (A : Env) (cat : SchemaCatalog) (Before : Str → Prop) (s : Sch) (us : List TypeUse) (t : Ty) : Prop :=
  ∃ n, ReadAs (.obj s) n ∧ (∀ u ∈ us, UseOf cat Before u) ∧ ∀ S : Str → Prop, (∀ u ∈ us, S u.name) → MakesFor cfg A cat S n t

theorem withDefault_none {env : Env} {q : Bool} {f : FieldDef} {s : Sch} (h : ∀ v, f.dflt = .value v → v.hasJsonDefault = false) :
    withDefault env (.dataclass q) f s = .ok s := by
  unfold withDefault classAttr
  cases hd : f.dflt <;> simp only
  rename_i v
  rw [h v hd]
  simp

theorem schemaProp_jsonName {cfg : BuildCfg} {q : Bool} {f : FieldDef} (h : FieldFits cfg f) :
    schemaProp (.dataclass q) f = f.jsonName := by
  simp [schemaProp, strField, h.evaluated.1, FieldDef.jsonName]

theorem propSchema_fits {bcfg : BuildCfg} {scfg : SchemaCfg} {A : Env} {cat : SchemaCatalog} {cls : Nat → SchRes Sch} {q : Bool}
    {f : FieldDef} {s : Sch} {us : List TypeUse} (h : FieldFits bcfg f)
    (hs : propSchema scfg A cat cls (.dataclass q) f = .ok (s, us)) :
    tySchema scfg A cat cls false false f.ty.required = .ok (s, us) := by
  simp only [propSchema, strField, fwdField, h.evaluated.1, h.evaluated.2, Bool.false_eq_true, if_false] at hs
  rw [SchRes.map_ok] at hs
  obtain ⟨s', h1, h2⟩ := hs
  rw [withDefault_none h.dflt] at h2
  cases h2
  exact h1

theorem kvStrs_required (ps : List (Str × Json)) (req : List Str) (hp : ps ≠ []) (base : Sch)
    (hb : lookupKey c!"required" base = lookupKey c!"required" (classSchema ps req)) :
    (kvStrs c!"required" base).getD [] = req := by
  simp only [kvStrs, hb]
  have hps : ps.isEmpty = false := by cases ps with | nil => exact absurd rfl hp | cons => rfl
  cases req with
  | nil => simp [classSchema, hps, lookupKey]
  | cons r rs =>
    have : lookupKey c!"required" (classSchema ps (r :: rs)) = some (.arr ((r :: rs).map Json.str)) := by
      simp [classSchema, hps, lookupKey]
    rw [this]
    simp only [allSome_strs]
    rfl

theorem classSchema_lookup {ps : List (Str × Json)} {req : List Str} (hp : ps ≠ []) {k : Str} {x : Json}
    (h : lookupKey k (classSchema ps req) = some x) :
    (k = c!"type" ∧ x = js c!"object") ∨ (k = c!"properties" ∧ x = .obj ps) ∨ (k = c!"additionalProperties" ∧ x = .bool false) ∨
      (k = c!"required" ∧ x = .arr (req.map Json.str)) := by
  have hm := lookupKey_some_mem h
  have hps : ps.isEmpty = false := by cases ps with | nil => exact absurd rfl hp | cons => rfl
  unfold classSchema at hm
  rw [hps] at hm
  simp only [Bool.false_eq_true, if_false, List.cons_append, List.nil_append, List.mem_cons, Prod.mk.injEq] at hm
  rcases hm with h | h | h | h
  · exact .inl h
  · exact .inr (.inl h)
  · exact .inr (.inr (.inl h))
  · split at h
    · cases h
    · simp only [List.mem_singleton, Prod.mk.injEq] at h
      exact .inr (.inr (.inr h))

theorem classSchema_additional {ps : List (Str × Json)} {req : List Str} (hp : ps ≠ []) :
    lookupKey c!"additionalProperties" (classSchema ps req) = some (.bool false) := by
  have hps : ps.isEmpty = false := by cases ps with | nil => exact absurd rfl hp | cons => rfl
  simp [classSchema, hps, lookupKey]

section
variable {bcfg : BuildCfg} {scfg : SchemaCfg} {A : Env} {cat : SchemaCatalog}

/-- What the schema of a class consists of. -/
theorem cls_parts {Before : Str → Prop} {c : Nat} {cd : ClassDef} {q : Bool} (hc : A.classes[c]? = some cd)
    (hk : cd.kind = .dataclass q) (hj : cd.toJson = Option.none) (hne : cd.fields ≠ []) (hfit : ∀ f ∈ cd.fields, FieldFits bcfg f)
    (hn : (cd.fields.map FieldDef.jsonName).Nodup)
    (ih : ∀ f ∈ cd.fields, ∀ m s us, tySchema scfg A cat (clsSchema scfg A cat m) false false f.ty.required = .ok (s, us) →
      RebuiltFrom bcfg A cat Before s us f.ty.required)
    {m : Nat} {s : Sch} {us : List TypeUse} (h : clsSchema scfg A cat m c = .ok (s, us)) :
    ∃ ss ns req, s = classSchema ss req ∧ ss ≠ [] ∧ (ss.map (·.1)).Nodup ∧ ReadAsD ss ns ∧ (∀ u ∈ us, UseOf cat Before u) ∧
      ∀ (S : Str → Prop) r, (∀ u ∈ us, S u.name) → r.getD [] = req →
        MakesFor bcfg A cat S (.obj (some ns) (some false) r) (.cls c) := by
  cases m with
  | zero => simp only [clsSchema] at h; cases h
  | succ m =>
  obtain ⟨ss, h1, rfl⟩ := clsSchema_ok hc h
  rw [hints_eq_fields (by rw [hk]; simp), hk] at h1 ⊢
  have hsp : cd.fields.map (schemaProp (.dataclass q)) = cd.fields.map FieldDef.jsonName :=
    List.map_congr_left fun f hf => schemaProp_jsonName (hfit f hf)
  obtain ⟨ss', hps, h2, h3⟩ := propSchemas_list _ _ _ _ (by rw [hsp]; exact hn) (by simp) h1
  rw [List.nil_append] at hps
  subst hps
  have hnames : ss.map (·.1) = cd.fields.map FieldDef.jsonName := by
    rw [← hsp]
    clear h3 h1 hsp ih hn hfit hne h hk hj hc
    generalize cd.fields = fs at h2
    induction h2 with
    | nil => rfl
    | cons h _ ih => obtain ⟨s, us', rfl, _⟩ := h; simp [ih]
  have huses : ∀ u ∈ us, UseOf cat Before u := by
    intro u hu
    obtain ⟨f, hf, s, us', hs, hu⟩ := h3 u hu
    obtain ⟨n, _, h5, _⟩ := ih f hf _ _ _ (propSchema_fits (hfit f hf) hs)
    exact h5 u hu
  obtain ⟨ns, h4, h5⟩ : ∃ ns, ReadAsD ss ns ∧ All2 (fun f n => n.1 = f.jsonName ∧
      ∀ S : Str → Prop, (∀ u ∈ us, S u.name) → MakesFor bcfg A cat S n.2 f.ty.required) cd.fields ns := by
    clear h3 h1 hsp hn hne h hk hj hc hnames huses
    generalize cd.fields = fs at h2 hfit ih
    induction h2 with
    | nil => exact ⟨[], .nil, .nil⟩
    | @cons f x fs ss h _ ihr =>
      obtain ⟨ns, g1, g2⟩ := ihr (fun g hg => hfit g (by simp [hg])) (fun g hg => ih g (by simp [hg]))
      obtain ⟨s, us', rfl, hs, hsub⟩ := h
      have hff := hfit f (by simp)
      obtain ⟨n, g3, _, g4⟩ := ih f (by simp) _ _ _ (propSchema_fits hff hs)
      exact ⟨(f.jsonName, n) :: ns, .cons ⟨(schemaProp_jsonName hff).symm, g3⟩ g1,
        .cons ⟨rfl, fun S hS => g4 S fun u hu => hS u (hsub u hu)⟩ g2⟩
  have hlen := h2.length
  refine ⟨ss, ns, _, rfl, ?_, by rw [hnames]; exact hn, h4, huses, ?_⟩
  · rintro rfl
    apply hne
    exact List.length_eq_zero_iff.1 hlen
  · intro S r hS hr
    refine cls_makes hc hk hj hfit hn ?_ (h5.imp fun f n h => ⟨h.1, h.2 S hS⟩) hr
    intro f hf
    have hinj : ∀ g ∈ cd.fields, g.jsonName = f.jsonName → g = f := by
      intro g hg he
      obtain ⟨i, hi⟩ := List.getElem?_of_mem hg
      obtain ⟨j, hj⟩ := List.getElem?_of_mem hf
      have hij : i = j := by
        have hi' : (cd.fields.map FieldDef.jsonName)[i]? = some f.jsonName := by simp [hi, he]
        have hj' : (cd.fields.map FieldDef.jsonName)[j]? = some f.jsonName := by simp [hj]
        have hlt : i < (cd.fields.map FieldDef.jsonName).length := (List.getElem?_eq_some_iff.1 hi').1
        exact (List.getElem?_inj hlt hn).1 (hi'.trans hj'.symm)
      subst hij
      rw [hi] at hj; cases hj; rfl
    simp only [List.mem_map, List.mem_filter]
    constructor
    · rintro ⟨g, ⟨hg, hreq⟩, he⟩
      rw [schemaProp_jsonName (hfit g hg)] at he
      have := hinj g hg he
      subst this
      simpa [schemaRequired, strField, (hfit g hg).evaluated.1] using hreq
    · intro ho
      exact ⟨f, ⟨hf, by simp [schemaRequired, ho]⟩, schemaProp_jsonName (hfit f hf)⟩

/-- The schema of a class is that of an object. -/
theorem cls_keywords {ss : List (Str × Json)} {req : List Str} {s : Sch} (hne : ss ≠ []) {others : List Str}
    (h1 : c!"type" ∈ others) (h2 : c!"properties" ∈ others)
    (hl : ∀ k x, lookupKey k s = some x → k ∉ others → lookupKey k (classSchema ss req) = some x) :
    Keywords objKeywords others s := by
  intro k x hx hk
  rcases classSchema_lookup hne (hl k x hx hk) with ⟨rfl, rfl⟩ | ⟨rfl, rfl⟩ | ⟨rfl, rfl⟩ | ⟨rfl, rfl⟩
  · exact absurd h1 hk
  · exact absurd h2 hk
  · exact ⟨.bool, by decide, false, rfl⟩
  · exact ⟨.strs, by decide, _, rfl, fun y hy => by obtain ⟨v, _, rfl⟩ := List.mem_map.1 hy; exact ⟨v, rfl⟩⟩

theorem regKey_toTy {t : Ty} {k : RegKey} (h : t.regKey = some k) : t = k.toTy := by
  cases t <;> simp only [Ty.regKey, reduceCtorEq, Option.some.injEq] at h <;> subst h <;> rfl

theorem simpleSchema_rebuilt {t : Ty} (h : t ∈ rebuiltTys) : ∃ base, simpleSchema t = some base ∧ t.regKey = Option.none := by
  simp only [rebuiltTys, List.mem_cons, List.not_mem_nil, or_false] at h
  rcases h with rfl | rfl | rfl | rfl | rfl | rfl | rfl | rfl | rfl <;> exact ⟨_, rfl, rfl⟩

/-- Types are made from their schemas. -/
theorem rebuild (hA : A.Ok) (hp : scfg.definitionsPath = c!"#/definitions/")
    (hid : ∀ k e, lookupKey k cat.byType = some e → e.identifier ≠ [] ∧ ∀ x ∈ e.identifier, isWordChar bcfg.word x = true)
    {Before : Str → Prop} {b : Bool} {t : Ty} (h : Rebuildable bcfg A cat Before b t) :
    ∀ m s us, tySchema scfg A cat (clsSchema scfg A cat m) false b t = .ok (s, us) → RebuiltFrom bcfg A cat Before s us t := by
  induction h with
  | @known t k e hk he hb =>
    intro m s us h
    have : s = refSch scfg e.identifier ∧ us = [⟨e.identifier, .ty t, false⟩] := by
      cases t <;> simp only [Ty.regKey, reduceCtorEq, Option.some.injEq] at hk <;> subst hk <;>
        (simp only [tySchema, Bool.false_eq_true, if_false, he] at h; cases h; exact ⟨rfl, rfl⟩)
    obtain ⟨rfl, rfl⟩ := this
    obtain ⟨n, h1, h2⟩ := ref_makes (cfg := bcfg) (A := A) hp he (hid k e he)
    have ht := regKey_toTy hk
    subst ht
    refine ⟨n, h1, ?_, fun S hS => h2 S (hS _ (List.mem_singleton.2 rfl))⟩
    intro u hu
    rcases List.mem_singleton.1 hu with rfl
    exact ⟨k, e, he, rfl, rfl, hb⟩
  | @leaf b t ht =>
    intro m s us h
    obtain ⟨base, hb, hr⟩ := simpleSchema_rebuilt ht
    have : s = base ∧ us = [] := by
      simp only [rebuiltTys, List.mem_cons, List.not_mem_nil, or_false] at ht
      rcases ht with rfl | rfl | rfl | rfl | rfl | rfl | rfl | rfl | rfl <;>
        (cases hb; simp only [tySchema, simpleSchema] at h; cases h; exact ⟨rfl, rfl⟩)
    obtain ⟨rfl, rfl⟩ := this
    obtain ⟨n, h1, h2⟩ := plain_node (cfg := bcfg) (A := A) ht hb .refl
    exact ⟨n, h1, by simp, fun S _ => h2.makes (fun _ _ h => h) hr⟩
  | @literal b l hl1 hl2 =>
    intro m s us h
    simp only [tySchema] at h
    cases hs : litSchema l with
    | error e => rw [hs] at h; cases h
    | ok s' =>
      rw [hs] at h
      cases h
      obtain ⟨n, h1, h2⟩ := literal_node (cfg := bcfg) (A := A) hl1 hl2 hs
      exact ⟨n, h1, by simp, fun S _ => h2.makes (fun _ _ h => h) rfl⟩
  | @simple b t ms ht hm =>
    intro m s us h
    obtain ⟨base, hb, hr⟩ := simpleSchema_rebuilt ht
    simp only [tySchema, hb] at h
    obtain ⟨h1, h2⟩ := simple_node (cfg := bcfg) (scfg := scfg) (A := A) ht hm hb
    cases hf : auxFormat t ms with
    | none =>
      rw [hf] at h
      cases h
      obtain ⟨n, h1, h2⟩ := h1 hf
      exact ⟨n, h1, by simp, fun S _ => h2.makes (fun _ _ h => .annotatedL h) rfl⟩
    | some fmt =>
      rw [hf] at h
      cases h
      obtain ⟨n, h1, h2⟩ := h2 fmt hf
      exact ⟨n, h1, by simp, fun S _ => h2.makes (fun _ _ h => .annotatedL h) rfl⟩
  | @annotated b t ms hnot ht ih =>
    intro m s us h
    have hnone : simpleSchema t = Option.none := by
      cases ht with
      | leaf h => exact absurd h hnot
      | _ => rfl
    simp only [tySchema, hnone] at h
    obtain ⟨n, h1, h2, h3⟩ := ih m s us h
    refine ⟨n, h1, h2, fun S hS ctx st hf h0 hk => ?_⟩
    obtain ⟨u, st', g1, g2, g3, g4⟩ := h3 S hS ctx st hf h0 hk
    exact ⟨u, st', g1, g2, g3, .annotatedL g4.mirror, g4.piece, g4.unaliased, fun h => by cases h⟩
  | @list b t _ ih =>
    intro m s us h
    simp only [tySchema] at h
    rw [SchRes.map_ok] at h
    obtain ⟨s', h1, h2⟩ := h
    cases h2
    obtain ⟨n, g1, g2, g3⟩ := ih m s' us h1
    obtain ⟨g4, g5⟩ := list_makes (cfg := bcfg) (A := A) (cat := cat) (t := t) g1
    exact ⟨_, g4, g2, fun S hS => g5 S (g3 S hS)⟩
  | @enum b e ed vs hb he hj hv hne hl =>
    intro m s us h
    have hn : (if b then Option.none else lookupKey (RegKey.enum e) cat.byType) = Option.none := by
      rcases hb with rfl | hb
      · rfl
      · rw [hb]; split <;> rfl
    simp only [tySchema, Bool.false_eq_true, if_false, hn] at h
    cases hs : enumSchema A e with
    | error e => rw [hs] at h; cases h
    | ok s' =>
      rw [hs] at h
      cases h
      obtain ⟨n, h1, h2⟩ := enum_makes (cfg := bcfg) (cat := cat) hA he hj hv hne hl hs
      exact ⟨n, h1, by simp, fun S _ => h2 S⟩
  | @cls b c cd q hb hc hk hj hne hfit hn _ ih =>
    intro m s us h
    have hnone : (if b then Option.none else lookupKey (RegKey.cls c) cat.byType) = Option.none := by
      rcases hb with rfl | hb
      · rfl
      · rw [hb]; split <;> rfl
    simp only [tySchema, Bool.false_eq_true, if_false, hnone] at h
    obtain ⟨ss, ns, req, rfl, g1, g2, g3, g4, g5⟩ := cls_parts hc hk hj hne hfit hn ih h
    have hr := obj_readAs (kvs := classSchema ss req) (cls_keywords g1 (by simp) (by simp) fun k x h _ => h) rfl
      (classSchema_properties ss req g1) g2 g3
    have ha : kvBool c!"additionalProperties" (classSchema ss req) = some false := by
      simp only [kvBool, classSchema_additional g1]
    rw [ha] at hr
    exact ⟨_, hr, g4, fun S hS => g5 S _ hS (kvStrs_required ss req g1 _ rfl)⟩
end

end Verif
