import Verif.Lemmas.SchemaRefs
/-!
# Validation against the shapes of schemas that are generated
-/
namespace Verif

variable {vc : ValidatorCfg} {root : Json}

/-- Validation ends. -/
def Decided (vc : ValidatorCfg) (root s v : Json) : Prop := ∃ n b, validate vc root n s v = some b

theorem Decided.not_validates {s v : Json} (h : Decided vc root s v) (hn : ¬ Validates vc root s v) : Rejects vc root s v := by
  obtain ⟨n, b, h⟩ := h
  cases b with
  | true => exact absurd ⟨n, h⟩ hn
  | false => exact ⟨n, h⟩

theorem allO_some {l : List (Option Bool)} (h : ∀ o ∈ l, ∃ b, o = some b) : ∃ b, allO l = some b := by
  induction l with
  | nil => exact ⟨_, rfl⟩
  | cons o os ih =>
    obtain ⟨a, rfl⟩ := h o (by simp)
    obtain ⟨b, hb⟩ := ih (fun o ho => h o (by simp [ho]))
    exact ⟨a && b, by simp [allO, hb]⟩

theorem countO_some {l : List (Option Bool)} (h : ∀ o ∈ l, ∃ b, o = some b) : ∃ n, countO l = some n := by
  induction l with
  | nil => exact ⟨_, rfl⟩
  | cons o os ih =>
    obtain ⟨a, rfl⟩ := h o (by simp)
    obtain ⟨b, hb⟩ := ih (fun o ho => h o (by simp [ho]))
    exact ⟨_, by simp [countO, hb]; rfl⟩

theorem eventually_done {α : Type} {f g : α → Json} {l : List α} (h : ∀ x ∈ l, Decided vc root (f x) (g x)) :
    ∃ n, ∀ x ∈ l, ∃ b, validate vc root n (f x) (g x) = some b :=
  eventually_all (P := fun x n => ∃ b, validate vc root n (f x) (g x) = some b)
    (fun _ _ _ hnm ⟨b, h⟩ => ⟨b, validate_mono hnm _ _ _ h⟩) l h

theorem allO_done {α : Type} {f g : α → Json} {l : List α} (h : ∀ x ∈ l, Decided vc root (f x) (g x)) :
    ∃ n b, allO (l.map fun x => validate vc root n (f x) (g x)) = some b := by
  obtain ⟨n, hn⟩ := eventually_done h
  refine ⟨n, allO_some ?_⟩
  intro o ho
  obtain ⟨x, hx, rfl⟩ := List.mem_map.1 ho
  exact hn x hx

theorem allO_valid {α : Type} {f g : α → Json} {l : List α} :
    (∃ n, allO (l.map fun x => validate vc root n (f x) (g x)) = some true) ↔ ∀ x ∈ l, Validates vc root (f x) (g x) := by
  constructor
  · rintro ⟨n, hn⟩ x hx
    rw [allO_true_iff] at hn
    exact ⟨n, hn _ (List.mem_map.2 ⟨x, hx, rfl⟩)⟩
  · intro h
    obtain ⟨n, hn⟩ := eventually_all (P := fun x n => validate vc root n (f x) (g x) = some true)
      (fun _ _ _ hnm h => validate_mono hnm _ _ _ h) l h
    refine ⟨n, allO_true_iff.2 ?_⟩
    intro o ho
    obtain ⟨x, hx, rfl⟩ := List.mem_map.1 ho
    exact hn x hx

theorem decided_obj {v : Json} {s : Sch} (h : ∀ ka ∈ s, KwDone vc root s ka.1 ka.2 v) : Decided vc root (.obj s) v := by
  obtain ⟨n, hn⟩ := eventually_all
    (P := fun (ka : Str × Json) n => ∃ b, keywordCheck vc root (validate vc root n) s (keywordOf ka.1) ka.2 v = some b)
    (fun ka n m hnm ⟨b, h⟩ => ⟨b, keywordCheck_mono (validate_mono hnm) _ _ _ _ _ h⟩) s h
  obtain ⟨b, hb⟩ := allO_some (l := s.map fun ka => keywordCheck vc root (validate vc root n) s (keywordOf ka.1) ka.2 v) (by
    intro o ho
    obtain ⟨x, hx, rfl⟩ := List.mem_map.1 ho
    exact hn x hx)
  exact ⟨n + 1, b, hb⟩

theorem ArgOk.done {k : Str} {a : Json} (h : ArgOk k a) (s : Sch) (v : Json) : KwDone vc root s k a v := by
  obtain ⟨b, hb⟩ := Option.isSome_iff_exists.1 (h.2 vc root (validate vc root 0) s v)
  exact ⟨0, b, hb⟩

/-! ### Schemas that differ in annotations only -/

/-- The schemas have the same keywords that matter. -/
structure SameKw (s s' : Sch) : Prop where
  mem : ∀ k a, keywordOf k ≠ .other → ((k, a) ∈ s ↔ (k, a) ∈ s')
  props : schemaProperties s = schemaProperties s'

theorem SameKw.refl (s : Sch) : SameKw s s := ⟨fun _ _ _ => Iff.rfl, rfl⟩

theorem SameKw.symm {s s' : Sch} (h : SameKw s s') : SameKw s' s := ⟨fun k a hk => (h.mem k a hk).symm, h.props.symm⟩

theorem SameKw.trans {s s' s'' : Sch} (h : SameKw s s') (h' : SameKw s' s'') : SameKw s s'' :=
  ⟨fun k a hk => (h.mem k a hk).trans (h'.mem k a hk), h.props.trans h'.props⟩

theorem keywordCheck_props {f : Json → Json → Option Bool} {s s' : Sch} (h : schemaProperties s = schemaProperties s')
    (k : Keyword) (a v : Json) : keywordCheck vc root f s k a v = keywordCheck vc root f s' k a v := by
  cases k <;> simp only [keywordCheck, h]

theorem SameKw.validates {s s' : Sch} (h : SameKw s s') {v : Json} (hv : Validates vc root (.obj s) v) :
    Validates vc root (.obj s') v := by
  rw [validates_obj_iff] at hv ⊢
  intro ka hka
  by_cases hk : keywordOf ka.1 = .other
  · exact ⟨0, by rw [hk]; rfl⟩
  · obtain ⟨n, hn⟩ := hv ka ((h.mem ka.1 ka.2 hk).2 hka)
    exact ⟨n, by rw [keywordCheck_props h.props.symm]; exact hn⟩

theorem SameKw.validates_iff {s s' : Sch} (h : SameKw s s') {v : Json} :
    Validates vc root (.obj s) v ↔ Validates vc root (.obj s') v := ⟨h.validates, h.symm.validates⟩

theorem SameKw.decided {s s' : Sch} (h : SameKw s s') {v : Json} (hv : ∀ ka ∈ s, KwDone vc root s ka.1 ka.2 v) :
    ∀ ka ∈ s', KwDone vc root s' ka.1 ka.2 v := by
  intro ka hka
  by_cases hk : keywordOf ka.1 = .other
  · exact ⟨0, true, by rw [hk]; rfl⟩
  · obtain ⟨n, b, hn⟩ := hv ka ((h.mem ka.1 ka.2 hk).2 hka)
    exact ⟨n, b, by rw [keywordCheck_props h.props.symm]; exact hn⟩

theorem SameKw.upsert {k : Str} {j : Json} (s : Sch) (hk : keywordOf k = .other) : SameKw (upsert k j s) s := by
  refine ⟨fun k' a hk' => mem_upsert_other ?_, ?_⟩
  · rintro rfl; exact hk' hk
  · unfold schemaProperties
    rw [lookupKey_upsert, if_neg]
    rintro rfl
    exact absurd hk (by decide)

/-! ### Keywords -/

theorem kwOk_type {s : Sch} {n : Str} {v : Json} : KwOk vc root s c!"type" (js n) v ↔ isJsonType n v = some true := by
  unfold KwOk
  exact ⟨fun ⟨_, h⟩ => h, fun h => ⟨0, h⟩⟩

/-- Schemas that name a type admit values of that type only. -/
theorem validates_type {s : Sch} {n : Str} {v : Json} (hm : (c!"type", js n) ∈ s) (h : Validates vc root (.obj s) v) :
    isJsonType n v = some true := by
  rw [validates_obj_iff] at h
  exact kwOk_type.1 (h _ hm)

theorem isJsonType_array {v : Json} : isJsonType c!"array" v = some true ↔ ∃ xs, v = .arr xs := by
  cases v <;> simp [isJsonType]

theorem isJsonType_object {v : Json} : isJsonType c!"object" v = some true ↔ ∃ kvs, v = .obj kvs := by
  cases v <;> simp [isJsonType]

theorem kwOk_items {s : Sch} {a : Json} {xs : List Json} :
    KwOk vc root s c!"items" a (.arr xs) ↔ ∀ x ∈ xs, Validates vc root a x :=
  allO_valid (f := fun _ => a) (g := fun x => x)

theorem valid_list {s v : Json} :
    Validates vc root (.obj [(c!"type", js c!"array"), (c!"items", s)]) v ↔ ∃ xs, v = .arr xs ∧ ∀ x ∈ xs, Validates vc root s x := by
  rw [validates_obj_iff]
  simp only [List.mem_cons, List.not_mem_nil, or_false, forall_eq_or_imp, forall_eq, kwOk_type, isJsonType_array]
  constructor
  · rintro ⟨⟨xs, rfl⟩, h⟩; exact ⟨xs, rfl, kwOk_items.1 h⟩
  · rintro ⟨xs, rfl, h⟩; exact ⟨⟨xs, rfl⟩, kwOk_items.2 h⟩

theorem valid_set {s v : Json} :
    Validates vc root (.obj [(c!"type", js c!"array"), (c!"items", s), (c!"uniqueItems", .bool true)]) v ↔
      ∃ xs, v = .arr xs ∧ (∀ x ∈ xs, Validates vc root s x) ∧ allDistinct xs = true := by
  rw [validates_obj_iff]
  simp only [List.mem_cons, List.not_mem_nil, or_false, forall_eq_or_imp, forall_eq, kwOk_type, isJsonType_array]
  constructor
  · rintro ⟨⟨xs, rfl⟩, h, _, h'⟩; exact ⟨xs, rfl, kwOk_items.1 h, by simpa using Option.some.inj h'⟩
  · rintro ⟨xs, rfl, h, h'⟩; exact ⟨⟨xs, rfl⟩, kwOk_items.2 h, 0, by show some (!true || allDistinct xs) = _; simp [h']⟩

theorem valid_tuple {n : Int} {ss : List Json} {v : Json} :
    Validates vc root (.obj [(c!"type", js c!"array"), (c!"minItems", .int n), (c!"maxItems", .int n), (c!"prefixItems", .arr ss)]) v ↔
      ∃ xs, v = .arr xs ∧ (xs.length : Int) = n ∧ ∀ p ∈ ss.zip xs, Validates vc root p.1 p.2 := by
  rw [validates_obj_iff]
  simp only [List.mem_cons, List.not_mem_nil, or_false, forall_eq_or_imp, forall_eq, kwOk_type, isJsonType_array]
  constructor
  · rintro ⟨⟨xs, rfl⟩, ⟨_, h1⟩, ⟨_, h2⟩, h3⟩
    have h1 : n ≤ xs.length := by simpa using Option.some.inj h1
    have h2 : (xs.length : Int) ≤ n := by simpa using Option.some.inj h2
    exact ⟨xs, rfl, by omega, allO_valid.1 h3⟩
  · rintro ⟨xs, rfl, h, h'⟩
    refine ⟨⟨xs, rfl⟩, ⟨0, ?_⟩, ⟨0, ?_⟩, allO_valid.2 h'⟩
    · show some (decide (n ≤ xs.length)) = _; simp; omega
    · show some (decide ((xs.length : Int) ≤ n)) = _; simp; omega

theorem valid_dict {s v : Json} :
    Validates vc root (.obj [(c!"type", js c!"object"), (c!"additionalProperties", s)]) v ↔
      ∃ kvs, v = .obj kvs ∧ ∀ kv ∈ kvs, Validates vc root s kv.2 := by
  rw [validates_obj_iff]
  simp only [List.mem_cons, List.not_mem_nil, or_false, forall_eq_or_imp, forall_eq, kwOk_type, isJsonType_object]
  have hp : ∀ kvs : List (Str × Json), (kvs.filter fun kv =>
      (lookupKey kv.1 (schemaProperties [(c!"type", js c!"object"), (c!"additionalProperties", s)])).isNone) = kvs := by
    intro kvs; exact List.filter_eq_self.2 fun kv _ => rfl
  constructor
  · rintro ⟨⟨kvs, rfl⟩, h⟩
    refine ⟨kvs, rfl, ?_⟩
    obtain ⟨n, hn⟩ := h
    have hn : allO ((kvs.filter fun kv => (lookupKey kv.1 (schemaProperties [(c!"type", js c!"object"),
      (c!"additionalProperties", s)])).isNone).map fun kv => validate vc root n s kv.2) = some true := hn
    rw [hp] at hn
    exact allO_valid.1 ⟨n, hn⟩
  · rintro ⟨kvs, rfl, h⟩
    refine ⟨⟨kvs, rfl⟩, ?_⟩
    obtain ⟨n, hn⟩ := allO_valid.2 h
    refine ⟨n, ?_⟩
    show allO ((kvs.filter fun kv => (lookupKey kv.1 (schemaProperties [(c!"type", js c!"object"),
      (c!"additionalProperties", s)])).isNone).map fun kv => validate vc root n s kv.2) = some true
    rw [hp]; exact hn

theorem valid_pattern {p x : Str} : Validates vc root (.obj [(c!"pattern", js p)]) (.str x) ↔ vc.pattern p x = true := by
  rw [validates_obj_iff]
  simp only [List.mem_cons, List.not_mem_nil, or_false, forall_eq]
  constructor
  · rintro ⟨_, h⟩; exact Option.some.inj h
  · intro h; exact ⟨0, congrArg some h⟩

theorem valid_dictPattern {s v : Json} {p : Str} :
    Validates vc root (.obj [(c!"type", js c!"object"), (c!"propertyNames", .obj [(c!"pattern", js p)]),
      (c!"additionalProperties", s)]) v ↔
      ∃ kvs, v = .obj kvs ∧ (∀ kv ∈ kvs, vc.pattern p kv.1 = true) ∧ ∀ kv ∈ kvs, Validates vc root s kv.2 := by
  rw [validates_obj_iff]
  simp only [List.mem_cons, List.not_mem_nil, or_false, forall_eq_or_imp, forall_eq, kwOk_type, isJsonType_object]
  have hp : ∀ kvs : List (Str × Json), (kvs.filter fun kv =>
      (lookupKey kv.1 (schemaProperties [(c!"type", js c!"object"), (c!"propertyNames", .obj [(c!"pattern", js p)]),
        (c!"additionalProperties", s)])).isNone) = kvs := by
    intro kvs; exact List.filter_eq_self.2 fun kv _ => rfl
  constructor
  · rintro ⟨⟨kvs, rfl⟩, h1, h⟩
    refine ⟨kvs, rfl, fun kv hkv => valid_pattern.1 (allO_valid.1 h1 kv hkv), ?_⟩
    obtain ⟨n, hn⟩ := h
    have hn : allO ((kvs.filter fun kv => (lookupKey kv.1 (schemaProperties [(c!"type", js c!"object"),
      (c!"propertyNames", .obj [(c!"pattern", js p)]), (c!"additionalProperties", s)])).isNone).map
        fun kv => validate vc root n s kv.2) = some true := hn
    rw [hp] at hn
    exact allO_valid.1 ⟨n, hn⟩
  · rintro ⟨kvs, rfl, h1, h⟩
    refine ⟨⟨kvs, rfl⟩, allO_valid.2 fun kv hkv => valid_pattern.2 (h1 kv hkv), ?_⟩
    obtain ⟨n, hn⟩ := allO_valid.2 h
    refine ⟨n, ?_⟩
    show allO ((kvs.filter fun kv => (lookupKey kv.1 (schemaProperties [(c!"type", js c!"object"),
      (c!"propertyNames", .obj [(c!"pattern", js p)]), (c!"additionalProperties", s)])).isNone).map
        fun kv => validate vc root n s kv.2) = some true
    rw [hp]; exact hn

theorem valid_ref {r : Str} {s v : Json} (hr : resolveRef root r = some s) :
    Validates vc root (.obj [(c!"$ref", js r)]) v ↔ Validates vc root s v := by
  rw [validates_obj_iff]
  simp only [List.mem_cons, List.not_mem_nil, or_false, forall_eq]
  have h : ∀ n, keywordCheck vc root (validate vc root n) [(c!"$ref", js r)] (keywordOf c!"$ref") (js r) v =
      validate vc root n s v := by
    intro n
    show (match resolveRef root r with | some s => validate vc root n s v | none => none) = _
    rw [hr]
  unfold KwOk Validates
  simp only [h]

theorem kwOk_properties {s : Sch} {ps kvs : List (Str × Json)} :
    KwOk vc root s c!"properties" (.obj ps) (.obj kvs) ↔
      ∀ p ∈ ps, ∀ x, lookupKey p.1 kvs = some x → Validates vc root p.2 x := by
  unfold KwOk
  have he : ∀ n, keywordCheck vc root (validate vc root n) s (keywordOf c!"properties") (.obj ps) (.obj kvs) =
      allO (ps.map fun p => match lookupKey p.1 kvs with | some x => validate vc root n p.2 x | none => some true) := fun _ => rfl
  constructor
  · rintro ⟨n, hn⟩ p hp x hx
    rw [he, allO_true_iff] at hn
    have := hn _ (List.mem_map.2 ⟨p, hp, rfl⟩)
    rw [hx] at this
    exact ⟨n, this⟩
  · intro h
    obtain ⟨n, hn⟩ := eventually_all (P := fun (p : Str × Json) n => ∀ x, lookupKey p.1 kvs = some x → validate vc root n p.2 x = some true)
      (fun _ _ _ hnm h x hx => validate_mono hnm _ _ _ (h x hx)) ps (by
        intro p hp
        cases hl : lookupKey p.1 kvs with
        | none => exact ⟨0, fun x hx => by cases hx⟩
        | some y =>
          obtain ⟨n, hn⟩ := h p hp y hl
          exact ⟨n, fun x hx => by cases hx; exact hn⟩)
    refine ⟨n, ?_⟩
    rw [he, allO_true_iff]
    intro o ho
    obtain ⟨p, hp, rfl⟩ := List.mem_map.1 ho
    cases hl : lookupKey p.1 kvs with
    | none => rfl
    | some y => exact hn p hp y hl

theorem not_valid_false {v : Json} : ¬ Validates vc root (.bool false) v := by
  rintro ⟨n, hn⟩
  cases n <;> simp [validate] at hn

/-- No other properties. -/
theorem kwOk_noOther {s : Sch} {kvs : List (Str × Json)} :
    KwOk vc root s c!"additionalProperties" (.bool false) (.obj kvs) ↔
      ∀ kv ∈ kvs, (lookupKey kv.1 (schemaProperties s)).isSome := by
  have h : KwOk vc root s c!"additionalProperties" (.bool false) (.obj kvs) ↔
      ∀ kv ∈ kvs.filter (fun kv => (lookupKey kv.1 (schemaProperties s)).isNone), Validates vc root (.bool false) kv.2 :=
    allO_valid (f := fun _ => .bool false) (g := fun kv : Str × Json => kv.2)
  rw [h]
  simp only [List.mem_filter, and_imp]
  constructor
  · intro h kv hkv
    cases hl : lookupKey kv.1 (schemaProperties s) with
    | some x => rfl
    | none => exact absurd (h kv hkv (by rw [hl]; rfl)) not_valid_false
  · intro h kv hkv hl
    have := h kv hkv
    cases hl' : lookupKey kv.1 (schemaProperties s) with
    | some x => rw [hl'] at hl; cases hl
    | none => rw [hl'] at this; cases this

theorem kwOk_required {s : Sch} {rs : List Str} {kvs : List (Str × Json)} :
    KwOk vc root s c!"required" (.arr (rs.map Json.str)) (.obj kvs) ↔ ∀ r ∈ rs, (lookupKey r kvs).isSome := by
  unfold KwOk
  have he : ∀ n, keywordCheck vc root (validate vc root n) s (keywordOf c!"required") (.arr (rs.map Json.str)) (.obj kvs) =
      allO ((rs.map Json.str).map fun r => match r with | .str n => some (lookupKey n kvs).isSome | _ => none) := fun _ => rfl
  simp only [he, allO_true_iff, List.map_map, List.mem_map, Function.comp]
  constructor
  · rintro ⟨_, h⟩ r hr
    exact Option.some.inj (h _ ⟨r, hr, rfl⟩)
  · intro h
    refine ⟨0, ?_⟩
    rintro o ⟨r, hr, rfl⟩
    exact congrArg some (h r hr)

theorem valid_props {ps : List (Str × Json)} {v : Json} :
    Validates vc root (.obj [(c!"type", js c!"object"), (c!"properties", .obj ps), (c!"additionalProperties", .bool false)]) v ↔
      ∃ kvs, v = .obj kvs ∧ (∀ p ∈ ps, ∀ x, lookupKey p.1 kvs = some x → Validates vc root p.2 x) ∧
        ∀ kv ∈ kvs, (lookupKey kv.1 ps).isSome := by
  rw [validates_obj_iff]
  simp only [List.mem_cons, List.not_mem_nil, or_false, forall_eq_or_imp, forall_eq, kwOk_type, isJsonType_object]
  constructor
  · rintro ⟨⟨kvs, rfl⟩, h1, h2⟩; exact ⟨kvs, rfl, kwOk_properties.1 h1, kwOk_noOther.1 h2⟩
  · rintro ⟨kvs, rfl, h1, h2⟩; exact ⟨⟨kvs, rfl⟩, kwOk_properties.2 h1, kwOk_noOther.2 h2⟩

theorem valid_class {ps : List (Str × Json)} {req : List Str} {v : Json} :
    Validates vc root (.obj (classSchema ps req)) v ↔
      ∃ kvs, v = .obj kvs ∧ (ps ≠ [] → (∀ p ∈ ps, ∀ x, lookupKey p.1 kvs = some x → Validates vc root p.2 x) ∧
        ∀ kv ∈ kvs, (lookupKey kv.1 ps).isSome) ∧ ∀ r ∈ req, (lookupKey r kvs).isSome := by
  rw [validates_obj_iff]
  have hprops : ps ≠ [] → schemaProperties (classSchema ps req) = ps := by
    intro h; unfold schemaProperties; rw [classSchema_properties ps req h]
  constructor
  · intro h
    obtain ⟨kvs, rfl⟩ := isJsonType_object.1 (kwOk_type.1 (h (c!"type", js c!"object") (by simp [classSchema])))
    refine ⟨kvs, rfl, ?_, ?_⟩
    · intro hp
      have hp' : ps.isEmpty = false := by cases ps with | nil => exact absurd rfl hp | cons => rfl
      refine ⟨kwOk_properties.1 (h (c!"properties", .obj ps) (by simp [classSchema, hp'])), ?_⟩
      have := kwOk_noOther.1 (h (c!"additionalProperties", .bool false) (by simp [classSchema, hp']))
      rwa [hprops hp] at this
    · intro r hr
      have hr' : req.isEmpty = false := by cases req with | nil => cases hr | cons => rfl
      exact kwOk_required.1 (h (c!"required", .arr (req.map Json.str)) (by simp [classSchema, hr'])) r hr
  · rintro ⟨kvs, rfl, h1, h2⟩ ka hka
    simp only [classSchema, List.mem_append, List.mem_singleton] at hka
    rcases hka with (rfl | hka) | hka
    · exact kwOk_type.2 (isJsonType_object.2 ⟨_, rfl⟩)
    · split at hka
      · cases hka
      · rename_i hp
        have hp : ps ≠ [] := by rintro rfl; exact hp rfl
        simp only [List.mem_cons, List.not_mem_nil, or_false] at hka
        rcases hka with rfl | rfl
        · exact kwOk_properties.2 (h1 hp).1
        · refine kwOk_noOther.2 ?_
          rw [hprops hp]; exact (h1 hp).2
    · split at hka
      · cases hka
      · rcases List.mem_singleton.1 hka with rfl
        exact kwOk_required.2 h2

/-! ### Exactly one -/

theorem countO_zero {l : List (Option Bool)} (h : ∀ o ∈ l, o = some false) : countO l = some 0 := by
  induction l with
  | nil => rfl
  | cons o os ih => simp [countO, h o (by simp), ih (fun o ho => h o (by simp [ho]))]

theorem countO_one : ∀ {l : List (Option Bool)} {i : Nat}, l[i]? = some (some true) →
    (∀ k o, k ≠ i → l[k]? = some o → o = some false) → countO l = some 1 := by
  intro l
  induction l with
  | nil => intro i h; cases h
  | cons o os ih =>
    intro i hi ho
    cases i with
    | zero =>
      simp only [List.getElem?_cons_zero, Option.some.injEq] at hi
      have hz : countO os = some 0 := countO_zero (by
        intro o' ho'
        obtain ⟨k, hk⟩ := List.mem_iff_getElem?.1 ho'
        exact ho (k + 1) o' (by omega) (by simpa using hk))
      simp [countO, hi, hz]
    | succ i =>
      have h0 := ho 0 o (by omega) rfl
      have := ih (i := i) (by simpa using hi) (fun k o' hk hk' => ho (k + 1) o' (by omega) (by simpa using hk'))
      simp [countO, h0, this]

theorem valid_oneOf {ss : List Json} {v : Json} {i : Nat} {s : Json} (hi : ss[i]? = some s) (hs : Validates vc root s v)
    (ho : ∀ k s', k ≠ i → ss[k]? = some s' → Rejects vc root s' v) : Validates vc root (.obj [(c!"oneOf", .arr ss)]) v := by
  rw [validates_obj_iff]
  simp only [List.mem_cons, List.not_mem_nil, or_false, forall_eq]
  obtain ⟨n, hn⟩ := eventually_all (α := Nat)
    (P := fun k n => ∀ s', ss[k]? = some s' → validate vc root n s' v = some (decide (k = i)))
    (fun k n m hnm h s' hs' => validate_mono hnm _ _ _ (h s' hs')) (List.range ss.length) (by
      intro k _
      cases hk : ss[k]? with
      | none => exact ⟨0, fun s' h => by cases h⟩
      | some x =>
        by_cases he : k = i
        · subst he
          rw [hi] at hk; cases hk
          obtain ⟨n, hn⟩ := hs
          exact ⟨n, fun s' h => by cases h; simpa using hn⟩
        · obtain ⟨n, hn⟩ := ho k x he hk
          exact ⟨n, fun s' h => by cases h; simpa [he] using hn⟩)
  have hn : ∀ k s', ss[k]? = some s' → validate vc root n s' v = some (decide (k = i)) := by
    intro k s' h
    refine hn k (List.mem_range.2 ?_) s' h
    exact (List.getElem?_eq_some_iff.1 h).1
  have hc : countO (ss.map fun s => validate vc root n s v) = some 1 := by
    refine countO_one (i := i) ?_ ?_
    · rw [List.getElem?_map, hi]
      simpa using hn i s hi
    · intro k o hk ho'
      rw [List.getElem?_map] at ho'
      cases hk' : ss[k]? with
      | none => rw [hk'] at ho'; cases ho'
      | some s' =>
        rw [hk'] at ho'
        simp only [Option.map_some, Option.some.injEq] at ho'
        rw [← ho', hn k s' hk']
        simp [hk]
  refine ⟨n, ?_⟩
  show (match countO (ss.map fun s => validate vc root n s v) with | some n => some (n == 1) | none => none) = some true
  rw [hc]; rfl

end Verif
