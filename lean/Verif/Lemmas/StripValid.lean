import Verif.Lemmas.SchemaText
import Verif.Lemmas.SchemaDoc
/-!
# Descriptive text and validation

A document is valid for a schema if and only if it is valid for the schema without descriptive text.
-/
namespace Verif

variable {vc : ValidatorCfg}

/-- A reference to a definition at the top of the document. -/
def PlainRef (r : Str) : Prop := ∃ n : Str, '/' ∉ n ∧ r = c!"#/definitions/" ++ n

/-- All references in a schema are such. -/
def PlainRefs (j : Json) : Prop := ∀ r, HasRef j r → PlainRef r

theorem schemaKind_of {k : Str} (h : k ∈ [c!"items", c!"additionalProperties", c!"propertyNames"]) :
    k ∉ descriptiveKeywords ∧ lookupKey k metaKeywords = some .schema := by
  simp only [List.mem_cons, List.not_mem_nil, or_false] at h
  rcases h with rfl | rfl | rfl <;> exact ⟨by decide, by decide +kernel⟩

theorem schemasKind_of {k : Str} (h : k ∈ [c!"oneOf", c!"prefixItems"]) :
    k ∉ descriptiveKeywords ∧ lookupKey k metaKeywords = some .schemas := by
  simp only [List.mem_cons, List.not_mem_nil, or_false] at h
  rcases h with rfl | rfl <;> exact ⟨by decide, by decide +kernel⟩

theorem properties_kind : c!"properties" ∉ descriptiveKeywords ∧ lookupKey c!"properties" metaKeywords = some .schemaMap :=
  ⟨by decide, by decide +kernel⟩

theorem definitions_kind : c!"definitions" ∉ descriptiveKeywords ∧ lookupKey c!"definitions" metaKeywords = some .schemaMap :=
  ⟨by decide, by decide +kernel⟩

theorem HasRef.strip {j : Json} {r : Str} (h : HasRef j r) : HasRef (stripText j) r := by
  induction h with
  | here h =>
    rw [stripText_obj]
    exact .here (mem_stripKws.2 ⟨by decide, _, h, (fixed_key (by decide +kernel) _).2.1.symm⟩)
  | @single kvs k s r hk hm _ ih =>
    obtain ⟨h1, h2⟩ := schemaKind_of hk
    rw [stripText_obj]
    exact .single hk (mem_stripKws.2 ⟨h1, s, hm, by rw [stripOf, h2, stripArg_schema]⟩) ih
  | @many kvs k ss s r hk hm hs _ ih =>
    obtain ⟨h1, h2⟩ := schemasKind_of hk
    rw [stripText_obj]
    exact .many hk (mem_stripKws.2 ⟨h1, _, hm, by rw [stripOf, h2, stripArg_schemas]⟩) (List.mem_map.2 ⟨s, hs, rfl⟩) ih
  | @property kvs ps n s r hm hs _ ih =>
    obtain ⟨h1, h2⟩ := properties_kind
    rw [stripText_obj]
    exact .property (mem_stripKws.2 ⟨h1, _, hm, by rw [stripOf, h2, stripArg_schemaMap]⟩) (List.mem_map.2 ⟨(n, s), hs, rfl⟩) ih

theorem HasRef.unstrip {x : Json} {r : Str} (h : HasRef x r) : ∀ j, stripText j = x → HasRef j r := by
  have hobj : ∀ {j : Json} {kvs : List (Str × Json)}, stripText j = .obj kvs → ∃ l, j = .obj l ∧ kvs = stripKws l := by
    intro j kvs h
    cases j with
    | obj l => rw [stripText_obj] at h; cases h; exact ⟨l, rfl, rfl⟩
    | _ => rw [stripText_other (by intro _ h; cases h)] at h; cases h
  induction h with
  | here h =>
    intro j hj
    obtain ⟨l, rfl, rfl⟩ := hobj hj
    obtain ⟨-, a, h1, h2⟩ := mem_stripKws.1 h
    rw [(fixed_key (by decide +kernel) a).2.1] at h2
    subst h2
    exact .here h1
  | @single kvs k s r hk hm _ ih =>
    intro j hj
    obtain ⟨l, rfl, rfl⟩ := hobj hj
    obtain ⟨-, a, h1, h2⟩ := mem_stripKws.1 hm
    rw [stripOf, (schemaKind_of hk).2, stripArg_schema] at h2
    exact .single hk h1 (ih a h2.symm)
  | @many kvs k ss s r hk hm hs _ ih =>
    intro j hj
    obtain ⟨l, rfl, rfl⟩ := hobj hj
    obtain ⟨-, a, h1, h2⟩ := mem_stripKws.1 hm
    rw [stripOf, (schemasKind_of hk).2] at h2
    cases a with
    | arr xs =>
      rw [stripArg_schemas] at h2
      cases h2
      obtain ⟨y, hy, rfl⟩ := List.mem_map.1 hs
      exact .many hk h1 hy (ih y rfl)
    | _ => simp [stripArg] at h2
  | @property kvs ps n s r hm hs _ ih =>
    intro j hj
    obtain ⟨l, rfl, rfl⟩ := hobj hj
    obtain ⟨-, a, h1, h2⟩ := mem_stripKws.1 hm
    rw [stripOf, properties_kind.2] at h2
    cases a with
    | obj xs =>
      rw [stripArg_schemaMap] at h2
      cases h2
      obtain ⟨⟨n', y⟩, hy, he⟩ := List.mem_map.1 hs
      cases he
      exact .property h1 hy (ih y rfl)
    | _ => simp [stripArg] at h2

theorem hasRef_strip {j : Json} {r : Str} : HasRef (stripText j) r ↔ HasRef j r := ⟨fun h => h.unstrip j rfl, fun h => h.strip⟩

/-! ### References -/

theorem lookup_mapText (n : Str) (ps : List (Str × Json)) :
    lookupKey n (ps.map fun kv => (kv.1, stripText kv.2)) = (lookupKey n ps).map stripText := by
  induction ps with
  | nil => rfl
  | cons p ps ih =>
    obtain ⟨k, a⟩ := p
    rw [List.map_cons, lookupKey, lookupKey]
    split
    · rfl
    · exact ih

theorem walk_two (kvs : List (Str × Json)) (n : Str) :
    walkJson (.obj (stripKws kvs)) [c!"definitions", n] = (walkJson (.obj kvs) [c!"definitions", n]).map stripText := by
  simp only [walkJson]
  rw [lookup_stripKws definitions_kind.1]
  cases lookupKey c!"definitions" kvs with
  | none => rfl
  | some a =>
    simp only [Option.map_some, stripOf, definitions_kind.2]
    cases a with
    | obj ps =>
      rw [stripArg_schemaMap]
      simp only [walkJson]
      rw [lookup_mapText]
      cases lookupKey n ps <;> rfl
    | arr xs => simp [stripArg, walkJson]
    | _ => simp [stripArg, walkJson]

theorem pointerParts_name : ∀ {n : Str}, '/' ∉ n → pointerParts n = [n]
  | [], _ => rfl
  | c :: n, h => by
    rw [pointerParts, if_neg (fun he => h (by simp [he])), pointerParts_name fun h' => h (by simp [h'])]

theorem resolve_plain (root : List (Str × Json)) {r : Str} (h : PlainRef r) :
    resolveRef (.obj (stripKws root)) r = (resolveRef (.obj root) r).map stripText ∧
    ∀ d, resolveRef (.obj root) r = some d → ∃ n ps, lookupKey c!"definitions" root = some (.obj ps) ∧ lookupKey n ps = some d := by
  obtain ⟨n, hn, rfl⟩ := h
  have hparts : pointerParts (c!"definitions/" ++ n) = [c!"definitions", n] := by
    simp [pointerParts, pointerParts_name hn]
  have hr : ∀ j, resolveRef j (c!"#/definitions/" ++ n) = if '%' ∈ c!"definitions/" ++ n then none
      else walkJson j [c!"definitions", unescapeRef n] := by
    intro j
    show (if '%' ∈ c!"definitions/" ++ n then none else walkJson j ((pointerParts (c!"definitions/" ++ n)).map unescapeRef)) = _
    rw [hparts]
    rfl
  rw [hr, hr]
  split
  · exact ⟨rfl, fun d h => by cases h⟩
  · refine ⟨walk_two _ _, ?_⟩
    intro d hd
    simp only [walkJson] at hd
    cases hl : lookupKey c!"definitions" root with
    | none => rw [hl] at hd; cases hd
    | some a =>
      rw [hl] at hd
      cases a with
      | obj ps =>
        simp only [walkJson] at hd
        cases hp : lookupKey (unescapeRef n) ps with
        | none => rw [hp] at hd; cases hd
        | some x => rw [hp] at hd; cases hd; exact ⟨_, ps, rfl, hp⟩
      | _ => simp [walkJson] at hd

/-! ### Validation -/

/-- What is known about a keyword that is checked: its name, and the kind of its argument. -/
theorem keywordNames_spec : ∀ p ∈ keywordNames, p.1 ∉ descriptiveKeywords ∧
    (lookupKey p.1 metaKeywords = some .schema ∧ p.2 ∈ [Keyword.items, .additionalProperties, .propertyNames] ∧
      p.1 ∈ [c!"items", c!"additionalProperties", c!"propertyNames"] ∨
     lookupKey p.1 metaKeywords = some .schemas ∧ p.2 ∈ [Keyword.oneOf, .prefixItems] ∧ p.1 ∈ [c!"oneOf", c!"prefixItems"] ∨
     p.2 = .properties ∧ p.1 = c!"properties" ∨
     p.1 ∈ flatKeys ∧ p.2 ∉ [Keyword.items, .additionalProperties, .propertyNames, .oneOf, .prefixItems, .properties] ∧
      (p.2 = .ref → p.1 = c!"$ref")) := by decide +kernel

theorem schemaProperties_strip (s : Sch) :
    schemaProperties (stripKws s) = (schemaProperties s).map fun kv => (kv.1, stripText kv.2) := by
  unfold schemaProperties
  rw [lookup_stripKws properties_kind.1]
  cases lookupKey c!"properties" s with
  | none => rfl
  | some a =>
    simp only [Option.map_some, stripOf, properties_kind.2]
    cases a with
    | obj ps => rw [stripArg_schemaMap]
    | arr xs => simp [stripArg]
    | _ => simp [stripArg]

theorem keyword_strip {root s : Sch} {rec rec' : Json → Json → Option Bool}
    (hrec : ∀ x v, (∀ r, HasRef x r → HasRef (.obj s) r) → rec' (stripText x) v = rec x v)
    (href : ∀ r, HasRef (.obj s) r → PlainRef r) (hdef : ∀ r d v, HasRef (.obj s) r → resolveRef (.obj root) r = some d →
      rec' (stripText d) v = rec d v) {k : Str} {a v : Json} (hka : (k, a) ∈ s) (hk : k ∉ descriptiveKeywords) :
    keywordCheck vc (.obj (stripKws root)) rec' (stripKws s) (keywordOf k) (stripOf k a) v =
      keywordCheck vc (.obj root) rec s (keywordOf k) a v := by
  unfold keywordOf
  cases hl : lookupKey k keywordNames with
  | none => rfl
  | some kw =>
    obtain ⟨-, hs⟩ := keywordNames_spec (k, kw) (lookupKey_some_mem hl)
    dsimp only at hs
    simp only [Option.getD_some]
    rcases hs with ⟨h1, h2, h3⟩ | ⟨h1, h2, h3⟩ | ⟨h1, h2⟩ | ⟨h1, h2, h3⟩
    · have hr : ∀ v, rec' (stripText a) v = rec a v := fun v => hrec a v fun r hr => .single h3 hka hr
      rw [stripOf, h1, stripArg_schema]
      simp only [List.mem_cons, List.not_mem_nil, or_false] at h2
      rcases h2 with rfl | rfl | rfl
      · simp only [keywordCheck, hr]
      · simp only [keywordCheck, hr, schemaProperties_strip, lookup_mapText, Option.isNone_map]
      · simp only [keywordCheck, hr]
    · rw [stripOf, h1]
      cases a with
      | arr ss =>
        have hr : ∀ x ∈ ss, ∀ v, rec' (stripText x) v = rec x v := fun x hx v => hrec x v fun r hr => .many h3 hka hx hr
        rw [stripArg_schemas]
        simp only [List.mem_cons, List.not_mem_nil, or_false] at h2
        rcases h2 with rfl | rfl
        · simp only [keywordCheck, List.map_map]
          rw [show (ss.map ((fun s => rec' s v) ∘ stripText)) = ss.map fun s => rec s v from
            List.map_congr_left fun x hx => hr x hx v]
        · simp only [keywordCheck]
          cases v with
          | arr xs =>
            dsimp only
            congr 1
            rw [List.zip_map_left, List.map_map]
            refine List.map_congr_left ?_
            rintro ⟨x, y⟩ hp
            exact hr x (List.of_mem_zip hp).1 y
          | _ => rfl
      | obj kvs =>
        simp only [List.mem_cons, List.not_mem_nil, or_false] at h2
        rcases h2 with rfl | rfl <;> simp [stripArg, keywordCheck]
      | _ =>
        simp only [List.mem_cons, List.not_mem_nil, or_false] at h2
        rcases h2 with rfl | rfl <;> simp [stripArg, keywordCheck]
    · subst h1 h2
      rw [stripOf, properties_kind.2]
      cases a with
      | obj ps =>
        rw [stripArg_schemaMap]
        simp only [keywordCheck]
        cases v with
        | obj kvs =>
          dsimp only
          congr 1
          rw [List.map_map]
          refine List.map_congr_left ?_
          rintro ⟨n, x⟩ hp
          simp only [Function.comp]
          cases lookupKey n kvs with
          | none => rfl
          | some y => exact hrec x y fun r hr => .property hka hp hr
        | _ => rfl
      | arr xs => simp [stripArg, keywordCheck]
      | _ => simp [stripArg, keywordCheck]
    · have hf : stripOf k a = a := (fixed_key h1 a).2.1
      rw [hf]
      cases kw with
      | ref =>
        have := h3 rfl
        subst this
        cases a with
        | str r =>
          have hh : HasRef (.obj s) r := .here hka
          obtain ⟨h4, -⟩ := resolve_plain root (href r hh)
          simp only [keywordCheck]
          rw [h4]
          cases hd : resolveRef (.obj root) r with
          | none => rfl
          | some d => exact hdef r d v hh hd
        | _ => rfl
      | items => exact absurd h2 (by decide)
      | additionalProperties => exact absurd h2 (by decide)
      | propertyNames => exact absurd h2 (by decide)
      | oneOf => exact absurd h2 (by decide)
      | prefixItems => exact absurd h2 (by decide)
      | properties => exact absurd h2 (by decide)
      | _ => rfl

theorem text_other {k : Str} (h : k ∈ descriptiveKeywords) : keywordOf k = .other := by
  simp only [descriptiveKeywords, List.mem_cons, List.not_mem_nil, or_false] at h
  rcases h with rfl | rfl <;> decide +kernel

theorem allO_some_true (os : List (Option Bool)) : allO (some true :: os) = allO os := by
  rw [allO.eq_def]
  dsimp only
  cases allO os <;> simp

theorem allO_congr {o o' : Option Bool} {os os' : List (Option Bool)} (h : o = o') (h' : allO os = allO os') :
    allO (o :: os) = allO (o' :: os') := by
  subst h
  rw [allO.eq_def, allO.eq_def (o :: os')]
  dsimp only
  rw [h']

theorem checks_strip {root : Sch} {rec rec' : Json → Json → Option Bool} {s s' : Sch} {v : Json} : ∀ (l : Sch),
    (∀ k a, (k, a) ∈ l → k ∉ descriptiveKeywords → keywordCheck vc (.obj (stripKws root)) rec' s' (keywordOf k) (stripOf k a) v =
      keywordCheck vc (.obj root) rec s (keywordOf k) a v) →
    allO ((stripKws l).map fun ka => keywordCheck vc (.obj (stripKws root)) rec' s' (keywordOf ka.1) ka.2 v) =
      allO (l.map fun ka => keywordCheck vc (.obj root) rec s (keywordOf ka.1) ka.2 v)
  | [], _ => by rw [stripKws_nil]; rfl
  | (k, a) :: l, h => by
    have ih := checks_strip l fun k a hm => h k a (by simp [hm])
    by_cases hk : k ∈ descriptiveKeywords
    · rw [stripKws_text hk, ih, List.map_cons, text_other hk]
      exact (allO_some_true _).symm
    · rw [stripKws_cons hk, List.map_cons, List.map_cons]
      exact allO_congr (h k a (by simp) hk) ih

/-- Validation does not depend on descriptive text. -/
theorem validate_strip {root : Sch} (hdefs : ∀ n d ps, lookupKey c!"definitions" root = some (.obj ps) → lookupKey n ps = some d →
    PlainRefs d) : ∀ (n : Nat) (s v : Json), PlainRefs s →
    validate vc (stripText (.obj root)) n (stripText s) v = validate vc (.obj root) n s v
  | 0, _, _, _ => rfl
  | n + 1, s, v, hs => by
    cases s with
    | obj s =>
      rw [stripText_obj, stripText_obj, validate, validate]
      refine checks_strip s fun k a hka hk => keyword_strip ?_ hs ?_ hka hk
      · intro x v hx
        rw [← stripText_obj]
        exact validate_strip hdefs n x v fun r hr => hs r (hx r hr)
      · intro r d v hr hd
        obtain ⟨m, ps, h1, h2⟩ := (resolve_plain root (hs r hr)).2 d hd
        rw [← stripText_obj]
        exact validate_strip hdefs n d v (hdefs m d ps h1 h2)
    | _ => simp only [stripText, stripArg, validate]

end Verif
