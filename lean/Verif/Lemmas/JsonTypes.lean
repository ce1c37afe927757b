import Verif.Model.JsonTypes
import Verif.Model.Serializer
import Verif.Spec.JsonTypes
import Verif.Lemmas.JsonSchema
import Verif.Lemmas.Core
import Verif.Props.C50_Annotations
/-!
# Lemmas on unrestricted JSON types
-/
namespace Verif

theorem asVals_eq (xs : List Json) : Json.asVals xs = xs.map Json.asVal := by
  induction xs with
  | nil => rfl
  | cons x xs ih => simp only [Json.asVals, ih, List.map_cons]

theorem asPairs_eq (kvs : List (Str × Json)) : Json.asPairs kvs = kvs.map fun kv => (Key.str kv.1, kv.2.asVal) := by
  induction kvs with
  | nil => rfl
  | cons kv kvs ih => obtain ⟨k, x⟩ := kv; simp only [Json.asPairs, ih, List.map_cons]

theorem jParseArr_eq (ctx : Option Context) (xs : List Json) : jParseArr ctx xs = xs.map (jParse ctx) := by
  induction xs with
  | nil => rfl
  | cons x xs ih => simp only [jParseArr, ih, List.map_cons]

theorem jParseObj_eq (ctx : Option Context) (kvs : List (Str × Json)) : jParseObj ctx kvs = kvs.map fun kv => (kv.1, jParse ctx kv.2) := by
  induction kvs with
  | nil => rfl
  | cons kv kvs ih => obtain ⟨k, x⟩ := kv; simp only [jParseObj, ih, List.map_cons]

/-! ### Lists of results -/

theorem mapRes_items {t : JTy} {xs : List Json} {f : Json → JTy → Res Val} (h : ∀ x ∈ xs, f x t = .ok x.asVal) :
    mapRes (fun g => g t) (xs.map f) = .ok (xs.map Json.asVal) := by
  induction xs with
  | nil => rfl
  | cons x xs ih =>
    simp only [List.map_cons, mapRes, h x (by simp), ih fun x hx => h x (by simp [hx])]

theorem mapRes_items_error {t : JTy} {xs : List Json} {f : Json → JTy → Res Val} {e : Err}
    (h : ∀ x ∈ xs, f x t = .ok x.asVal ∨ f x t = .error e) (hx : ∃ x ∈ xs, f x t = .error e) :
    mapRes (fun g => g t) (xs.map f) = .error e := by
  induction xs with
  | nil => obtain ⟨x, hx, -⟩ := hx; cases hx
  | cons x xs ih =>
    simp only [List.map_cons, mapRes]
    rcases h x (by simp) with h0 | h0
    · rw [h0]
      simp only
      rw [ih (fun x hx => h x (by simp [hx]))]
      obtain ⟨y, hy, he⟩ := hx
      rcases List.mem_cons.1 hy with rfl | hy
      · rw [h0] at he; cases he
      · exact ⟨y, hy, he⟩
    · rw [h0]

theorem jPairs_ok {t : JTy} {f : Json → JTy → Res Val} : ∀ {kvs : List (Str × Json)} (acc : List (Key × Val)),
    (∀ kv ∈ kvs, f kv.2 t = .ok kv.2.asVal) → (kvs.map (·.1)).Nodup → (∀ kv ∈ kvs, Key.str kv.1 ∉ acc.map Prod.fst) →
    jPairs t acc (kvs.map fun kv => (kv.1, f kv.2)) = .ok (acc ++ kvs.map fun kv => (Key.str kv.1, kv.2.asVal)) := by
  intro kvs
  induction kvs with
  | nil => intro acc _ _ _; simp [jPairs]
  | cons kv kvs ih =>
    intro acc h hn ha
    obtain ⟨k, x⟩ := kv
    rw [List.map_cons, List.nodup_cons] at hn
    simp only [List.map_cons, jPairs, h (k, x) (by simp)]
    rw [upsert_of_not_mem (ha (k, x) (by simp)), ih _ (fun kv hkv => h kv (by simp [hkv])) hn.2]
    · simp
    · intro kv hkv
      simp only [List.map_append, List.map_cons, List.map_nil, List.mem_append, List.mem_singleton, not_or]
      refine ⟨ha kv (by simp [hkv]), fun he => hn.1 ?_⟩
      injection he with he
      exact List.mem_map.2 ⟨kv, hkv, he⟩

theorem jPairs_error {t : JTy} {f : Json → JTy → Res Val} {e : Err} : ∀ {kvs : List (Str × Json)} (acc : List (Key × Val)),
    (∀ kv ∈ kvs, f kv.2 t = .ok kv.2.asVal ∨ f kv.2 t = .error e) → (∃ kv ∈ kvs, f kv.2 t = .error e) →
    jPairs t acc (kvs.map fun kv => (kv.1, f kv.2)) = .error e := by
  intro kvs
  induction kvs with
  | nil => rintro acc _ ⟨kv, h, -⟩; cases h
  | cons kv kvs ih =>
    intro acc h hx
    obtain ⟨k, x⟩ := kv
    simp only [List.map_cons, jPairs]
    rcases h (k, x) (by simp) with h0 | h0
    · simp only at h0
      rw [h0]
      simp only
      rw [ih _ (fun kv hkv => h kv (by simp [hkv]))]
      obtain ⟨y, hy, he⟩ := hx
      rcases List.mem_cons.1 hy with rfl | hy
      · simp only at he; rw [h0] at he; cases he
      · exact ⟨y, hy, he⟩
    · simp only at h0
      rw [h0]

/-! ### Reading -/

theorem evaluate_fwd {names : Context} {n : Str} {t : JTy} (h : lookupKey n names = some t) : (JTy.fwd n).evaluate (some names) = t := by
  simp only [JTy.evaluate, h]

theorem jParse_name {names : Context} {n : Str} {ts : List JTy} (h : lookupKey n names = some (.union ts)) (j : Json) :
    jParse (some names) j (.union ts) = jParse (some names) j (.fwd n) := by
  cases j <;> simp only [jParse, evaluate_fwd h] <;> rfl

theorem jParse_json {names : Context} (h : lookupKey c!"JsonType" names = some jsonType) {j : Json} (hj : j.Wf) :
    jParse (some names) j (.fwd c!"JsonType") = .ok j.asVal := by
  induction hj with
  | null => simp only [jParse, evaluate_fwd h]; rfl
  | bool => simp only [jParse, evaluate_fwd h]; rfl
  | int => simp only [jParse, evaluate_fwd h]; rfl
  | float => simp only [jParse, evaluate_fwd h]; rfl
  | str => simp only [jParse, evaluate_fwd h]; rfl
  | @arr xs _ ih =>
    simp only [jParse, evaluate_fwd h]
    rw [jParseArr_eq]
    simp [jsonType, jParseD, jParseU, parseNone, parseBool, parseInt, parseFloat, parseStr, mapRes_items ih, Json.asVal, asVals_eq]
  | @obj kvs hn _ ih =>
    simp only [jParse, evaluate_fwd h]
    rw [jParseObj_eq]
    simp [jsonType, jParseD, jParseU, parseNone, parseBool, parseInt, parseFloat, parseStr, jPairs_ok [] ih hn, Json.asVal, asPairs_eq]

theorem jParse_strict {names : Context} (h : lookupKey c!"StrictJsonType" names = some strictJsonType) {j : Json} (hj : j.Wf) :
    (¬ j.HasNull ∧ jParse (some names) j (.fwd c!"StrictJsonType") = .ok j.asVal) ∨
      (j.HasNull ∧ jParse (some names) j (.fwd c!"StrictJsonType") = .error .jsonKey) := by
  have leaf : ∀ {j : Json}, j ≠ .null → (∀ xs, j ≠ .arr xs) → (∀ kvs, j ≠ .obj kvs) → ¬ j.HasNull := by
    intro j h1 h2 h3 h
    cases h with
    | self => exact h1 rfl
    | arr => exact h2 _ rfl
    | obj => exact h3 _ rfl
  induction hj with
  | null => right; exact ⟨.self, by simp only [jParse, evaluate_fwd h]; rfl⟩
  | bool => left; exact ⟨leaf (by simp) (by simp) (by simp), by simp only [jParse, evaluate_fwd h]; rfl⟩
  | int => left; exact ⟨leaf (by simp) (by simp) (by simp), by simp only [jParse, evaluate_fwd h]; rfl⟩
  | float => left; exact ⟨leaf (by simp) (by simp) (by simp), by simp only [jParse, evaluate_fwd h]; rfl⟩
  | str => left; exact ⟨leaf (by simp) (by simp) (by simp), by simp only [jParse, evaluate_fwd h]; rfl⟩
  | @arr xs _ ih =>
    simp only [jParse, evaluate_fwd h]
    rw [jParseArr_eq]
    by_cases hx : ∃ x ∈ xs, jParse (some names) x (.fwd c!"StrictJsonType") = .error .jsonKey
    · right
      have he := mapRes_items_error (fun x hx => (ih x hx).imp And.right And.right) hx
      refine ⟨?_, by simp [strictJsonType, jParseD, jParseU, parseBool, parseInt, parseFloat, parseStr, he]⟩
      obtain ⟨x, hm, hx⟩ := hx
      rcases ih x hm with ⟨-, h1⟩ | ⟨h1, -⟩
      · rw [h1] at hx; cases hx
      · exact .arr hm h1
    · left
      have hgood : ∀ x ∈ xs, ¬ x.HasNull ∧ jParse (some names) x (.fwd c!"StrictJsonType") = .ok x.asVal := fun x hm =>
        (ih x hm).resolve_right fun h1 => hx ⟨x, hm, h1.2⟩
      refine ⟨fun hn => ?_, by
        simp [strictJsonType, jParseD, jParseU, parseBool, parseInt, parseFloat, parseStr, mapRes_items fun x hm => (hgood x hm).2,
          Json.asVal, asVals_eq]⟩
      cases hn with
      | arr hm hn => exact (hgood _ hm).1 hn
  | @obj kvs hnd _ ih =>
    simp only [jParse, evaluate_fwd h]
    rw [jParseObj_eq]
    by_cases hx : ∃ kv ∈ kvs, jParse (some names) kv.2 (.fwd c!"StrictJsonType") = .error .jsonKey
    · right
      have he := jPairs_error [] (fun kv hx => (ih kv hx).imp And.right And.right) hx
      refine ⟨?_, by simp [strictJsonType, jParseD, jParseU, parseBool, parseInt, parseFloat, parseStr, he]⟩
      obtain ⟨x, hm, hx⟩ := hx
      rcases ih x hm with ⟨-, h1⟩ | ⟨h1, -⟩
      · rw [h1] at hx; cases hx
      · exact .obj hm h1
    · left
      have hgood : ∀ kv ∈ kvs, ¬ kv.2.HasNull ∧ jParse (some names) kv.2 (.fwd c!"StrictJsonType") = .ok kv.2.asVal := fun x hm =>
        (ih x hm).resolve_right fun h1 => hx ⟨x, hm, h1.2⟩
      refine ⟨fun hn => ?_, by
        simp [strictJsonType, jParseD, jParseU, parseBool, parseInt, parseFloat, parseStr, jPairs_ok [] (fun x hm => (hgood x hm).2) hnd,
          Json.asVal, asPairs_eq]⟩
      cases hn with
      | obj hm hn => exact (hgood _ hm).1 hn

/-! ### Schemas -/

/-- The schemas of the members of a recursive type that the schema with reference `r` stands for. -/
def memberSchemas (nullable : Bool) (r : Json) : List Json :=
  (if nullable then [.obj [(c!"type", js c!"null")]] else []) ++
    [.obj [(c!"type", js c!"boolean")], .obj [(c!"type", js c!"integer")], .obj [(c!"type", js c!"number")],
     .obj [(c!"type", js c!"string")], .obj [(c!"type", js c!"object"), (c!"additionalProperties", r)],
     .obj [(c!"type", js c!"array"), (c!"items", r)]]

/-- What such a schema amounts to, one level deep. -/
def levelCheck (nullable : Bool) (rec : Json → Option Bool) : Json → Option Bool
  | .null => some nullable
  | .bool _ => some true
  | .int _ => some false
  | .float f => some (!f.isInteger)
  | .str _ => some true
  | .arr xs => allO (xs.map rec)
  | .obj kvs => allO (kvs.map fun kv => rec kv.2)

theorem count_single (o : Option Bool) : (match (match o with | some a => some (if a then 1 else 0) | none => none : Option Nat) with
    | some n => some (n == 1) | none => none) = o := by
  rcases o with _ | _ | _ <;> rfl

theorem validate_level {vc : ValidatorCfg} {root : Json} {r : Str} {nullable : Bool} {extra : Sch} (hx : ∀ ka ∈ extra, keywordOf ka.1 = .other)
    (hr : resolveRef root r = some (.obj ((c!"oneOf", .arr (memberSchemas nullable (.obj [(c!"$ref", .str r)]))) :: extra))) (n : Nat) (j : Json) :
    validate vc root (n + 3) (.obj [(c!"$ref", .str r)]) j = levelCheck nullable (validate vc root n (.obj [(c!"$ref", .str r)])) j := by
  have k1 : keywordOf c!"$ref" = .ref := by decide
  have k2 : keywordOf c!"oneOf" = .oneOf := by decide
  have k3 : keywordOf c!"type" = .typ := by decide
  have k4 : keywordOf c!"items" = .items := by decide
  have k5 : keywordOf c!"additionalProperties" = .additionalProperties := by decide
  have one : ∀ o : Option Bool, allO [o] = o := by rintro (_ | _ | _) <;> rfl
  have ex : ∀ (s : Sch) (rec : Json → Json → Option Bool),
      allO (extra.map fun ka => keywordCheck vc root rec s (keywordOf ka.1) ka.2 j) = some true := by
    intro s rec
    rw [allO_true_iff]
    intro o ho
    obtain ⟨ka, hka, rfl⟩ := List.mem_map.1 ho
    rw [hx ka hka]; rfl
  have consT : ∀ (o : Option Bool) l, allO l = some true → allO (o :: l) = o := by
    intro o l h
    rcases o with _ | _ | _ <;> simp [allO, h]
  rw [validate]
  simp only [List.map_cons, List.map_nil, k1, keywordCheck, hr, one]
  rw [validate]
  simp only [List.map_cons, k2]
  rw [consT _ _ (ex _ _)]
  have tt : ∀ o : Option Bool, allO [some true, o] = o := by rintro (_ | _ | _) <;> rfl
  have ff : allO [some false, some true] = some false := rfl
  have ft : ∀ l : List (Str × Json), l.filter (fun _ => true) = l := fun l => List.filter_eq_self.2 fun _ _ => rfl
  cases nullable <;> cases j <;>
    simp [keywordCheck, memberSchemas, validate, js, k3, k4, k5, isJsonType, schemaProperties, lookupKey, one, tt, ff, ft, countO, levelCheck]
  all_goals first
    | (rename_i f; cases f.isInteger <;> rfl)
    | (generalize allO _ = o; rcases o with _ | _ | _ <;> rfl)
    | skip

mutual
/-- Values that such a schema accepts. -/
def goodJson (nullable : Bool) : Json → Bool
  | .null => nullable
  | .bool _ => true
  | .int _ => false
  | .float f => !f.isInteger
  | .str _ => true
  | .arr xs => goodJsons nullable xs
  | .obj kvs => goodProps nullable kvs
/-- Items. -/
def goodJsons (nullable : Bool) : List Json → Bool
  | [] => true
  | x :: xs => goodJson nullable x && goodJsons nullable xs
/-- Properties. -/
def goodProps (nullable : Bool) : List (Str × Json) → Bool
  | [] => true
  | (_, x) :: r => goodJson nullable x && goodProps nullable r
end

section
variable {vc : ValidatorCfg} {root : Json} {r : Str} {nullable : Bool} {extra : Sch} (hx : ∀ ka ∈ extra, keywordOf ka.1 = .other)
  (hr : resolveRef root r = some (.obj ((c!"oneOf", .arr (memberSchemas nullable (.obj [(c!"$ref", .str r)]))) :: extra)))
include hx hr

mutual
theorem validate_good : ∀ j : Json, ∃ n, validate vc root n (.obj [(c!"$ref", .str r)]) j = some (goodJson nullable j)
  | .null => ⟨3, by rw [validate_level hx hr 0]; rfl⟩
  | .bool _ => ⟨3, by rw [validate_level hx hr 0]; rfl⟩
  | .int _ => ⟨3, by rw [validate_level hx hr 0]; rfl⟩
  | .float _ => ⟨3, by rw [validate_level hx hr 0]; rfl⟩
  | .str _ => ⟨3, by rw [validate_level hx hr 0]; rfl⟩
  | .arr xs => by
    obtain ⟨n, hn⟩ := validate_goods xs
    exact ⟨n + 3, by rw [validate_level hx hr n]; exact hn⟩
  | .obj kvs => by
    obtain ⟨n, hn⟩ := validate_goodProps kvs
    exact ⟨n + 3, by rw [validate_level hx hr n]; exact hn⟩
theorem validate_goods : ∀ xs : List Json, ∃ n, allO (xs.map fun x => validate vc root n (.obj [(c!"$ref", .str r)]) x) = some (goodJsons nullable xs)
  | [] => ⟨0, rfl⟩
  | x :: xs => by
    obtain ⟨n, hn⟩ := validate_good x
    obtain ⟨m, hm⟩ := validate_goods xs
    refine ⟨max n m, ?_⟩
    simp only [List.map_cons, allO, goodJsons]
    rw [validate_mono (Nat.le_max_left n m) _ _ _ hn,
      allO_map_mono (fun x _ b hb => validate_mono (Nat.le_max_right n m) _ _ _ hb) _ hm]
theorem validate_goodProps : ∀ kvs : List (Str × Json),
    ∃ n, allO (kvs.map fun kv => validate vc root n (.obj [(c!"$ref", .str r)]) kv.2) = some (goodProps nullable kvs)
  | [] => ⟨0, rfl⟩
  | (_, x) :: kvs => by
    obtain ⟨n, hn⟩ := validate_good x
    obtain ⟨m, hm⟩ := validate_goodProps kvs
    refine ⟨max n m, ?_⟩
    simp only [List.map_cons, allO, goodProps]
    rw [validate_mono (Nat.le_max_left n m) _ _ _ hn,
      allO_map_mono (fun x _ b hb => validate_mono (Nat.le_max_right n m) _ _ _ hb) _ hm]
end
end

/-! ### Accepted values -/

theorem goodJsons_iff {nullable : Bool} {xs : List Json} : goodJsons nullable xs = true ↔ ∀ x ∈ xs, goodJson nullable x = true := by
  induction xs with
  | nil => simp [goodJsons]
  | cons x xs ih => simp [goodJsons, ih]

theorem goodProps_iff {nullable : Bool} {kvs : List (Str × Json)} :
    goodProps nullable kvs = true ↔ ∀ kv ∈ kvs, goodJson nullable kv.2 = true := by
  induction kvs with
  | nil => simp [goodProps]
  | cons kv kvs ih => obtain ⟨k, x⟩ := kv; simp [goodProps, ih]

theorem within_good {nullable : Bool} {x j : Json} (h : Json.Within x j) (hg : goodJson nullable j = true) : goodJson nullable x = true := by
  induction h with
  | self => exact hg
  | arr hm _ ih => exact ih (goodJsons_iff.1 hg _ hm)
  | obj hm _ ih => exact ih (goodProps_iff.1 hg _ hm)

mutual
theorem bad_within {nullable : Bool} : ∀ j : Json, goodJson nullable j = false → (nullable = false ∧ j.HasNull) ∨ j.HasWhole
  | .null => fun h => .inl ⟨h, .self⟩
  | .bool _ => fun h => by cases h
  | .int i => fun _ => .inr ⟨_, i, .self, .inl rfl⟩
  | .float f => fun h => by
    have h : f.isInteger = true := by simpa [goodJson] using h
    obtain ⟨i, a, b, hf, ha⟩ := isInteger_iff.1 h
    exact .inr ⟨_, i, .self, .inr ⟨f, a, b, rfl, hf, ha⟩⟩
  | .str _ => fun h => by cases h
  | .arr xs => fun h => by
    obtain ⟨x, hx, h⟩ := bad_withins xs h
    rcases h with ⟨h1, h2⟩ | ⟨y, i, h1, h2⟩
    · exact .inl ⟨h1, .arr hx h2⟩
    · exact .inr ⟨y, i, .arr hx h1, h2⟩
  | .obj kvs => fun h => by
    obtain ⟨x, hx, h⟩ := bad_withinProps kvs h
    rcases h with ⟨h1, h2⟩ | ⟨y, i, h1, h2⟩
    · exact .inl ⟨h1, .obj hx h2⟩
    · exact .inr ⟨y, i, .obj hx h1, h2⟩
theorem bad_withins {nullable : Bool} : ∀ xs : List Json, goodJsons nullable xs = false → ∃ x ∈ xs, (nullable = false ∧ x.HasNull) ∨ x.HasWhole
  | [] => fun h => by cases h
  | x :: xs => fun h => by
    simp only [goodJsons, Bool.and_eq_false_iff] at h
    rcases h with h | h
    · exact ⟨x, by simp, bad_within x h⟩
    · obtain ⟨y, hy, h⟩ := bad_withins xs h
      exact ⟨y, by simp [hy], h⟩
theorem bad_withinProps {nullable : Bool} :
    ∀ kvs : List (Str × Json), goodProps nullable kvs = false → ∃ kv ∈ kvs, (nullable = false ∧ kv.2.HasNull) ∨ kv.2.HasWhole
  | [] => fun h => by cases h
  | (k, x) :: kvs => fun h => by
    simp only [goodProps, Bool.and_eq_false_iff] at h
    rcases h with h | h
    · exact ⟨(k, x), by simp, bad_within x h⟩
    · obtain ⟨y, hy, h⟩ := bad_withinProps kvs h
      exact ⟨y, by simp [hy], h⟩
end

theorem goodJson_iff {nullable : Bool} {j : Json} : goodJson nullable j = true ↔ ¬ j.HasWhole ∧ (nullable = false → ¬ j.HasNull) := by
  constructor
  · intro h
    refine ⟨?_, ?_⟩
    · rintro ⟨x, i, hx, hi⟩
      have := within_good hx h
      rcases hi with rfl | ⟨f, a, b, rfl, hf, ha⟩
      · cases this
      · have h' : f.isInteger = true := isInteger_iff.2 ⟨i, a, b, hf, ha⟩
        simp [goodJson, h'] at this
    · rintro rfl hn
      exact absurd (within_good hn h) (by simp [goodJson])
  · rintro ⟨h1, h2⟩
    cases h : goodJson nullable j with
    | true => rfl
    | false =>
      rcases bad_within j h with ⟨h3, h4⟩ | h3
      · exact absurd h4 (h2 h3)
      · exact absurd h3 h1

end Verif
