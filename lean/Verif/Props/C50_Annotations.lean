import Verif.Lemmas.SchemaMeta
/-!
# C50: numeric annotations describe the intended range in the schema
-/
namespace Verif

variable {vc : ValidatorCfg} {cfg : SchemaCfg} {root : Json}

/-- Keywords that annotations add. -/
private def metaKeys : List Str :=
  [c!"minimum", c!"maximum", c!"multipleOf", c!"exclusiveMinimum", c!"exclusiveMaximum", c!"minLength", c!"maxLength"]

private theorem meta_min (m : Meta) : lookupKey c!"minimum" (metaSchema cfg m) = m.range?.map fun r => .int r.1 := by
  cases m <;> rfl
private theorem meta_max (m : Meta) : lookupKey c!"maximum" (metaSchema cfg m) = m.range?.map fun r => .int r.2 := by
  cases m <;> rfl
private theorem meta_mul (m : Meta) :
    lookupKey c!"multipleOf" (metaSchema cfg m) = m.precision?.map fun p => powTen cfg (-(p.2 : Int)) := by
  cases m <;> rfl
private theorem meta_emin (m : Meta) : lookupKey c!"exclusiveMinimum" (metaSchema cfg m) =
    m.precision?.map fun p => negNum (powTen cfg ((p.1 : Int) - p.2)) := by
  cases m <;> rfl
private theorem meta_emax (m : Meta) : lookupKey c!"exclusiveMaximum" (metaSchema cfg m) =
    m.precision?.map fun p => powTen cfg ((p.1 : Int) - p.2) := by
  cases m <;> rfl
private theorem meta_minLen (m : Meta) : lookupKey c!"minLength" (metaSchema cfg m) =
    m.minLength?.map fun n => .int n := by
  cases m <;> rfl
private theorem meta_maxLen (m : Meta) : lookupKey c!"maxLength" (metaSchema cfg m) =
    m.maxLength?.map fun n => .int n := by
  cases m <;> rfl

private theorem meta_other {k : Str} (h : k ∉ metaKeys) (m : Meta) : lookupKey k (metaSchema cfg m) = none := by
  rw [lookupKey_none_iff']
  intro hk
  apply h
  cases m <;> simp only [metaSchema, List.map_cons, List.map_nil, List.mem_cons, List.not_mem_nil, or_false] at hk <;>
    simp only [metaKeys, List.mem_cons, List.not_mem_nil, or_false]
  · rcases hk with rfl | rfl <;> simp
  · rcases hk with rfl | rfl | rfl <;> simp
  · simp [hk]
  · simp [hk]

private theorem kwOk_of {s s' : Sch} {k : Str} {a v : Json} (h : keywordOf k ≠ .additionalProperties) :
    KwOk vc root s k a v ↔ KwOk vc root s' k a v := by
  unfold KwOk
  constructor <;> rintro ⟨n, hn⟩ <;> exact ⟨n, by rw [← hn]; exact keywordCheck_of h⟩

/-- What the keywords of the annotations demand of a value. -/
structure MetaDemand (vc : ValidatorCfg) (cfg : SchemaCfg) (ms : List Meta) (v : Json) : Prop where
  /-- the last `IntegerRange` bounds numbers -/
  range : ∀ lo hi, lastSome Meta.range? ms = some (lo, hi) → v.IsNumber → v.lt (.int lo) = false ∧ Json.lt (.int hi) v = false
  /-- the last `Precision` tells of what a number is a multiple, and bounds it -/
  precision : ∀ s d, lastSome Meta.precision? ms = some (s, d) → v.IsNumber →
    vc.multipleOf v (powTen cfg (-(d : Int))) = true ∧ v.le (negNum (powTen cfg ((s : Int) - d))) = false ∧
      (powTen cfg ((s : Int) - d)).le v = false
  /-- the last `MinLength` and `MaxLength` bound the length of texts -/
  minLength : ∀ n x, lastSome Meta.minLength? ms = some n → v = .str x → n ≤ x.length
  maxLength : ∀ n x, lastSome Meta.maxLength? ms = some n → v = .str x → x.length ≤ n

private theorem kwOk_eq {s : Sch} {k : Str} {a v : Json} {b : Bool}
    (h : ∀ f, keywordCheck vc root f s (keywordOf k) a v = some b) : KwOk vc root s k a v ↔ b = true := by
  unfold KwOk
  constructor
  · rintro ⟨n, hn⟩; rw [h] at hn; exact Option.some.inj hn
  · rintro rfl; exact ⟨0, h _⟩

private theorem kwOk_triv {s : Sch} {k : Str} {a v : Json}
    (h : ∀ f, keywordCheck vc root f s (keywordOf k) a v = some true) : KwOk vc root s k a v := ⟨0, h _⟩

/-- C50: a value is valid for the schema of an annotated simple type iff it is valid for the schema of the simple type and
meets what the last annotation of each sort says. -/
theorem C50_annotated (t : Ty) (ms : List Meta) (base : Sch) (v : Json) (ht : simpleSchema t = some base) :
    Validates vc root (.obj (withMeta cfg base ms)) v ↔ Validates vc root (.obj base) v ∧ MetaDemand vc cfg ms v := by
  have hbn : (base.map Prod.fst).Nodup := by
    cases t <;> simp only [simpleSchema, Option.some.injEq, reduceCtorEq] at ht <;> subst ht <;> simp
  have hbk : ∀ k ∈ base.map Prod.fst, k ∉ metaKeys ∧ keywordOf k ≠ .additionalProperties := by
    cases t <;> simp only [simpleSchema, Option.some.injEq, reduceCtorEq] at ht <;> subst ht <;> decide +kernel
  have hbm : ∀ k ∈ metaKeys, lookupKey k base = none := by
    intro k hk
    rw [lookupKey_none_iff']
    exact fun h => (hbk k h).1 hk
  have hmk : ∀ k ∈ metaKeys, keywordOf k ≠ .additionalProperties := by decide +kernel
  rw [validates_lookup (withMeta_nodup cfg ms base hbn), validates_lookup hbn]
  have hlk : ∀ k ∈ metaKeys, lookupKey k (withMeta cfg base ms) = lastSome (fun m => lookupKey k (metaSchema cfg m)) ms := by
    intro k hk
    rw [lookupKey_withMeta, hbm k hk]
    cases lastSome (fun m => lookupKey k (metaSchema cfg m)) ms <;> rfl
  have hlo : ∀ k, k ∉ metaKeys → lookupKey k (withMeta cfg base ms) = lookupKey k base := by
    intro k hk
    rw [lookupKey_withMeta, lastSome_congr (meta_other hk), lastSome_none]
  have l1 := hlk c!"minimum" (by decide)
  have l2 := hlk c!"maximum" (by decide)
  have l3 := hlk c!"multipleOf" (by decide)
  have l4 := hlk c!"exclusiveMinimum" (by decide)
  have l5 := hlk c!"exclusiveMaximum" (by decide)
  have l6 := hlk c!"minLength" (by decide)
  have l7 := hlk c!"maxLength" (by decide)
  rw [lastSome_congr meta_min, lastSome_map] at l1
  rw [lastSome_congr meta_max, lastSome_map] at l2
  rw [lastSome_congr meta_mul, lastSome_map] at l3
  rw [lastSome_congr meta_emin, lastSome_map] at l4
  rw [lastSome_congr meta_emax, lastSome_map] at l5
  rw [lastSome_congr meta_minLen, lastSome_map] at l6
  rw [lastSome_congr meta_maxLen, lastSome_map] at l7
  constructor
  · intro h
    refine ⟨?_, ?_, ?_, ?_, ?_⟩
    · intro k a hk
      have hm := hbk k (List.mem_map.2 ⟨_, lookupKey_some_mem hk, rfl⟩)
      exact (kwOk_of hm.2).1 (h k a (by rw [hlo k hm.1]; exact hk))
    · intro lo hi e hv
      rw [e] at l1 l2
      have h1 := h _ _ l1
      have h2 := h _ _ l2
      cases v with
      | int i =>
        exact ⟨by simpa using (kwOk_eq (fun _ => rfl)).1 h1, by simpa using (kwOk_eq (fun _ => rfl)).1 h2⟩
      | float f =>
        exact ⟨by simpa using (kwOk_eq (fun _ => rfl)).1 h1, by simpa using (kwOk_eq (fun _ => rfl)).1 h2⟩
      | _ => exact absurd hv id
    · intro s d e hv
      rw [e] at l3 l4 l5
      have h3 := h _ _ l3
      have h4 := h _ _ l4
      have h5 := h _ _ l5
      cases v with
      | int i =>
        exact ⟨(kwOk_eq (fun _ => rfl)).1 h3, by simpa using (kwOk_eq (fun _ => rfl)).1 h4,
          by simpa using (kwOk_eq (fun _ => rfl)).1 h5⟩
      | float i =>
        exact ⟨(kwOk_eq (fun _ => rfl)).1 h3, by simpa using (kwOk_eq (fun _ => rfl)).1 h4,
          by simpa using (kwOk_eq (fun _ => rfl)).1 h5⟩
      | _ => exact absurd hv id
    · rintro n x e rfl
      rw [e] at l6
      have := (kwOk_eq (fun _ => rfl)).1 (h _ _ l6)
      simpa using this
    · rintro n x e rfl
      rw [e] at l7
      have := (kwOk_eq (fun _ => rfl)).1 (h _ _ l7)
      simpa using this
  · rintro ⟨hb, hr, hp, hmin, hmax⟩ k a hk
    by_cases hm : k ∈ metaKeys
    · simp only [metaKeys, List.mem_cons, List.not_mem_nil, or_false] at hm
      rcases hm with rfl | rfl | rfl | rfl | rfl | rfl | rfl
      · rw [l1] at hk
        obtain ⟨⟨lo, hi⟩, e, rfl⟩ := Option.map_eq_some_iff.1 hk
        cases v with
        | int i => exact (kwOk_eq (fun _ => rfl)).2 (by simp [(hr lo hi e trivial).1])
        | float i => exact (kwOk_eq (fun _ => rfl)).2 (by simp [(hr lo hi e trivial).1])
        | _ => exact kwOk_triv (fun _ => rfl)
      · rw [l2] at hk
        obtain ⟨⟨lo, hi⟩, e, rfl⟩ := Option.map_eq_some_iff.1 hk
        cases v with
        | int i => exact (kwOk_eq (fun _ => rfl)).2 (by simp [(hr lo hi e trivial).2])
        | float i => exact (kwOk_eq (fun _ => rfl)).2 (by simp [(hr lo hi e trivial).2])
        | _ => exact kwOk_triv (fun _ => rfl)
      · rw [l3] at hk
        obtain ⟨⟨s, d⟩, e, rfl⟩ := Option.map_eq_some_iff.1 hk
        cases v with
        | int i => exact (kwOk_eq (fun _ => rfl)).2 (hp s d e trivial).1
        | float i => exact (kwOk_eq (fun _ => rfl)).2 (hp s d e trivial).1
        | _ => exact kwOk_triv (fun _ => rfl)
      · rw [l4] at hk
        obtain ⟨⟨s, d⟩, e, rfl⟩ := Option.map_eq_some_iff.1 hk
        cases v with
        | int i => exact (kwOk_eq (fun _ => rfl)).2 (by simp [(hp s d e trivial).2.1])
        | float i => exact (kwOk_eq (fun _ => rfl)).2 (by simp [(hp s d e trivial).2.1])
        | _ => exact kwOk_triv (fun _ => rfl)
      · rw [l5] at hk
        obtain ⟨⟨s, d⟩, e, rfl⟩ := Option.map_eq_some_iff.1 hk
        cases v with
        | int i => exact (kwOk_eq (fun _ => rfl)).2 (by simp [(hp s d e trivial).2.2])
        | float i => exact (kwOk_eq (fun _ => rfl)).2 (by simp [(hp s d e trivial).2.2])
        | _ => exact kwOk_triv (fun _ => rfl)
      · rw [l6] at hk
        obtain ⟨n, e, rfl⟩ := Option.map_eq_some_iff.1 hk
        cases v with
        | str x => exact (kwOk_eq (fun _ => rfl)).2 (by simpa using hmin n x e rfl)
        | _ => exact kwOk_triv (fun _ => rfl)
      · rw [l7] at hk
        obtain ⟨n, e, rfl⟩ := Option.map_eq_some_iff.1 hk
        cases v with
        | str x => exact (kwOk_eq (fun _ => rfl)).2 (by simpa using hmax n x e rfl)
        | _ => exact kwOk_triv (fun _ => rfl)
    · rw [hlo k hm] at hk
      have hm' := hbk k (List.mem_map.2 ⟨_, lookupKey_some_mem hk, rfl⟩)
      exact (kwOk_of hm'.2).1 (hb k a hk)

/-! ### Integers -/

theorem tySchema_simple (env : Env) (cat : SchemaCatalog) (cls : Nat → SchRes Sch) (fwd force : Bool) (t : Ty) (ms : List Meta)
    (base : Sch) (ht : simpleSchema t = some base) (ha : auxFormat t ms = none) :
    tySchema cfg env cat cls fwd force (.annotated t ms) = .ok (withMeta cfg base ms, []) := by
  simp only [tySchema, ht, ha]

private theorem validates_type {n : Str} {v : Json} :
    Validates vc root (.obj [(c!"type", .str n)]) v ↔ isJsonType n v = some true := by
  rw [validates_obj_iff]
  simp only [List.mem_singleton, forall_eq]
  constructor
  · rintro ⟨_, h⟩; exact h
  · intro h; exact ⟨0, h⟩

private theorem den_pos {f : PyFloat} {a : Int} {b : Nat} (h : f.frac = some (a, b)) : 0 < b := by
  cases f with
  | fin neg m e =>
    simp only [PyFloat.frac, Option.some.injEq, Prod.mk.injEq] at h
    rw [← h.2]
    exact Nat.pow_pos (by decide)
  | _ => cases h

theorem isInteger_iff {f : PyFloat} : f.isInteger = true ↔ ∃ i a b, f.frac = some (a, b) ∧ a = i * (b : Nat) := by
  cases f with
  | fin neg m e =>
    simp only [PyFloat.isInteger, decide_eq_true_eq, PyFloat.frac, Option.some.injEq, Prod.mk.injEq]
    have hz : 0 ≤ e → (-e).toNat = 0 := by omega
    have hz' : e < 0 → e.toNat = 0 := by omega
    constructor
    · intro h
      by_cases he : 0 ≤ e
      · exact ⟨(if neg = true then -(m : Int) else m) * 2 ^ e.toNat, _, _, ⟨rfl, rfl⟩, by rw [hz he]; simp⟩
      · obtain ⟨q, hq⟩ := Nat.dvd_of_mod_eq_zero h
        refine ⟨if neg then -(q : Int) else q, _, _, ⟨rfl, rfl⟩, ?_⟩
        rw [hz' (by omega)]
        cases neg
        · simp; rw [Int.mul_comm]; exact_mod_cast hq
        · simp; rw [Int.neg_mul, Int.mul_comm]; congr 1; exact_mod_cast hq
    · rintro ⟨i, a, b, ⟨rfl, rfl⟩, h⟩
      by_cases he : 0 ≤ e
      · rw [hz he]; simp [Nat.mod_one]
      · rw [hz' (by omega)] at h
        apply Nat.mod_eq_zero_of_dvd
        have : ((2 ^ (-e).toNat : Nat) : Int) ∣ (m : Int) := by
          cases neg
          · simp only [Bool.false_eq_true, if_false, Int.pow_zero, Int.mul_one] at h
            exact ⟨i, by rw [h, Int.mul_comm]⟩
          · simp only [if_true, Int.pow_zero, Int.mul_one] at h
            exact ⟨-i, by rw [Int.mul_neg, Int.mul_comm, ← h, Int.neg_neg]⟩
        exact Int.natCast_dvd_natCast.1 this
  | _ => simp [PyFloat.isInteger, PyFloat.frac]

theorem validates_integer {v : Json} :
    Validates vc root (.obj [(c!"type", .str c!"integer")]) v ↔ ∃ i, v.IsInt i := by
  rw [validates_type]
  cases v with
  | int i => exact ⟨fun _ => ⟨i, Or.inl rfl⟩, fun _ => rfl⟩
  | float f =>
    have : isJsonType c!"integer" (.float f) = some f.isInteger := rfl
    rw [this, Option.some.injEq, isInteger_iff]
    constructor
    · rintro ⟨i, a, b, h⟩; exact ⟨i, Or.inr ⟨f, a, b, rfl, h⟩⟩
    · rintro ⟨i, h | ⟨f', a, b, h, h'⟩⟩
      · cases h
      · cases h; exact ⟨i, a, b, h'⟩
  | _ =>
    refine ⟨fun h => ?_, ?_⟩
    · exact absurd (Option.some.inj (show some false = some true from h)) (by decide)
    · rintro ⟨i, h | ⟨f', a, b, h, h'⟩⟩ <;> cases h

private theorem isInt_number {v : Json} {i : Int} (h : v.IsInt i) : v.IsNumber := by
  rcases h with rfl | ⟨f, a, b, rfl, _⟩ <;> trivial

private theorem isInt_num {v : Json} {i : Int} (h : v.IsInt i) : ∃ b : Nat, 0 < b ∧ v.num = some (.inl (i * b, b)) := by
  rcases h with rfl | ⟨f, a, b, rfl, hf, rfl⟩
  · exact ⟨1, by decide, by simp [Json.num]⟩
  · refine ⟨b, den_pos hf, ?_⟩
    cases f <;> simp_all [Json.num, PyFloat.frac]

private theorem isInt_lt_left {v : Json} {i lo : Int} (h : v.IsInt i) : v.lt (.int lo) = false ↔ lo ≤ i := by
  obtain ⟨b, hb, hn⟩ := isInt_num h
  have : Json.num (.int lo) = some (.inl (lo, 1)) := rfl
  simp only [Json.lt, hn, this, Int.natCast_one, Int.mul_one, decide_eq_false_iff_not, Int.not_lt]
  have hb' : (0 : Int) < b := by omega
  exact ⟨fun h => Int.le_of_mul_le_mul_right h hb', fun h => Int.mul_le_mul_of_nonneg_right h (Int.le_of_lt hb')⟩

private theorem isInt_lt_right {v : Json} {i hi : Int} (h : v.IsInt i) : Json.lt (.int hi) v = false ↔ i ≤ hi := by
  obtain ⟨b, hb, hn⟩ := isInt_num h
  have : Json.num (.int hi) = some (.inl (hi, 1)) := rfl
  simp only [Json.lt, hn, this, Int.natCast_one, Int.mul_one, decide_eq_false_iff_not, Int.not_lt]
  have hb' : (0 : Int) < b := by omega
  exact ⟨fun h => Int.le_of_mul_le_mul_right h hb', fun h => Int.mul_le_mul_of_nonneg_right h (Int.le_of_lt hb')⟩

private theorem isInt_le_left {v : Json} {i lo : Int} (h : v.IsInt i) : v.le (.int lo) = false ↔ lo < i := by
  obtain ⟨b, hb, hn⟩ := isInt_num h
  have : Json.num (.int lo) = some (.inl (lo, 1)) := rfl
  simp only [Json.le, hn, this, Int.natCast_one, Int.mul_one, decide_eq_false_iff_not, Int.not_le]
  have hb' : (0 : Int) < b := by omega
  exact ⟨fun h => Int.lt_of_mul_lt_mul_right h (Int.le_of_lt hb'), fun h => Int.mul_lt_mul_of_pos_right h hb'⟩

private theorem isInt_le_right {v : Json} {i hi : Int} (h : v.IsInt i) : Json.le (.int hi) v = false ↔ i < hi := by
  obtain ⟨b, hb, hn⟩ := isInt_num h
  have : Json.num (.int hi) = some (.inl (hi, 1)) := rfl
  simp only [Json.le, hn, this, Int.natCast_one, Int.mul_one, decide_eq_false_iff_not, Int.not_le]
  have hb' : (0 : Int) < b := by omega
  exact ⟨fun h => Int.lt_of_mul_lt_mul_right h (Int.le_of_lt hb'), fun h => Int.mul_lt_mul_of_pos_right h hb'⟩

/-- C50: the schema of an integer type with an `IntegerRange` (the last one, if there are several) admits exactly the
integers in the range, written with or without decimal point.  The type must not be one of the fixed-width types. -/
theorem C50_integer_range_partial (env : Env) (cat : SchemaCatalog) (force : Bool) (ms : List Meta) (lo hi : Int)
    (ha : auxFormat .int ms = none) (hr : lastSome Meta.range? ms = some (lo, hi))
    (hp : lastSome Meta.precision? ms = none) :
    ∃ s, typeToSchema cfg env cat force (.annotated .int ms) = .ok (s, []) ∧
      ∀ v, Validates vc root (.obj s) v ↔ ∃ i, v.IsInt i ∧ lo ≤ i ∧ i ≤ hi := by
  refine ⟨_, tySchema_simple env cat _ false force .int ms _ rfl ha, ?_⟩
  intro v
  rw [C50_annotated .int ms _ v rfl, validates_integer]
  constructor
  · rintro ⟨⟨i, hi'⟩, hd⟩
    obtain ⟨h1, h2⟩ := hd.range lo hi hr (isInt_number hi')
    exact ⟨i, hi', (isInt_lt_left hi').1 h1, (isInt_lt_right hi').1 h2⟩
  · rintro ⟨i, hi', h1, h2⟩
    refine ⟨⟨i, hi'⟩, ⟨?_, ?_, ?_, ?_⟩⟩
    · intro lo' hi'' e _
      rw [hr] at e
      obtain ⟨rfl, rfl⟩ := Prod.mk.inj (Option.some.inj e)
      exact ⟨(isInt_lt_left hi').2 h1, (isInt_lt_right hi').2 h2⟩
    · intro s d e; rw [hp] at e; cases e
    · rintro n x _ rfl; rcases hi' with h | ⟨_, _, _, h, _⟩ <;> cases h
    · rintro n x _ rfl; rcases hi' with h | ⟨_, _, _, h, _⟩ <;> cases h

/-- C50: the schema of an integer type with `Precision(s)` admits exactly the integers with at most `s` digits. -/
theorem C50_integer_precision (env : Env) (cat : SchemaCatalog) (force : Bool) (ms : List Meta) (s : Nat)
    (ha : auxFormat .int ms = none) (hr : lastSome Meta.range? ms = none)
    (hp : lastSome Meta.precision? ms = some (s, 0)) (hm : ∀ v i, Json.IsInt v i → vc.multipleOf v (.int 1) = true) :
    ∃ sch, typeToSchema cfg env cat force (.annotated .int ms) = .ok (sch, []) ∧
      ∀ v, Validates vc root (.obj sch) v ↔ ∃ i, v.IsInt i ∧ -(10 ^ s) < i ∧ i < 10 ^ s := by
  refine ⟨_, tySchema_simple env cat _ false force .int ms _ rfl ha, ?_⟩
  intro v
  have e1 : powTen cfg (-((0 : Nat) : Int)) = .int 1 := rfl
  have e2 : powTen cfg ((s : Int) - (0 : Nat)) = .int (10 ^ s) := by simp [powTen]
  rw [C50_annotated .int ms _ v rfl, validates_integer]
  constructor
  · rintro ⟨⟨i, hi'⟩, hd⟩
    obtain ⟨_, h1, h2⟩ := hd.precision s 0 hp (isInt_number hi')
    rw [e2] at h1 h2
    exact ⟨i, hi', (isInt_le_left hi').1 h1, (isInt_le_right hi').1 h2⟩
  · rintro ⟨i, hi', h1, h2⟩
    refine ⟨⟨i, hi'⟩, ⟨?_, ?_, ?_, ?_⟩⟩
    · intro lo' hi'' e; rw [hr] at e; cases e
    · intro s' d' e _
      rw [hp] at e
      obtain ⟨rfl, rfl⟩ := Prod.mk.inj (Option.some.inj e)
      rw [e1, e2]
      exact ⟨hm v i hi', (isInt_le_left hi').2 h1, (isInt_le_right hi').2 h2⟩
    · rintro n x _ rfl; rcases hi' with h | ⟨_, _, _, h, _⟩ <;> cases h
    · rintro n x _ rfl; rcases hi' with h | ⟨_, _, _, h, _⟩ <;> cases h

/-! ### Floats -/

/-- C50: the schema of a float type with `Precision(s, d)`, `d ≤ s`, admits exactly the finite numbers of absolute value
below `10 ^ (s - d)` that the validator regards as multiples of the float `10 ** -d` (of 1 if `d = 0`).  Missing: that these
are the multiples of `10 ^ -d`, which is not the case (`C50_multiple_not_exact`). -/
theorem C50_float_precision_partial (env : Env) (cat : SchemaCatalog) (force : Bool) (ms : List Meta) (s d : Nat)
    (hsd : d ≤ s) (ha : auxFormat .float ms = none) (hr : lastSome Meta.range? ms = none)
    (hp : lastSome Meta.precision? ms = some (s, d)) :
    ∃ sch, typeToSchema cfg env cat force (.annotated .float ms) = .ok (sch, []) ∧
      ∀ (v : Json) (a : Int) (b : Nat), v.num = some (.inl (a, b)) → (Validates vc root (.obj sch) v ↔
        vc.multipleOf v (if d = 0 then .int 1 else .float (cfg.pow10 d)) = true ∧
          -(10 ^ (s - d)) * (b : Int) < a ∧ a < 10 ^ (s - d) * b) := by
  refine ⟨_, tySchema_simple env cat _ false force .float ms _ rfl ha, ?_⟩
  intro v a b hn
  have hv : v.IsNumber := by cases v <;> first | trivial | cases hn
  have e1 : powTen cfg (-(d : Int)) = if d = 0 then .int 1 else .float (cfg.pow10 d) := by
    unfold powTen
    cases d with
    | zero => rfl
    | succ d => rw [if_neg (by omega), if_neg (by omega)]; simp
  have e2 : powTen cfg ((s : Int) - d) = .int (10 ^ (s - d)) := by
    unfold powTen
    rw [if_pos (by omega)]
    congr 2
    omega
  have l1 : v.le (.int (-(10 ^ (s - d)))) = false ↔ -(10 ^ (s - d)) * (b : Int) < a := by
    simp only [Json.le, hn, show Json.num (.int (-(10 ^ (s - d)))) = some (.inl (-(10 ^ (s - d)), 1)) from rfl, Int.natCast_one,
      Int.mul_one, decide_eq_false_iff_not, Int.not_le]
  have l2 : Json.le (.int (10 ^ (s - d))) v = false ↔ a < 10 ^ (s - d) * (b : Int) := by
    simp only [Json.le, hn, show Json.num (.int (10 ^ (s - d))) = some (.inl (10 ^ (s - d), 1)) from rfl, Int.natCast_one,
      Int.mul_one, decide_eq_false_iff_not, Int.not_le]
  rw [C50_annotated .float ms _ v rfl]
  constructor
  · rintro ⟨_, hd⟩
    obtain ⟨h0, h1, h2⟩ := hd.precision s d hp hv
    rw [e1] at h0
    rw [e2] at h1 h2
    exact ⟨h0, l1.1 h1, l2.1 h2⟩
  · rintro ⟨h0, h1, h2⟩
    refine ⟨?_, ⟨?_, ?_, ?_, ?_⟩⟩
    · rw [validates_type]
      cases v with
      | int i => rfl
      | float f => rfl
      | _ => cases hn
    · intro lo' hi'' e; rw [hr] at e; cases e
    · intro s' d' e _
      rw [hp] at e
      obtain ⟨rfl, rfl⟩ := Prod.mk.inj (Option.some.inj e)
      rw [e1, e2]
      exact ⟨h0, l1.2 h1, l2.2 h2⟩
    · rintro n x _ rfl; cases hn
    · rintro n x _ rfl; cases hn

/-! ### Texts -/

/-- C50: the schema of a text type with `MinLength` and `MaxLength` (the last of each) admits exactly the texts of such a
length. -/
theorem C50_length (env : Env) (cat : SchemaCatalog) (force : Bool) (ms : List Meta) :
    ∃ sch, typeToSchema cfg env cat force (.annotated .str ms) = .ok (sch, []) ∧
      ∀ v, Validates vc root (.obj sch) v ↔ ∃ x, v = .str x ∧ (∀ n, lastSome Meta.minLength? ms = some n → n ≤ x.length) ∧
        (∀ n, lastSome Meta.maxLength? ms = some n → x.length ≤ n) := by
  refine ⟨_, tySchema_simple env cat _ false force .str ms _ rfl rfl, ?_⟩
  intro v
  rw [C50_annotated .str ms _ v rfl, validates_type]
  constructor
  · rintro ⟨h, hd⟩
    cases v with
    | str x => exact ⟨x, rfl, fun n e => hd.minLength n x e rfl, fun n e => hd.maxLength n x e rfl⟩
    | _ => exact absurd (Option.some.inj (show some false = some true from h)) (by decide)
  · rintro ⟨x, rfl, h1, h2⟩
    refine ⟨rfl, ⟨fun _ _ _ h => absurd h id, fun _ _ _ h => absurd h id, ?_, ?_⟩⟩
    · rintro n x' e h; cases h; exact h1 n e
    · rintro n x' e h; cases h; exact h2 n e

/-! ### Fixed-width integers -/

/-- C50: the annotations of the fixed-width integer types hold the exact range of integers of their size and
signedness. -/
theorem C50_fixed_width_annotations :
    ∀ p ∈ auxInts, ∃ signed bytes, p.1 = [.signed signed, .storage bytes,
      if signed then .intRange (-(2 ^ (8 * bytes - 1))) (2 ^ (8 * bytes - 1) - 1) else .intRange 0 (2 ^ (8 * bytes) - 1)] ∧
      p.2 = (if signed then [] else ['u']) ++ c!"int" ++ decStr (8 * bytes) := by
  have h : ∀ p ∈ auxInts, ∃ signed ∈ [true, false], ∃ bytes ∈ [1, 2, 4, 8], p.1 = [.signed signed, .storage bytes,
      if signed then .intRange (-(2 ^ (8 * bytes - 1))) (2 ^ (8 * bytes - 1) - 1) else .intRange 0 (2 ^ (8 * bytes) - 1)] ∧
      p.2 = (if signed then [] else ['u']) ++ c!"int" ++ decStr (8 * bytes) := by decide +kernel
  intro p hp
  obtain ⟨s, _, b, _, h⟩ := h p hp
  exact ⟨s, b, h⟩

/-- C50 does not hold for the schemas of the fixed-width integer types: they have a `format` but no bounds, so every
integer is valid. -/
theorem C50_fixed_width_unbounded (env : Env) (cat : SchemaCatalog) (force : Bool) (p : List Meta × Str) (hp : p ∈ auxInts)
    (i : Int) :
    ∃ sch, typeToSchema cfg env cat force (.annotated .int p.1) = .ok (sch, []) ∧
      sch = [(c!"type", js c!"integer"), (c!"format", js p.2)] ∧ Validates vc root (.obj sch) (.int i) := by
  have h : ∀ p ∈ auxInts, auxFormat .int p.1 = some p.2 := by decide +kernel
  refine ⟨_, ?_, rfl, ⟨1, rfl⟩⟩
  simp only [typeToSchema, tySchema, simpleSchema, h p hp]
  rfl

/-! ### Further disagreements -/

/-- Of several ranges only the last one counts: 20 is valid though the first annotation excludes it. -/
theorem C50_last_range_wins (env : Env) (cat : SchemaCatalog) :
    ∃ sch, typeToSchema cfg env cat false (.annotated .int [.intRange 0 10, .intRange 5 20]) = .ok (sch, []) ∧
      Validates vc root (.obj sch) (.int 20) := by
  obtain ⟨sch, h, h'⟩ := C50_integer_range_partial (vc := vc) (cfg := cfg) (root := root) env cat false
    [.intRange 0 10, .intRange 5 20] 5 20 (by decide) (by decide) (by decide)
  exact ⟨sch, h, (h' _).2 ⟨20, Or.inl rfl, by decide, by decide⟩⟩

/-- An exact length is not part of the schema. -/
theorem C50_exact_length_ignored (env : Env) (cat : SchemaCatalog) (n : Nat) (x : Str) :
    ∃ sch, typeToSchema cfg env cat false (.annotated .str [.length n]) = .ok (sch, []) ∧
      Validates vc root (.obj sch) (.str x) :=
  ⟨_, rfl, ⟨1, rfl⟩⟩

/-- The float nearest to 0.1. -/
def f0_1 : PyFloat := .fin false 3602879701896397 (-55)

/-- The float nearest to 0.3. -/
def f0_3 : PyFloat := .fin false 5404319552844595 (-54)

/-- The first number is exactly a multiple of the second one. -/
def exactMultiple (v a : Json) : Bool :=
  match v.num, a.num with
  | some (.inl (p, q)), some (.inl (r, s)) => (p * s) % (r * q) = 0
  | _, _ => false

/-- C50 does not hold for `Precision` with decimal digits: the bound for multiples is the float next to `10 ^ -d`, so that
0.3 is not valid for `Precision(2, 1)` if multiples are computed exactly.  (The quotient of the floats 0.3 and 0.1 is
2.9999999999999996, so dividing does not help.) -/
theorem C50_multiple_not_exact (env : Env) (cat : SchemaCatalog) (h : cfg.pow10 1 = f0_1) (hm : vc.multipleOf = exactMultiple) :
    ∃ sch, typeToSchema cfg env cat false (.annotated .float [.precision 2 1]) = .ok (sch, []) ∧
      ¬ Validates vc root (.obj sch) (.float f0_3) := by
  obtain ⟨sch, hs, hv⟩ := C50_float_precision_partial (vc := vc) (cfg := cfg) (root := root) env cat false
    [.precision 2 1] 2 1 (by decide) (by decide) (by decide) (by decide)
  refine ⟨sch, hs, ?_⟩
  rw [hv (.float f0_3) 5404319552844595 (2 ^ 54) (by rfl), hm, if_neg (by decide), h]
  rintro ⟨h, _⟩
  exact absurd h (by decide +kernel)

/-! ### The hypotheses are met -/

example : auxFormat .int [.intRange (-5) 5, .alias c!"n"] = none ∧
    lastSome Meta.range? [.intRange (-5) 5, .alias c!"n"] = some (-5, 5) ∧
    lastSome Meta.precision? [.intRange (-5) 5, .alias c!"n"] = none := by decide

example : auxFormat .float [.precision 5 2] = none ∧ lastSome Meta.precision? [.precision 5 2] = some (5, 2) := by decide

example : ∃ v i, Json.IsInt v i ∧ exactMultiple v (.int 1) = true := ⟨.int 3, 3, Or.inl rfl, by decide +kernel⟩

/-- 3.0 counts as the integer 3, 2.5 as no integer. -/
example : Json.IsInt (.float (.fin false 3 0)) 3 := Or.inr ⟨_, 3, 1, rfl, rfl, rfl⟩

end Verif
