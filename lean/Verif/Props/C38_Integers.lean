import Verif.Model.ClassDef
/-!
# C38: integer schemas map to a type wide enough for every permitted value
-/
namespace Verif

/-! ### Specification -/

/-- Values of the types. -/
def IntType.Has : IntType → Int → Prop
  | .int16, i => -32768 ≤ i ∧ i ≤ 32767
  | .int32, i => -2147483648 ≤ i ∧ i ≤ 2147483647
  | .int64, i => -9223372036854775808 ≤ i ∧ i ≤ 9223372036854775807
  | .int, _ => True
  | .lit c, i => i = c

/-- Integers that satisfy the keywords of the schema. -/
def IntNode.Permits (n : IntNode) (i : Int) : Prop :=
  (∀ c, n.const = some c → i = c) ∧ (∀ vs, n.enum = some vs → i ∈ vs) ∧ (∀ lo, n.minimum = some lo → lo ≤ i) ∧
  (∀ hi, n.maximum = some hi → i ≤ hi)

/-- The format does not fix the width. -/
def IntNode.NoWidth (n : IntNode) : Prop :=
  n.format ≠ some c!"int16" ∧ n.format ≠ some c!"int32" ∧ n.format ≠ some c!"int64"

/-- The three types of fixed width, from narrow to wide. -/
def fixedWidths : List IntType := [.int16, .int32, .int64]

/-- Bits of the fixed-width types. -/
def IntType.bits : IntType → Nat
  | .int16 => 16
  | .int32 => 32
  | .int64 => 64
  | _ => 0

/-- C38, full statement: a type is found; it has every permitted value if all of these fit into 64 bits; and if it is one
of the fixed-width types, no narrower one has all permitted values. -/
def C38_statement (n : IntNode) : Prop :=
  ∃ t, intNodeType n = .ok t ∧
    ((∀ i, n.Permits i → IntType.int64.Has i) → ∀ i, n.Permits i → t.Has i) ∧
    (t ∈ fixedWidths → (∃ i, n.Permits i) → ∀ u ∈ fixedWidths, (∀ i, n.Permits i → u.Has i) → t.bits ≤ u.bits)

/-! ### Lemmas -/

theorem foldl_min_spec (xs : List Int) (x : Int) :
    (xs.foldl (fun a b => if b < a then b else a) x = x ∨ xs.foldl (fun a b => if b < a then b else a) x ∈ xs) ∧
    xs.foldl (fun a b => if b < a then b else a) x ≤ x ∧ ∀ y ∈ xs, xs.foldl (fun a b => if b < a then b else a) x ≤ y := by
  induction xs generalizing x with
  | nil => simp
  | cons y ys ih =>
    simp only [List.foldl_cons, List.mem_cons]
    by_cases h : y < x
    · simp only [h, if_true]
      obtain ⟨h1, h2, h3⟩ := ih y
      refine ⟨.inr h1, by omega, ?_⟩
      rintro z (rfl | hz)
      · exact h2
      · exact h3 z hz
    · simp only [h, if_false]
      obtain ⟨h1, h2, h3⟩ := ih x
      refine ⟨h1.imp_right .inr, h2, ?_⟩
      rintro z (rfl | hz)
      · omega
      · exact h3 z hz

theorem foldl_max_spec (xs : List Int) (x : Int) :
    (xs.foldl (fun a b => if a < b then b else a) x = x ∨ xs.foldl (fun a b => if a < b then b else a) x ∈ xs) ∧
    x ≤ xs.foldl (fun a b => if a < b then b else a) x ∧ ∀ y ∈ xs, y ≤ xs.foldl (fun a b => if a < b then b else a) x := by
  induction xs generalizing x with
  | nil => simp
  | cons y ys ih =>
    simp only [List.foldl_cons, List.mem_cons]
    by_cases h : x < y
    · simp only [h, if_true]
      obtain ⟨h1, h2, h3⟩ := ih y
      refine ⟨.inr h1, by omega, ?_⟩
      rintro z (rfl | hz)
      · exact h2
      · exact h3 z hz
    · simp only [h, if_false]
      obtain ⟨h1, h2, h3⟩ := ih x
      refine ⟨h1.imp_right .inr, h2, ?_⟩
      rintro z (rfl | hz)
      · omega
      · exact h3 z hz

theorem rangeToType_has (lo hi i : Int) (h1 : lo ≤ i) (h2 : i ≤ hi) (h3 : IntType.int64.Has i) :
    (rangeToType lo hi).Has i := by
  unfold rangeToType
  split
  · simp only [IntType.Has]; omega
  · split
    · simp only [IntType.Has]; omega
    · exact h3

theorem rangeToType_narrow (lo hi : Int) (u : IntType) (hu : u ∈ fixedWidths) (h1 : u.Has lo) (h2 : u.Has hi) :
    (rangeToType lo hi).bits ≤ u.bits := by
  simp only [fixedWidths, List.mem_cons, List.not_mem_nil, or_false] at hu
  rcases hu with rfl | rfl | rfl <;> simp only [IntType.Has] at h1 h2 <;> unfold rangeToType <;> split <;>
    first | (simp [IntType.bits]; done) | (split <;> first | (simp [IntType.bits]; done) | omega)

/-! ### Theorems -/

/-- C38 in part: the statement holds for schemas with a constant, with an enumeration alone, with a minimum and a maximum
alone, and for those without an upper or without a lower bound, if the format does not fix the width.  Missing: formats that
contradict the range, empty enumerations, and enumerations together with bounds; see `C38_violated`. -/
theorem C38_partial (n : IntNode)
    (h : n.const.isSome ∨ (n.NoWidth ∧
      ((∃ v vs, n.enum = some (v :: vs) ∧ n.minimum = none ∧ n.maximum = none) ∨ n.enum = none))) :
    C38_statement n := by
  unfold C38_statement intNodeType
  cases hc : n.const with
  | some c =>
    refine ⟨.lit c, rfl, fun _ i hi => hi.1 c hc, fun hm => ?_⟩
    simp [fixedWidths] at hm
  | none =>
    simp only [hc, Option.isSome_none, Bool.false_eq_true, false_or] at h
    obtain ⟨⟨h16, h32, h64⟩, h⟩ := h
    simp only [h16, h32, h64, if_false]
    rcases h with ⟨v, vs, he, hmin, hmax⟩ | he
    · simp only [he, minList, maxList]
      have hlo := foldl_min_spec vs v
      have hhi := foldl_max_spec vs v
      generalize vs.foldl (fun a b => if b < a then b else a) v = lo at hlo ⊢
      generalize vs.foldl (fun a b => if a < b then b else a) v = hi at hhi ⊢
      have hp : ∀ i, n.Permits i ↔ i ∈ v :: vs := by
        intro i
        simp [IntNode.Permits, hc, he, hmin, hmax]
      refine ⟨_, rfl, fun h64 i hi' => ?_, fun _ _ u hu hall => ?_⟩
      · have hm := (hp i).1 hi'
        refine rangeToType_has lo hi i ?_ ?_ (h64 i hi')
        · rcases List.mem_cons.1 hm with rfl | hm
          · exact hlo.2.1
          · exact hlo.2.2 i hm
        · rcases List.mem_cons.1 hm with rfl | hm
          · exact hhi.2.1
          · exact hhi.2.2 i hm
      · refine rangeToType_narrow lo hi u hu (hall lo ((hp lo).2 ?_)) (hall hi ((hp hi).2 ?_))
        · rcases hlo.1 with rfl | h
          · exact List.mem_cons_self
          · exact List.mem_cons_of_mem _ h
        · rcases hhi.1 with rfl | h
          · exact List.mem_cons_self
          · exact List.mem_cons_of_mem _ h
    · simp only [he]
      cases hmin : n.minimum with
      | none => exact ⟨.int, rfl, fun _ _ _ => trivial, fun hm => by simp [fixedWidths] at hm⟩
      | some lo =>
        cases hmax : n.maximum with
        | none => exact ⟨.int, rfl, fun _ _ _ => trivial, fun hm => by simp [fixedWidths] at hm⟩
        | some hi =>
          have hp : ∀ i, n.Permits i ↔ lo ≤ i ∧ i ≤ hi := by
            intro i
            simp [IntNode.Permits, hc, he, hmin, hmax]
          refine ⟨_, rfl, fun h64 i hi' => ?_, fun _ hne u hu hall => ?_⟩
          · exact rangeToType_has lo hi i ((hp i).1 hi').1 ((hp i).1 hi').2 (h64 i hi')
          · obtain ⟨i, hi'⟩ := hne
            have := (hp i).1 hi'
            exact rangeToType_narrow lo hi u hu (hall lo ((hp lo).2 ⟨Int.le_refl _, by omega⟩))
              (hall hi ((hp hi).2 ⟨by omega, Int.le_refl _⟩))

/-- C38 for all integer schemas without a format that fixes the width: the type has every permitted value, also with an
enumeration and bounds together.  Missing: see `C38_partial`. -/
theorem C38_wide_partial (n : IntNode) (hw : n.NoWidth) (he : n.enum ≠ some []) :
    ∃ t, intNodeType n = .ok t ∧ ((∀ vs, n.enum = some vs → ∀ i ∈ vs, IntType.int64.Has i) →
      (∀ lo hi, n.enum = none → n.minimum = some lo → n.maximum = some hi → ∀ i, lo ≤ i → i ≤ hi → IntType.int64.Has i) →
      ∀ i, n.Permits i → t.Has i) := by
  cases hc : n.const with
  | some c => exact ⟨.lit c, by simp [intNodeType, hc], fun _ _ i hi => hi.1 c hc⟩
  | none =>
    cases hen : n.enum with
    | none =>
      obtain ⟨t, h1, h2, -⟩ := C38_partial n (.inr ⟨hw, .inr hen⟩)
      refine ⟨t, h1, fun _ hb => ?_⟩
      cases hmin : n.minimum with
      | none =>
        obtain ⟨h16, h32, h64⟩ := hw
        simp [intNodeType, hc, h16, h32, h64, hen, hmin] at h1
        subst h1
        exact fun _ _ => trivial
      | some lo =>
        cases hmax : n.maximum with
        | none =>
          obtain ⟨h16, h32, h64⟩ := hw
          simp [intNodeType, hc, h16, h32, h64, hen, hmin, hmax] at h1
          subst h1
          exact fun _ _ => trivial
        | some hi =>
          exact h2 (fun i hi' => hb lo hi rfl hmin hmax i (hi'.2.2.1 lo hmin) (hi'.2.2.2 hi hmax))
    | some vs =>
      cases vs with
      | nil => exact absurd hen he
      | cons v vs =>
        obtain ⟨t, h1, h2, -⟩ := C38_partial { enum := some (v :: vs) }
          (.inr ⟨⟨by simp, by simp, by simp⟩, .inl ⟨v, vs, rfl, rfl, rfl⟩⟩)
        refine ⟨t, ?_, fun hall _ i hi => ?_⟩
        · obtain ⟨h16, h32, h64⟩ := hw
          rw [← h1]
          simp [intNodeType, hc, h16, h32, h64, hen]
        · have hm : i ∈ v :: vs := hi.2.1 _ hen
          refine h2 (fun j hj => hall _ rfl j (hj.2.1 _ rfl)) i ⟨?_, ?_, ?_, ?_⟩ <;> simp
          simpa using hm

/-- C38 is violated in general: a format wins over the range, an empty enumeration raises `ValueError`, and bounds beside an
enumeration are ignored. -/
theorem C38_violated :
    (¬ C38_statement { format := some c!"int16", minimum := some 0, maximum := some 100000 }) ∧
    (intNodeType { enum := some [] } = .error .valueError) ∧
    (¬ C38_statement { enum := some [0, 100000], maximum := some 10 }) := by
  refine ⟨?_, rfl, ?_⟩
  · rintro ⟨t, h1, h2, -⟩
    cases h1
    have := h2 (fun i hi => by
      have h1 := hi.2.2.1 0 rfl
      have h2 := hi.2.2.2 100000 rfl
      simp only [IntType.Has]; omega) 100000 ⟨by simp, by simp, by simp, by simp⟩
    simp [IntType.Has] at this
  · rintro ⟨t, h1, -, h3⟩
    have ht : t = .int32 := by cases h1; rfl
    subst ht
    have := h3 (by simp [fixedWidths]) ⟨0, by simp [IntNode.Permits]⟩ .int16 (by simp [fixedWidths]) (fun i hi => by
      have h1 : i ∈ [0, 100000] := hi.2.1 _ rfl
      have h2 : i ≤ 10 := hi.2.2.2 10 rfl
      simp only [List.mem_cons, List.not_mem_nil, or_false] at h1
      simp only [IntType.Has]; omega)
    simp [IntType.bits] at this

/-! ### Examples -/

example : intNodeType { minimum := some (-32768), maximum := some 32767 } = .ok .int16 := rfl
example : intNodeType { minimum := some (-32769), maximum := some 0 } = .ok .int32 := rfl
example : intNodeType { enum := some [1, 2147483648, -5] } = .ok .int64 := rfl
example : intNodeType { minimum := some 0 } = .ok .int := rfl
example : C38_statement { minimum := some 0, maximum := some 70000 } :=
  C38_partial _ (.inr ⟨⟨by simp, by simp, by simp⟩, .inr rfl⟩)
example : ∀ i, IntNode.Permits { minimum := some 0, maximum := some 70000 } i → IntType.int64.Has i := by
  intro i hi
  have h1 := hi.2.2.1 0 rfl
  have h2 := hi.2.2.2 70000 rfl
  simp only [IntType.Has]; omega

end Verif
