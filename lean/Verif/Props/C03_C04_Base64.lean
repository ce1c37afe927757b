import Verif.Spec.Base64
/-!
# C03, C04: byte strings
-/
namespace Verif

theorem b64Val_lt {c : Char} {v : Nat} (h : b64Val c = some v) : v < 64 := by
  unfold b64Val at h
  simp only at h
  repeat' split at h
  all_goals first | cases h | skip
  all_goals omega

theorem b64Val_char : ∀ v, v < 64 → b64Val (b64Char v) = some v := by decide

theorem b64Char_ne_pad : ∀ v, v < 64 → b64Char v ≠ '=' := by decide

theorem b64Val_ne_pad {c : Char} {v : Nat} (h : b64Val c = some v) : c ≠ '=' := by
  rintro rfl
  have : b64Val '=' = none := by decide
  rw [this] at h; cases h

theorem byte_eq {m n : Nat} (h : m % 256 = n % 256) : byte m = byte n := by
  unfold byte; simp [h]

theorem bytes_full {v1 v2 v3 v4 : Nat} (l2 : v2 < 64) (l3 : v3 < 64) (l4 : v4 < 64) :
    byte ((v1 * 64 ^ 3 + v2 * 64 ^ 2 + v3 * 64 + v4) / 256 ^ 2) = byte (v1 * 4 + v2 / 16) ∧
    byte ((v1 * 64 ^ 3 + v2 * 64 ^ 2 + v3 * 64 + v4) / 256) = byte (v2 % 16 * 16 + v3 / 4) ∧
    byte (v1 * 64 ^ 3 + v2 * 64 ^ 2 + v3 * 64 + v4) = byte (v3 % 4 * 64 + v4) :=
  ⟨byte_eq (by omega), byte_eq (by omega), byte_eq (by omega)⟩

theorem bytes_pad1 {v1 v2 v3 : Nat} (l2 : v2 < 64) (l3 : v3 < 64) :
    byte ((v1 * 64 ^ 2 + v2 * 64 + v3) / 1024) = byte (v1 * 4 + v2 / 16) ∧
    byte ((v1 * 64 ^ 2 + v2 * 64 + v3) / 4) = byte (v2 % 16 * 16 + v3 / 4) :=
  ⟨byte_eq (by omega), byte_eq (by omega)⟩

theorem bytes_pad2 {v1 v2 : Nat} (l2 : v2 < 64) : byte ((v1 * 64 + v2) / 16) = byte (v1 * 4 + v2 / 16) :=
  byte_eq (by omega)

theorem map_ok_iff {α β : Type} (x : Res α) (f : α → β) (b : β) :
    x.map f = .ok b ↔ ∃ a, x = .ok a ∧ b = f a := by
  cases x with
  | error e => simp [Except.map]
  | ok a => simp [Except.map, eq_comm]

theorem b64Loop_cons (quad left pads : Nat) (started : Bool) (c : Char) (r : Str) :
    b64Loop quad left pads started (c :: r) =
      if c = '=' then
        if 2 ≤ quad ∧ 4 ≤ quad + (pads + 1) then (if r ≠ [] then .error .valueError else .ok [])
        else b64Loop quad left (if 2 ≤ quad then pads + 1 else pads) true r
      else
        match b64Val c with
        | none => .error .valueError
        | some v =>
          if started then .error .valueError
          else match quad with
            | 0 => b64Loop 1 v 0 started r
            | 1 => (b64Loop 2 (v % 16) 0 started r).map (byte (left * 4 + v / 16) :: ·)
            | 2 => (b64Loop 3 (v % 4) 0 started r).map (byte (left * 16 + v / 4) :: ·)
            | _ => (b64Loop 0 0 0 started r).map (byte (left * 64 + v) :: ·) := rfl

/-- The first group of four characters. -/
theorem b64Loop_quad (c1 c2 c3 c4 : Char) (r : Str) (b : List Byte) (h1 : c1 ≠ '=') :
    b64Loop 0 0 0 false (c1 :: c2 :: c3 :: c4 :: r) = .ok b ↔
      ∃ v1 v2, b64Val c1 = some v1 ∧ b64Val c2 = some v2 ∧
        ((∃ v3 v4 b', b64Val c3 = some v3 ∧ b64Val c4 = some v4 ∧ b64Loop 0 0 0 false r = .ok b' ∧
            b = byte (v1 * 4 + v2 / 16) :: byte (v2 % 16 * 16 + v3 / 4) :: byte (v3 % 4 * 64 + v4) :: b') ∨
         (∃ v3, b64Val c3 = some v3 ∧ c4 = '=' ∧ r = [] ∧
            b = [byte (v1 * 4 + v2 / 16), byte (v2 % 16 * 16 + v3 / 4)]) ∨
         (c3 = '=' ∧ c4 = '=' ∧ r = [] ∧ b = [byte (v1 * 4 + v2 / 16)])) := by
  have hp : b64Val '=' = none := by decide
  rw [b64Loop_cons]
  rw [if_neg h1]
  cases e1 : b64Val c1 with
  | none => simp
  | some v1 =>
  simp only [Bool.false_eq_true, if_false, Option.some.injEq]
  rw [b64Loop_cons]
  by_cases h2 : c2 = '='
  · subst h2
    have hx : ∀ (p : Nat) (c : Char) (r : Str), b64Loop 1 v1 p true (c :: r) = .error .valueError ∨
        ∃ p', b64Loop 1 v1 p true (c :: r) = b64Loop 1 v1 p' true r := by
      intro p c r
      rw [b64Loop_cons]
      by_cases h : c = '='
      · right; simp only [h]; exact ⟨p, by simp⟩
      · left; simp [h]; split <;> rfl
    have hy : ∀ (r : Str) (p : Nat), b64Loop 1 v1 p true r = .error .valueError := by
      intro r
      induction r with
      | nil => intro p; simp [b64Loop]
      | cons c r ih =>
        intro p
        rcases hx p c r with h | ⟨p', h⟩
        · exact h
        · rw [h]; exact ih p'
    simp [hp, hy]
  rw [if_neg h2]
  cases e2 : b64Val c2 with
  | none => simp
  | some v2 =>
  simp only [Bool.false_eq_true, if_false, Option.some.injEq]
  rw [map_ok_iff]
  rw [b64Loop_cons]
  by_cases h3 : c3 = '='
  · subst h3
    rw [b64Loop_cons]
    by_cases h4 : c4 = '='
    · subst h4
      by_cases hr : r = []
      · subst hr
        simp [hp]
      · simp [hp, hr]
    · simp [hp, h4]
      cases e4 : b64Val c4 <;> simp
  · rw [if_neg h3]
    cases e3 : b64Val c3 with
    | none => simp [h3]
    | some v3 =>
    simp only [Bool.false_eq_true, if_false, Option.some.injEq]
    simp only [map_ok_iff]
    rw [b64Loop_cons]
    by_cases h4 : c4 = '='
    · subst h4
      by_cases hr : r = []
      · subst hr; simp [hp, h3]
      · simp [hp, hr, h3]
    · rw [if_neg h4]
      cases e4 : b64Val c4 with
      | none => simp [h3, h4]
      | some v4 =>
      simp only [h3, h4, map_ok_iff, Bool.false_eq_true, if_false, false_and, and_false, exists_false, or_false,
        Option.some.injEq, exists_and_left, exists_eq_left', false_or]
      constructor
      · rintro ⟨_, ⟨_, ⟨b', hb, rfl⟩, rfl⟩, rfl⟩; exact ⟨b', hb, rfl⟩
      · rintro ⟨b', hb, rfl⟩; exact ⟨_, ⟨_, ⟨b', hb, rfl⟩, rfl⟩, rfl⟩

/-- After padding characters that follow a complete group, only further padding characters are accepted. -/
theorem b64Loop_started : ∀ (r : Str) (l p : Nat) (b : List Byte),
    b64Loop 0 l p true r = .ok b ↔ r = List.replicate r.length '=' ∧ b = []
  | [], l, p, b => by simp [b64Loop, eq_comm]
  | c :: r, l, p, b => by
    rw [b64Loop_cons]
    by_cases h : c = '='
    · subst h
      rw [if_pos rfl, if_neg (by omega), if_neg (by omega), b64Loop_started r l p b]
      simp [List.replicate_succ]
    · rw [if_neg h]
      cases b64Val c <;> simp [List.replicate_succ, h]

theorem B64.length_mod {s : Str} {b : List Byte} (h : B64 s b) : s.length % 4 = 0 := by
  induction h with
  | full _ _ _ _ _ ih => simp; omega
  | _ => simp

theorem b64Val_mem_ne_pad {c : Char} {v : Nat} (h : b64Val c = some v) : '=' ≠ c := fun e => b64Val_ne_pad h e.symm

/-- The loop accepts the texts of the specification, and those without padding also with any number of padding
characters after them. -/
theorem b64Loop_iff : ∀ (s : Str) (b : List Byte), b64Loop 0 0 0 false s = .ok b ↔
    ∃ t k, s = t ++ List.replicate k '=' ∧ B64 t b ∧ (k = 0 ∨ '=' ∉ t)
  | [], b => by
    constructor
    · intro h; simp [b64Loop] at h; subst h; exact ⟨[], 0, rfl, .nil, Or.inl rfl⟩
    · rintro ⟨t, k, h, hb, _⟩
      have := List.append_eq_nil_iff.1 h.symm
      rw [this.1] at hb
      cases hb; rfl
  | c :: r, b => by
    by_cases hc : c = '='
    · subst hc
      rw [b64Loop_cons, if_pos rfl, if_neg (by omega), b64Loop_started]
      constructor
      · rintro ⟨h, rfl⟩
        exact ⟨[], r.length + 1, by rw [List.replicate_succ, ← h]; rfl, .nil, Or.inr (by simp)⟩
      · rintro ⟨t, k, h, hb, hk⟩
        cases t with
        | nil =>
          cases hb
          cases k with
          | zero => cases h
          | succ k =>
            rw [List.replicate_succ, List.nil_append] at h
            injection h with _ h
            exact ⟨by rw [h]; simp, rfl⟩
        | cons d t =>
          exfalso
          injection h with h1 h2
          subst h1
          cases hb with
          | full h1 => exact b64Val_ne_pad h1 rfl
          | pad1 h1 => exact b64Val_ne_pad h1 rfl
          | pad2 h1 => exact b64Val_ne_pad h1 rfl
    · have short : ∀ r : Str, r.length < 3 → ¬ ∃ t k, c :: r = t ++ List.replicate k '=' ∧ B64 t b ∧ (k = 0 ∨ '=' ∉ t) := by
        rintro r hr ⟨t, k, h, hb, _⟩
        have hl := congrArg List.length h
        have hm := hb.length_mod
        simp only [List.length_cons, List.length_append, List.length_replicate] at hl
        have ht : t = [] := List.eq_nil_of_length_eq_zero (by omega)
        subst ht
        have : c ∈ List.replicate k '=' := by rw [List.nil_append] at h; rw [← h]; simp
        exact hc (List.mem_replicate.1 this).2
      match r with
      | [] =>
        refine ⟨fun h => ?_, fun h => absurd h (short [] (by simp))⟩
        exfalso; revert h
        simp only [b64Loop_cons, if_neg hc]
        cases e1 : b64Val c <;> simp [b64Loop]
      | [c2] =>
        refine ⟨fun h => ?_, fun h => absurd h (short [c2] (by simp))⟩
        exfalso; revert h
        simp only [b64Loop_cons, if_neg hc]
        cases e1 : b64Val c <;> simp
        by_cases h2 : c2 = '=' <;> cases e2 : b64Val c2 <;> simp [h2, b64Loop, Except.map]
      | [c2, c3] =>
        refine ⟨fun h => ?_, fun h => absurd h (short [c2, c3] (by simp))⟩
        exfalso; revert h
        simp only [b64Loop_cons, if_neg hc]
        cases e1 : b64Val c <;> simp
        by_cases h2 : c2 = '=' <;> cases e2 : b64Val c2 <;> simp [h2] <;>
        by_cases h3 : c3 = '=' <;> cases e3 : b64Val c3 <;> simp [h3, b64Loop, Except.map]
      | c2 :: c3 :: c4 :: r =>
        rw [b64Loop_quad c c2 c3 c4 r b hc]
        constructor
        · rintro ⟨v1, v2, e1, e2, ⟨v3, v4, b', e3, e4, hr, rfl⟩ | ⟨v3, e3, rfl, rfl, rfl⟩ | ⟨rfl, rfl, rfl, rfl⟩⟩
          · obtain ⟨t, k, rfl, hb, hk⟩ := (b64Loop_iff r b').1 hr
            have := B64.full e1 e2 e3 e4 hb
            obtain ⟨q1, q2, q3⟩ := bytes_full (v1 := v1) (b64Val_lt e2) (b64Val_lt e3) (b64Val_lt e4)
            rw [q1, q2, q3] at this
            refine ⟨_, k, rfl, this, hk.imp id fun h => ?_⟩
            simp only [List.mem_cons, not_or]
            exact ⟨b64Val_mem_ne_pad e1, b64Val_mem_ne_pad e2, b64Val_mem_ne_pad e3, b64Val_mem_ne_pad e4, h⟩
          · have := B64.pad1 e1 e2 e3
            obtain ⟨q1, q2⟩ := bytes_pad1 (v1 := v1) (b64Val_lt e2) (b64Val_lt e3)
            rw [q1, q2] at this
            exact ⟨_, 0, by simp, this, Or.inl rfl⟩
          · have := B64.pad2 e1 e2
            rw [bytes_pad2 (b64Val_lt e2)] at this
            exact ⟨_, 0, by simp, this, Or.inl rfl⟩
        · rintro ⟨t, k, h, hb, hk⟩
          cases hb with
          | nil =>
            have : c ∈ List.replicate k '=' := by rw [List.nil_append] at h; rw [← h]; simp
            exact absurd (List.mem_replicate.1 this).2 hc
          | @full _ _ _ _ v1 v2 v3 v4 t' b' e1 e2 e3 e4 hb =>
            simp only [List.cons_append, List.cons.injEq] at h
            obtain ⟨rfl, rfl, rfl, rfl, rfl⟩ := h
            refine ⟨v1, v2, e1, e2, Or.inl ⟨v3, v4, b', e3, e4, (b64Loop_iff _ b').2 ⟨t', k, rfl, hb, hk.imp id ?_⟩, ?_⟩⟩
            · intro hn hm; exact hn (by simp [hm])
            · obtain ⟨q1, q2, q3⟩ := bytes_full (v1 := v1) (b64Val_lt e2) (b64Val_lt e3) (b64Val_lt e4)
              rw [q1, q2, q3]
          | @pad1 _ _ _ v1 v2 v3 e1 e2 e3 =>
            have hk : k = 0 := hk.resolve_right (by simp)
            subst hk
            simp only [List.cons_append, List.nil_append, List.replicate_zero, List.cons.injEq] at h
            obtain ⟨rfl, rfl, rfl, rfl, rfl⟩ := h
            refine ⟨v1, v2, e1, e2, Or.inr (Or.inl ⟨v3, e3, rfl, rfl, ?_⟩)⟩
            obtain ⟨q1, q2⟩ := bytes_pad1 (v1 := v1) (b64Val_lt e2) (b64Val_lt e3)
            rw [q1, q2]
          | @pad2 _ _ v1 v2 e1 e2 =>
            have hk : k = 0 := hk.resolve_right (by simp)
            subst hk
            simp only [List.cons_append, List.nil_append, List.replicate_zero, List.cons.injEq] at h
            obtain ⟨rfl, rfl, rfl, rfl, rfl⟩ := h
            refine ⟨v1, v2, e1, e2, Or.inr (Or.inr ⟨rfl, rfl, rfl, ?_⟩)⟩
            rw [bytes_pad2 (b64Val_lt e2)]

theorem b64Loop_error : ∀ (s : Str) (q l p : Nat) (st : Bool) (e : Err), b64Loop q l p st s = .error e → e = .valueError := by
  intro s
  induction s with
  | nil => intro q l p st e h; unfold b64Loop at h; split at h <;> cases h; rfl
  | cons c r ih =>
    intro q l p st e h
    have hm : ∀ (x : Res (List Byte)) (f : List Byte → List Byte), x.map f = .error e → x = .error e := by
      intro x f hx; cases x <;> simp [Except.map] at hx ⊢; exact hx
    unfold b64Loop at h
    repeat' split at h
    all_goals first
      | (cases h; rfl)
      | exact ih _ _ _ _ _ h
      | exact ih _ _ _ _ _ (hm _ _ h)
      | cases h

/-! ## C04 -/

/-- Reading accepts exactly the texts of the independent specification, with exactly the denoted bytes, and in addition
non-empty texts without padding that are followed by superfluous padding characters. -/
theorem C04_decode_iff (s : Str) (b : List Byte) : b64Decode s = .ok b ↔
    ∃ t k, s = t ++ List.replicate k '=' ∧ B64 t b ∧ (k = 0 ∨ ('=' ∉ t ∧ t ≠ [])) := by
  unfold b64Decode
  by_cases hh : s.head? = some '='
  · rw [if_pos hh]
    constructor
    · intro h; cases h
    · rintro ⟨t, k, rfl, hb, hk⟩
      exfalso
      have ht : t.head? = some '=' := by
        cases t with
        | cons c t => simpa using hh
        | nil =>
          have hk : k = 0 := hk.resolve_right (by simp)
          subst hk; simp at hh
      cases hb with
      | nil => cases ht
      | full h1 => simp at ht; exact b64Val_ne_pad h1 ht
      | pad1 h1 => simp at ht; exact b64Val_ne_pad h1 ht
      | pad2 h1 => simp at ht; exact b64Val_ne_pad h1 ht
  · rw [if_neg hh, b64Loop_iff]
    constructor
    · rintro ⟨t, k, rfl, hb, hk⟩
      refine ⟨t, k, rfl, hb, ?_⟩
      rcases hk with hk | hk
      · exact Or.inl hk
      · cases k with
        | zero => exact Or.inl rfl
        | succ k =>
          refine Or.inr ⟨hk, ?_⟩
          rintro rfl
          simp [List.replicate_succ] at hh
    · rintro ⟨t, k, rfl, hb, hk⟩
      exact ⟨t, k, rfl, hb, hk.imp id And.left⟩

/-- A failure is always (a subclass of) `ValueError`. -/
theorem b64Decode_error {s : Str} {e : Err} (h : b64Decode s = .error e) : e = .valueError := by
  unfold b64Decode at h
  split at h
  · cases h; rfl
  · exact b64Loop_error _ _ _ _ _ _ h

/-- Every text of the specification is accepted. -/
theorem decode_B64 {s : Str} {b : List Byte} (h : B64 s b) : b64Decode s = .ok b :=
  (C04_decode_iff s b).2 ⟨s, 0, by simp, h, Or.inl rfl⟩

/-- Every other text raises (a subclass of) `ValueError`, provided that its last character is not `=`, or its length is
divisible by four and it does not end in `====`.  Missing for the full claim: without the proviso it is false (`C04_excess_padding`). -/
theorem C04_decode_error_partial (s : Str) (h : ¬ ∃ b, B64 s b) (hl : s.length % 4 = 0 ∧ ¬ c!"====" <:+ s ∨ s.getLast? ≠ some '=') :
    b64Decode s = .error .valueError := by
  cases hd : b64Decode s with
  | error e => rw [b64Decode_error hd]
  | ok b =>
    exfalso
    obtain ⟨t, k, rfl, hb, hk⟩ := (C04_decode_iff s b).1 hd
    cases k with
    | zero => exact h ⟨b, by simpa using hb⟩
    | succ k =>
      rcases hl with ⟨hl, hs⟩ | hl
      · have hm := hb.length_mod
        simp only [List.length_append, List.length_replicate] at hl
        obtain ⟨j, rfl⟩ : ∃ j, k = j + 3 := ⟨k - 3, by omega⟩
        apply hs
        refine ⟨t ++ List.replicate j '=', ?_⟩
        rw [show j + 3 + 1 = j + 4 by omega, ← List.replicate_append_replicate, List.append_assoc]
        rfl
      · apply hl
        rw [List.replicate_succ', ← List.append_assoc]
        simp

/-- The full claim fails: padding that is not needed is ignored. -/
theorem C04_excess_padding : b64Decode c!"AAAA=" = .ok [0, 0, 0] ∧ ¬ ∃ b, B64 c!"AAAA=" b :=
  ⟨by decide, fun ⟨_, h⟩ => by have := h.length_mod; revert this; decide⟩

theorem B64.chars {s : Str} {b : List Byte} (h : B64 s b) :
    ∃ k, k ≤ 2 ∧ k ≤ s.length ∧ (∀ c ∈ s.take (s.length - k), (b64Val c).isSome) ∧
      s.drop (s.length - k) = List.replicate k '=' ∧ 4 * b.length + 4 * k = 3 * s.length := by
  induction h with
  | nil => exact ⟨0, by simp⟩
  | @full c1 c2 c3 c4 v1 v2 v3 v4 s b h1 h2 h3 h4 h ih =>
    obtain ⟨k, hk, hl, hc, hp, hlen⟩ := ih
    refine ⟨k, hk, by simp; omega, ?_, ?_, ?_⟩
    · have : (c1 :: c2 :: c3 :: c4 :: s).length - k = (s.length - k) + 4 := by simp; omega
      rw [this]
      intro c hcm
      simp at hcm
      rcases hcm with rfl | rfl | rfl | rfl | hcm
      · simp [h1]
      · simp [h2]
      · simp [h3]
      · simp [h4]
      · exact hc c hcm
    · have : (c1 :: c2 :: c3 :: c4 :: s).length - k = (s.length - k) + 4 := by simp; omega
      rw [this]; simpa using hp
    · simp; omega
  | @pad1 c1 c2 c3 v1 v2 v3 h1 h2 h3 =>
    refine ⟨1, by simp, by simp, ?_, by simp, by simp⟩
    intro c hc; simp at hc; rcases hc with rfl | rfl | rfl <;> simp [h1, h2, h3]
  | @pad2 c1 c2 v1 v2 h1 h2 =>
    refine ⟨2, by simp, by simp, ?_, by simp, by simp⟩
    intro c hc; simp at hc; rcases hc with rfl | rfl <;> simp [h1, h2]

/-- No character other than `=` is ignored: an accepted text consists of alphabet characters that determine the number
of bytes, followed by `=` only.  Missing for the full claim: the number of `=` is not checked after complete groups of
four. -/
theorem C04_decode_strict_partial (s : Str) (b : List Byte) (h : b64Decode s = .ok b) :
    ∃ n k, n + k = s.length ∧ (∀ c ∈ s.take n, (b64Val c).isSome) ∧ s.drop n = List.replicate k '=' ∧
      b.length = n * 3 / 4 ∧ (n % 4 ≠ 0 → k = 4 - n % 4) ∧ n % 4 ≠ 1 := by
  obtain ⟨t, k, rfl, hb, hk⟩ := (C04_decode_iff s b).1 h
  obtain ⟨j, hj, hl, ha, hr, hlen⟩ := hb.chars
  have hm := hb.length_mod
  refine ⟨t.length - j, j + k, ?_, ?_, ?_, ?_, ?_, ?_⟩
  · simp; omega
  · intro c hc
    rw [List.take_append_of_le_length (by omega)] at hc
    exact ha c hc
  · rw [List.drop_append_of_le_length (by omega), hr, List.replicate_append_replicate]
  · omega
  · intro hn
    have hj0 : j ≠ 0 := by rintro rfl; omega
    have hk0 : k = 0 := by
      rcases hk with hk | hk
      · exact hk
      · exfalso
        apply hk.1
        rw [← List.take_append_drop (t.length - j) t, hr]
        simp [hj0]
    omega
  · omega

/-- A stray character anywhere makes reading fail. -/
theorem C04_stray_rejected (s t : Str) (c : Char) (hc : b64Val c = none) (hp : c ≠ '=') :
    b64Decode (s ++ c :: t) = .error .valueError := by
  cases hd : b64Decode (s ++ c :: t) with
  | error e => rw [b64Decode_error hd]
  | ok b =>
    exfalso
    obtain ⟨n, k, _, ha, hr, _⟩ := C04_decode_strict_partial _ _ hd
    have hmem : c ∈ (s ++ c :: t) := by simp
    rw [← List.take_append_drop n (s ++ c :: t)] at hmem
    rcases List.mem_append.1 hmem with hm | hm
    · have := ha c hm; rw [hc] at this; cases this
    · rw [hr] at hm; exact hp (List.mem_replicate.1 hm).2

theorem encode_B64 : ∀ b : List Byte, B64 (b64Encode b) b
  | [] => .nil
  | [a] => by
    have ha := a.isLt
    have := B64.pad2 (b64Val_char (a / 4) (by omega)) (b64Val_char (a % 4 * 16) (by omega))
    have e : byte ((a.val / 4 * 64 + a.val % 4 * 16) / 16) = a := by
      apply Fin.ext; simp [byte]; omega
    rw [e] at this; exact this
  | [a, b] => by
    have ha := a.isLt; have hb := b.isLt
    have := B64.pad1 (b64Val_char (a / 4) (by omega)) (b64Val_char (a % 4 * 16 + b / 16) (by omega))
      (b64Val_char (b % 16 * 4) (by omega))
    have e1 : byte ((a.val / 4 * 64 ^ 2 + (a.val % 4 * 16 + b.val / 16) * 64 + b.val % 16 * 4) / 1024) = a := by
      apply Fin.ext; simp only [byte]; omega
    have e2 : byte ((a.val / 4 * 64 ^ 2 + (a.val % 4 * 16 + b.val / 16) * 64 + b.val % 16 * 4) / 4) = b := by
      apply Fin.ext; simp only [byte]; omega
    rw [e1, e2] at this; exact this
  | a :: b :: c :: r => by
    have ha := a.isLt; have hb := b.isLt; have hc := c.isLt
    have := B64.full (b64Val_char (a / 4) (by omega)) (b64Val_char (a % 4 * 16 + b / 16) (by omega))
      (b64Val_char (b % 16 * 4 + c / 64) (by omega)) (b64Val_char (c % 64) (by omega)) (encode_B64 r)
    have e1 : byte ((a.val / 4 * 64 ^ 3 + (a.val % 4 * 16 + b.val / 16) * 64 ^ 2 + (b.val % 16 * 4 + c.val / 64) * 64
        + c.val % 64) / 256 ^ 2) = a := by
      apply Fin.ext; simp only [byte]; omega
    have e2 : byte ((a.val / 4 * 64 ^ 3 + (a.val % 4 * 16 + b.val / 16) * 64 ^ 2 + (b.val % 16 * 4 + c.val / 64) * 64
        + c.val % 64) / 256) = b := by
      apply Fin.ext; simp only [byte]; omega
    have e3 : byte (a.val / 4 * 64 ^ 3 + (a.val % 4 * 16 + b.val / 16) * 64 ^ 2 + (b.val % 16 * 4 + c.val / 64) * 64
        + c.val % 64) = c := by
      apply Fin.ext; simp only [byte]; omega
    rw [e1, e2, e3] at this; exact this

/-- The written text is in the independent specification and its length is `4·⌈n/3⌉`. -/
theorem C04_encode_wellformed (b : List Byte) :
    B64 (b64Encode b) b ∧ (b64Encode b).length = 4 * ((b.length + 2) / 3) := by
  refine ⟨encode_B64 b, ?_⟩
  have h := encode_B64 b
  obtain ⟨k, hk, hl, _, _, hlen⟩ := h.chars
  have := h.length_mod
  omega

/-! ## C03 -/

/-- Every byte string survives the round trip. -/
theorem C03_bytes_roundtrip (b : List Byte) : b64Decode (b64Encode b) = .ok b :=
  decode_B64 (encode_B64 b)

/-- Writing is injective. -/
theorem C03_encode_injective (a b : List Byte) (h : b64Encode a = b64Encode b) : a = b := by
  have h1 := C03_bytes_roundtrip a
  rw [h, C03_bytes_roundtrip b] at h1
  cases h1; rfl

example : b64Encode [104, 101, 108, 108, 111] = c!"aGVsbG8=" := by decide
example : b64Decode c!"aGVsbG8=" = .ok [104, 101, 108, 108, 111] := by decide
example : b64Decode c!"aGVs bG8=" = .error .valueError := by decide
example : b64Decode c!"aGV=" = .ok [104, 101] := by decide
example : c!"aGVsbG8".getLast? ≠ some '=' := by decide
example : b64Decode c!"=aGVs" = .error .valueError := by decide
example : b64Decode c!"aGVsbG8==" = .error .valueError := by decide
example : b64Decode c!"aGVsbG8" = .error .valueError := by decide

end Verif
