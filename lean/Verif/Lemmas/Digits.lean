import Verif.Model.Basic
/-! Lemmas on printing and reading digits. -/
namespace Verif

theorem hexVal_digitChar : ∀ d, d < 16 → hexVal (digitChar d) = d := by decide
theorem isHex_digitChar : ∀ d, d < 16 → isHex (digitChar d) = true := by decide
theorem isDig_digitChar : ∀ d, d < 10 → isDig (digitChar d) = true := by decide
theorem digitChar_ne_zero : ∀ d, d < 16 → d ≠ 0 → digitChar d ≠ '0' := by decide

theorem baseVal_append (b : Nat) (s t : Str) :
    baseVal b (s ++ t) = baseVal b s * b ^ t.length + baseVal b t := by
  have aux : ∀ (t : Str) (a : Nat), t.foldl (fun a c => a * b + hexVal c) a
      = a * b ^ t.length + t.foldl (fun a c => a * b + hexVal c) 0 := by
    intro t
    induction t with
    | nil => intro a; simp
    | cons c t ih =>
      intro a
      simp only [List.foldl_cons, List.length_cons]
      rw [ih (a * b + hexVal c), ih (0 * b + hexVal c)]
      rw [Nat.pow_succ, Nat.add_mul, Nat.mul_assoc, Nat.mul_comm b, Nat.zero_mul, Nat.zero_add, Nat.add_assoc]
  unfold baseVal
  rw [List.foldl_append, aux]

@[simp] theorem baseVal_nil (b : Nat) : baseVal b [] = 0 := rfl
theorem baseVal_singleton (b : Nat) (c : Char) : baseVal b [c] = hexVal c := by simp [baseVal]

theorem baseVal_zeros (b n : Nat) : baseVal b (List.replicate n '0') = 0 := by
  induction n with
  | zero => rfl
  | succ n ih =>
    rw [List.replicate_succ, show ('0' :: List.replicate n '0') = ['0'] ++ List.replicate n '0' from rfl,
      baseVal_append, ih, baseVal_singleton]
    simp [show hexVal '0' = 0 from by decide]

theorem baseVal_padLeft (b w : Nat) (s : Str) : baseVal b (padLeft w s) = baseVal b s := by
  unfold padLeft
  rw [baseVal_append, baseVal_zeros]; simp

section
variable {b : Nat} (hb : 2 ≤ b) (hb16 : b ≤ 16)
include hb hb16
set_option linter.unusedSectionVars false

theorem baseVal_toBaseF : ∀ f n, n < f → baseVal b (toBaseF b f n) = n := by
  intro f
  induction f with
  | zero => intro n h; omega
  | succ f ih =>
    intro n h
    unfold toBaseF
    split
    · rw [baseVal_singleton, hexVal_digitChar _ (by omega)]
    · rename_i hn
      have h1 : n / b < f := by
        have : n / b < n := Nat.div_lt_self (by omega) (by omega)
        omega
      have h2 : n % b < b := Nat.mod_lt _ (by omega)
      rw [baseVal_append, ih _ h1, baseVal_singleton, hexVal_digitChar _ (by omega)]
      simp only [List.length_singleton, Nat.pow_one]
      rw [Nat.mul_comm]; exact Nat.div_add_mod n b

theorem toBaseF_all (p : Char → Bool) (hp : ∀ d, d < b → p (digitChar d) = true) :
    ∀ f n, n < f → ∀ c ∈ toBaseF b f n, p c = true := by
  intro f
  induction f with
  | zero => intro n h; omega
  | succ f ih =>
    intro n h c hc
    unfold toBaseF at hc
    split at hc
    · rename_i hn; simp at hc; subst hc; exact hp n hn
    · rename_i hn
      have h1 : n / b < f := by
        have : n / b < n := Nat.div_lt_self (by omega) (by omega)
        omega
      rcases List.mem_append.1 hc with hc | hc
      · exact ih _ h1 _ hc
      · simp at hc; subst hc; exact hp _ (Nat.mod_lt _ (by omega))

theorem toBaseF_ne_nil : ∀ f n, n < f → toBaseF b f n ≠ [] := by
  intro f n h
  cases f with
  | zero => omega
  | succ f => unfold toBaseF; split <;> simp

theorem toBaseF_length : ∀ f n k, n < f → n < b ^ (k + 1) → (toBaseF b f n).length ≤ k + 1 := by
  intro f
  induction f with
  | zero => intro n k h; omega
  | succ f ih =>
    intro n k h hk
    unfold toBaseF
    split
    · simp
    · rename_i hn
      have h1 : n / b < f := by
        have : n / b < n := Nat.div_lt_self (by omega) (by omega)
        omega
      cases k with
      | zero => simp at hk; omega
      | succ k =>
        have : n / b < b ^ (k + 1) := by
          rw [Nat.div_lt_iff_lt_mul (by omega)]; rw [Nat.pow_succ] at hk; exact hk
        have := ih (n / b) k h1 this
        simp; omega

theorem toBaseF_head : ∀ f n, n < f → n ≠ 0 → (toBaseF b f n).head? ≠ some '0' := by
  intro f
  induction f with
  | zero => intro n h; omega
  | succ f ih =>
    intro n h h0
    unfold toBaseF
    split
    · rename_i hn
      simp only [List.head?_cons, ne_eq, Option.some.injEq]
      exact digitChar_ne_zero n (by omega) h0
    · rename_i hn
      have h1 : n / b < f := by
        have : n / b < n := Nat.div_lt_self (by omega) (by omega)
        omega
      have h2 : n / b ≠ 0 := by
        have : 0 < n / b := Nat.div_pos (by omega) (by omega)
        omega
      have h3 := toBaseF_ne_nil hb hb16 f (n/b) h1
      have := ih (n / b) h1 h2
      cases h4 : toBaseF b f (n / b) with
      | nil => exact absurd h4 h3
      | cons c t => rw [h4] at this; simpa using this
end

/-! ### decimal -/

theorem decVal_decStr (n : Nat) : decVal (decStr n) = n :=
  baseVal_toBaseF (by omega) (by omega) _ _ (by omega)

theorem decStr_ne_nil (n : Nat) : decStr n ≠ [] := toBaseF_ne_nil (b := 10) (by omega) (by omega) _ _ (by omega)

theorem decStr_dig (n : Nat) : ∀ c ∈ decStr n, isDig c = true :=
  toBaseF_all (by omega) (by omega) isDig isDig_digitChar _ _ (by omega)

theorem decStr_length_le (n k : Nat) (h : n < 10 ^ (k + 1)) : (decStr n).length ≤ k + 1 :=
  toBaseF_length (by omega) (by omega) _ _ _ (by omega) h

theorem decStr_inj {m n : Nat} (h : decStr m = decStr n) : m = n := by
  rw [← decVal_decStr m, h, decVal_decStr]

theorem decStr_zero : decStr 0 = ['0'] := by decide

theorem decStr_head {n : Nat} (h : n ≠ 0) : (decStr n).head? ≠ some '0' :=
  toBaseF_head (by omega) (by omega) _ _ (by omega) h

theorem padLeft_length (w : Nat) (s : Str) (h : s.length ≤ w) : (padLeft w s).length = w := by
  simp [padLeft]; omega

theorem decPad_length {w n : Nat} (h : n < 10 ^ (w + 1)) : (decPad (w + 1) n).length = w + 1 :=
  padLeft_length _ _ (decStr_length_le n w h)

theorem decVal_decPad (w n : Nat) : decVal (decPad w n) = n := by
  unfold decVal decPad; rw [baseVal_padLeft]; exact decVal_decStr n

theorem padLeft_all (p : Char → Bool) (h0 : p '0' = true) (w : Nat) (s : Str) (h : ∀ c ∈ s, p c = true) :
    ∀ c ∈ padLeft w s, p c = true := by
  intro c hc
  unfold padLeft at hc
  rcases List.mem_append.1 hc with hc | hc
  · obtain ⟨_, rfl⟩ := List.mem_replicate.1 hc; exact h0
  · exact h c hc

theorem decPad_dig (w n : Nat) : ∀ c ∈ decPad w n, isDig c = true :=
  padLeft_all isDig (by decide) w _ (decStr_dig n)

/-! ### hexadecimal -/

theorem hexVal_hexStr (n : Nat) : baseVal 16 (hexStr n) = n :=
  baseVal_toBaseF (by omega) (by omega) _ _ (by omega)

theorem hexStr_ne_nil (n : Nat) : hexStr n ≠ [] := toBaseF_ne_nil (b := 16) (by omega) (by omega) _ _ (by omega)

theorem hexStr_all (p : Char → Bool) (hp : ∀ d, d < 16 → p (digitChar d) = true) (n : Nat) :
    ∀ c ∈ hexStr n, p c = true :=
  toBaseF_all (by omega) (by omega) p hp _ _ (by omega)

theorem hexStr_hex (n : Nat) : ∀ c ∈ hexStr n, isHex c = true := hexStr_all _ isHex_digitChar n

theorem hexStr_length_le (n k : Nat) (h : n < 16 ^ (k + 1)) : (hexStr n).length ≤ k + 1 :=
  toBaseF_length (by omega) (by omega) _ _ _ (by omega) h

theorem hexStr_head {n : Nat} (h : n ≠ 0) : (hexStr n).head? ≠ some '0' :=
  toBaseF_head (by omega) (by omega) _ _ (by omega) h

theorem hexPad_length {w n : Nat} (h : n < 16 ^ (w + 1)) : (hexPad (w + 1) n).length = w + 1 :=
  padLeft_length _ _ (hexStr_length_le n w h)

theorem hexVal_hexPad (w n : Nat) : baseVal 16 (hexPad w n) = n := by
  unfold hexPad; rw [baseVal_padLeft]; exact hexVal_hexStr n

/-- Splitting a digit run off a string that continues with a non-digit. -/
theorem takeDrop_append_of_all {p : Char → Bool} (s t : Str) (hs : ∀ c ∈ s, p c = true)
    (ht : ∀ c, t.head? = some c → p c = false) :
    (s ++ t).takeWhile p = s ∧ (s ++ t).dropWhile p = t := by
  induction s with
  | nil =>
    cases t with
    | nil => simp
    | cons c t => simp [ht c rfl]
  | cons a s ih =>
    have ha := hs a (by simp)
    have := ih (fun c hc => hs c (by simp [hc]))
    simp [ha, this.1, this.2]

end Verif
