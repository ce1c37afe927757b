import Verif.Spec.Kinds
/-!
# Conversion of integers to floats
-/
namespace Verif

theorem oddPart_val : ∀ (f m e : Nat), (oddPart f m e).1 * 2 ^ (oddPart f m e).2 = m * 2 ^ e := by
  intro f
  induction f with
  | zero => intro m e; rfl
  | succ f ih =>
    intro m e
    simp only [oddPart]
    split
    · rename_i h
      rw [ih]
      have : m = m / 2 * 2 := by omega
      conv => rhs; rw [this]
      rw [Nat.pow_succ, Nat.mul_assoc, Nat.mul_comm 2]
    · rfl

theorem mkFin_is (neg : Bool) (m e : Nat) :
    FloatIs (mkFin neg m e) (if neg then -(m * 2 ^ e : Nat) else (m * 2 ^ e : Nat)) := by
  unfold mkFin
  split
  · rename_i h; subst h
    exact ⟨neg, 0, 0, rfl, by cases neg <;> simp⟩
  · refine ⟨neg, _, _, rfl, ?_⟩
    have := oddPart_val 64 m e
    have h2 : (((oddPart 64 m e).1 * 2 ^ (oddPart 64 m e).2 : Nat) : Int) = ((m * 2 ^ e : Nat) : Int) := by rw [this]
    rw [Int.natCast_mul, Int.natCast_pow] at h2
    cases neg <;> simp only [if_true, if_false, Bool.false_eq_true]
    · exact h2
    · rw [← h2]; rfl

/-- Rounding to the nearest multiple. -/
theorem roundShift_near (n k : Nat) : 2 * (roundShift n k * 2 ^ k) ≤ 2 * n + 2 ^ k ∧ 2 * n ≤ 2 * (roundShift n k * 2 ^ k) + 2 ^ k := by
  have h := Nat.div_add_mod n (2 ^ k)
  have hr : n % 2 ^ k < 2 ^ k := Nat.mod_lt _ (Nat.two_pow_pos k)
  unfold roundShift
  simp only
  generalize hq : n / 2 ^ k = q at *
  generalize n % 2 ^ k = r at *
  rw [Nat.mul_comm] at h
  split
  · omega
  · rw [Nat.add_mul]; omega

theorem roundShift_le (n k q : Nat) (h : n < (q + 1) * 2 ^ k) : roundShift n k ≤ q + 1 := by
  have : n / 2 ^ k < q + 1 := by rw [Nat.div_lt_iff_lt_mul (Nat.two_pow_pos k)]; exact h
  unfold roundShift; simp only
  split <;> omega

theorem roundShift_ge (n k q : Nat) (h : q * 2 ^ k ≤ n) : q ≤ roundShift n k := by
  have : q ≤ n / 2 ^ k := by rw [Nat.le_div_iff_mul_le (Nat.two_pow_pos k)]; exact h
  unfold roundShift; simp only
  split <;> omega

/-- `n` has exactly `log2 n + 1` binary digits. -/
theorem log2_bounds (n : Nat) (h : n ≠ 0) : 2 ^ n.log2 ≤ n ∧ n < 2 ^ (n.log2 + 1) :=
  ⟨Nat.log2_self_le h, Nat.lt_log2_self⟩

end Verif
