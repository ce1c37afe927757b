import Verif.Lemmas.Float
import Verif.Lemmas.Deser
/-!
# C10: scalar types accept exactly the matching JSON kinds
-/
namespace Verif

/-- Every JSON value of a kind that the documentation does not map to a scalar type is refused with `JsonTypeError`,
except that the code accepts `true` and `false` for `int` and `float` (see `C10_bool_as_number`). -/
theorem C10_kind_mismatch_partial (env : Env) (skip : Bool) (t : Ty) (ht : t ∈ scalarTys) (j : Json)
    (hk : j.kind ∉ documentedKinds t) (hb : ¬ (j.kind = .bool ∧ (t = .int ∨ t = .float))) :
    loads env skip t j = .error .jsonType := by
  simp only [scalarTys, List.mem_cons, List.not_mem_nil, or_false] at ht
  rcases ht with rfl|rfl|rfl|rfl|rfl|rfl|rfl|rfl|rfl|rfl|rfl|rfl|rfl <;> cases j <;>
    first
    | rfl
    | (refine absurd ?_ hk; simp [Json.kind, documentedKinds]; done)
    | (refine absurd ?_ hb; simp [Json.kind]; done)

/-- The full claim fails: booleans are read as the numbers 0 and 1. -/
theorem C10_bool_as_number (env : Env) (skip : Bool) :
    loads env skip .int (.bool true) = .ok (.int 1) ∧ loads env skip .int (.bool false) = .ok (.int 0) ∧
    loads env skip .float (.bool true) = .ok (.float (.fin false 1 0)) ∧ Json.kind (.bool true) ∉ documentedKinds .int := by
  refine ⟨rfl, rfl, by rfl, by decide⟩

/-- Values of the matching kind are returned unchanged. -/
theorem C10_identity (env : Env) (skip : Bool) :
    loads env skip .none .null = .ok .none ∧
    (∀ b, loads env skip .bool (.bool b) = .ok (.bool b)) ∧
    (∀ i, loads env skip .int (.int i) = .ok (.int i)) ∧
    (∀ f, loads env skip .float (.float f) = .ok (.float f)) ∧
    (∀ s, loads env skip .str (.str s) = .ok (.str s)) :=
  ⟨rfl, fun _ => rfl, fun _ => rfl, fun _ => rfl, fun _ => rfl⟩

/-- Text types: exactly the strings that the codec of the type reads, with the error of the codec otherwise. -/
theorem C10_text (env : Env) (skip : Bool) (s : Str) :
    (loads env skip .bytes (.str s) = (b64Decode s).map .bytes) ∧
    (loads env skip .datetime (.str s) = (dtParse s).map .datetime) ∧
    (loads env skip .date (.str s) = (dateFromIso s).map .date) ∧
    (loads env skip .time (.str s) = (timeFromIso s).map .time) ∧
    (loads env skip .timedelta (.str s) = (tdParse s).map .timedelta) ∧
    (loads env skip .uuid (.str s) = (uuidParse s).map .uuid) ∧
    (loads env skip .ipv4 (.str s) = (ipv4Parse s).map .ipv4) ∧
    (loads env skip .ipv6 (.str s) = (ipv6Parse s).map (fun p => .ipv6 p.1 p.2)) := by
  have h : ∀ {α : Type} (f : Str → Res α) (mk : α → Val), strLeaf f mk (.str s) = (f s).map mk := by
    intro α f mk
    simp only [strLeaf]
    cases f s <;> rfl
  exact ⟨h _ _, h _ _, h _ _, h _ _, h _ _, h _ _, h _ _, h _ _⟩

theorem loads_float_int (env : Env) (skip : Bool) (i : Int) :
    loads env skip .float (.int i) = (intToFloat i).map .float := by
  show parseFloat (.int i) = _
  unfold parseFloat
  simp only
  cases intToFloat i <;> rfl

/-- Integers of absolute value up to `2^53` become the float of the same value. -/
theorem C10_int_as_float_exact (env : Env) (skip : Bool) (i : Int) (h : i.natAbs ≤ 2 ^ 53) :
    ∃ f, loads env skip .float (.int i) = .ok (.float f) ∧ FloatIs f i := by
  rw [loads_float_int]
  unfold intToFloat
  simp only
  have hsgn : ∀ n : Nat, i.natAbs = n → (if decide (i < 0) = true then -((n * 2 ^ 0 : Nat) : Int) else ((n * 2 ^ 0 : Nat) : Int)) = i := by
    intro n hn
    split <;> simp at * <;> omega
  split
  · refine ⟨_, rfl, ?_⟩
    have := mkFin_is (i < 0) i.natAbs 0
    rw [hsgn _ rfl] at this
    exact this
  · have e : i.natAbs = 2 ^ 53 := by omega
    have hl : Nat.log2 (2 ^ 53) = 53 := by decide
    have hq : roundShift (2 ^ 53) 1 = 2 ^ 52 := by decide
    have hlt : ¬ (2 ^ 1024 ≤ 2 ^ 52 * 2 ^ 1) := by
      rw [← Nat.pow_add, Nat.pow_le_pow_iff_right (by decide)]; decide
    rw [e, hl]
    simp only [Nat.reduceAdd, Nat.reduceSub, hq, hlt, if_false]
    refine ⟨_, rfl, ?_⟩
    have := mkFin_is (i < 0) (2 ^ 52) 1
    have h2 : ((2 ^ 52 * 2 ^ 1 : Nat)) = 2 ^ 53 * 2 ^ 0 := by decide
    rw [h2, hsgn _ e] at this
    exact this

/-- Larger integers become the nearest number with 53 significant bits. -/
theorem C10_int_as_float_nearest (env : Env) (skip : Bool) (i : Int) (f : PyFloat) (h : 2 ^ 53 ≤ i.natAbs)
    (hf : loads env skip .float (.int i) = .ok (.float f)) :
    ∃ q k : Nat, FloatIs f (if i < 0 then -(q * 2 ^ k : Nat) else (q * 2 ^ k : Nat)) ∧
      2 ^ 52 ≤ q ∧ q ≤ 2 ^ 53 ∧
      2 * (q * 2 ^ k) ≤ 2 * i.natAbs + 2 ^ k ∧ 2 * i.natAbs ≤ 2 * (q * 2 ^ k) + 2 ^ k := by
  rw [loads_float_int] at hf
  unfold intToFloat at hf
  simp only at hf
  rw [if_neg (by omega)] at hf
  split at hf
  · cases hf
  · generalize hn : i.natAbs = n at *
    have hn0 : n ≠ 0 := by omega
    obtain ⟨h1, h2⟩ := log2_bounds n hn0
    have hl : 53 ≤ n.log2 := by
      have := (Nat.le_log2 hn0 (k := 53)).2 h
      exact this
    cases hf
    refine ⟨roundShift n (n.log2 + 1 - 53), n.log2 + 1 - 53, ?_, ?_, ?_, roundShift_near _ _⟩
    · have := mkFin_is (i < 0) (roundShift n (n.log2 + 1 - 53)) (n.log2 + 1 - 53)
      simpa using this
    · apply roundShift_ge
      rw [← Nat.pow_add, show 52 + (n.log2 + 1 - 53) = n.log2 by omega]
      exact h1
    · have := roundShift_le n (n.log2 + 1 - 53) (2 ^ 53 - 1) (by
        rw [show 2 ^ 53 - 1 + 1 = 2 ^ 53 by decide, ← Nat.pow_add, show 53 + (n.log2 + 1 - 53) = n.log2 + 1 by omega]
        exact h2)
      omega

/-- Integers are refused as floats, with `OverflowError`, exactly if they round to `2^1024` or more. -/
theorem C10_int_as_float_overflow (env : Env) (skip : Bool) (i : Int) :
    loads env skip .float (.int i) = .error .overflow ↔ 2 ^ 1024 - 2 ^ 970 ≤ i.natAbs := by
  rw [loads_float_int]
  unfold intToFloat
  simp only
  generalize i.natAbs = n
  have hsplit : (2 : Nat) ^ 1024 = 2 ^ 53 * 2 ^ 971 := by rw [← Nat.pow_add]
  have h971 : (2 : Nat) ^ 971 = 2 * 2 ^ 970 := by rw [Nat.pow_succ, Nat.mul_comm]
  have h53 : (2 : Nat) ^ 53 ≤ 2 ^ 970 := Nat.pow_le_pow_right (by decide) (by decide)
  have hv53 : (2 : Nat) ^ 53 = 9007199254740992 := by decide
  have h52 : (2 : Nat) ^ 52 = 4503599627370496 := by decide
  split
  · rename_i h
    constructor
    · intro h'; cases h'
    · intro h'
      exfalso
      generalize (2 : Nat) ^ 970 = K at *
      generalize (2 : Nat) ^ 971 = K2 at *
      generalize (2 : Nat) ^ 1024 = K3 at *
      omega
  · rename_i hge
    have hn0 : n ≠ 0 := by omega
    obtain ⟨h1, h2⟩ := log2_bounds n hn0
    have hl : 53 ≤ n.log2 := (Nat.le_log2 hn0 (k := 53)).2 (by omega)
    have hlo : 2 ^ 52 ≤ roundShift n (n.log2 + 1 - 53) := by
      apply roundShift_ge
      rw [← Nat.pow_add, show 52 + (n.log2 + 1 - 53) = n.log2 by omega]
      exact h1
    have hhi : roundShift n (n.log2 + 1 - 53) ≤ 2 ^ 53 := by
      have := roundShift_le n (n.log2 + 1 - 53) (2 ^ 53 - 1) (by
        rw [show 2 ^ 53 - 1 + 1 = 2 ^ 53 by decide, ← Nat.pow_add, show 53 + (n.log2 + 1 - 53) = n.log2 + 1 by omega]
        exact h2)
      omega
    have key : 2 ^ 1024 ≤ roundShift n (n.log2 + 1 - 53) * 2 ^ (n.log2 + 1 - 53) ↔ 2 ^ 1024 - 2 ^ 970 ≤ n := by
      rcases Nat.lt_trichotomy n.log2 1023 with hlt | heq | hgt
      · -- below 2^1023
        have ha : roundShift n (n.log2 + 1 - 53) * 2 ^ (n.log2 + 1 - 53) ≤ 2 ^ 53 * 2 ^ (n.log2 + 1 - 53) :=
          Nat.mul_le_mul_right _ hhi
        rw [← Nat.pow_add, show 53 + (n.log2 + 1 - 53) = n.log2 + 1 by omega] at ha
        have hb : 2 ^ (n.log2 + 1) ≤ 2 ^ 1023 := Nat.pow_le_pow_right (by decide) (by omega)
        have hc : (2 : Nat) ^ 1024 = 2 * 2 ^ 1023 := by rw [Nat.pow_succ, Nat.mul_comm]
        have hd : (2 : Nat) ^ 970 < 2 ^ 1023 := Nat.pow_lt_pow_right (by decide) (by decide)
        generalize roundShift n (n.log2 + 1 - 53) * 2 ^ (n.log2 + 1 - 53) = A at *
        generalize (2 : Nat) ^ (n.log2 + 1) = B at *
        generalize (2 : Nat) ^ 1023 = C at *
        generalize (2 : Nat) ^ 1024 = D at *
        generalize (2 : Nat) ^ 970 = E at *
        omega
      · rw [heq] at h1 h2 hlo hhi ⊢
        simp only [Nat.reduceAdd, Nat.reduceSub] at h2 hlo hhi ⊢
        have hmul : 2 ^ 1024 ≤ roundShift n 971 * 2 ^ 971 ↔ 2 ^ 53 ≤ roundShift n 971 := by
          rw [hsplit]
          exact Nat.mul_le_mul_right_iff (Nat.two_pow_pos 971)
        rw [hmul]
        have hdm := Nat.div_add_mod n (2 ^ 971)
        have hr : n % 2 ^ 971 < 2 ^ 971 := Nat.mod_lt _ (Nat.two_pow_pos 971)
        have hqlt : n / 2 ^ 971 < 2 ^ 53 := by
          rw [Nat.div_lt_iff_lt_mul (Nat.two_pow_pos 971), ← hsplit]; exact h2
        unfold roundShift
        simp only
        generalize n / 2 ^ 971 = q at *
        generalize n % 2 ^ 971 = r at *
        rw [hsplit]
        clear hmul hlo hhi h1 h2 hsplit
        rw [h971] at *
        rw [hv53] at *
        generalize (2 : Nat) ^ 970 = K at *
        have hmm : 2 * K * q = 2 * (K * q) := Nat.mul_assoc _ _ _
        rw [hmm] at hdm
        by_cases hq : q = 9007199254740991
        · subst hq
          split <;> omega
        · have hq2 : q ≤ 9007199254740990 := by omega
          have hkq : K * q ≤ K * 9007199254740990 := Nat.mul_le_mul_left _ hq2
          generalize K * q = KQ at *
          split <;> omega
      · have ha : 2 ^ 1024 ≤ 2 ^ n.log2 := Nat.pow_le_pow_right (by decide) (by omega)
        have hb : 2 ^ 52 * 2 ^ (n.log2 + 1 - 53) ≤ roundShift n (n.log2 + 1 - 53) * 2 ^ (n.log2 + 1 - 53) :=
          Nat.mul_le_mul_right _ hlo
        rw [← Nat.pow_add, show 52 + (n.log2 + 1 - 53) = n.log2 by omega] at hb
        constructor
        · intro _; exact Nat.le_trans (Nat.sub_le _ _) (Nat.le_trans ha h1)
        · intro _; exact Nat.le_trans ha hb
    split
    · rename_i h; constructor
      · intro _; exact key.1 h
      · intro _; rfl
    · rename_i h; constructor
      · intro h'; cases h'
      · intro h'; exact absurd (key.2 h') h

example : intToFloat 9007199254740993 = .ok (.fin false 1 53) := by decide +kernel
example : intToFloat (-3 * 2 ^ 60) = .ok (.fin true 3 60) := by decide +kernel
example : Json.kind (.arr []) ∉ documentedKinds .date := by decide
example (env : Env) : loads env false .date (.arr []) = .error .jsonType :=
  C10_kind_mismatch_partial env false .date (by simp [scalarTys]) _ (by decide) (by simp [Json.kind])

end Verif
