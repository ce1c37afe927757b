import Verif.Model.Uuid
import Verif.Lemmas.StrOps
/-!
# C08: UUIDs survive a JSON round trip in canonical form
-/
namespace Verif

/-! ### Specification -/

/-- Characters of the canonical form. -/
def lowerHex (c : Char) : Bool := c ∈ c!"0123456789abcdef"

/-- `s` is the canonical 8-4-4-4-12 form of the 128-bit number `n`. -/
def UuidCanonical (s : Str) (n : Nat) : Prop :=
  ∃ a b c d e : Str, s = a ++ '-' :: (b ++ '-' :: (c ++ '-' :: (d ++ '-' :: e)))
    ∧ a.length = 8 ∧ b.length = 4 ∧ c.length = 4 ∧ d.length = 4 ∧ e.length = 12
    ∧ (∀ x ∈ a ++ b ++ c ++ d ++ e, lowerHex x = true)
    ∧ baseVal 16 (a ++ b ++ c ++ d ++ e) = n

/-! ### Lemmas -/

theorem lowerHex_digitChar : ∀ d, d < 16 → lowerHex (digitChar d) = true := by decide

theorem hexPad_lower (w n : Nat) : ∀ c ∈ hexPad w n, lowerHex c = true :=
  padLeft_all lowerHex (by decide) w _ (hexStr_all lowerHex lowerHex_digitChar n)

/-- What a lower-case hexadecimal digit is not, and its value. -/
theorem lowerHex_facts (c : Char) (h : lowerHex c = true) :
    isHex c = true ∧ c ≠ '-' ∧ c ≠ 'r' ∧ c ≠ 'u' ∧ c ≠ '{' ∧ c ≠ '}' ∧ c ≠ '+' ∧ c ≠ 'x' ∧ c ≠ 'X' ∧ isSpace c = false
      ∧ c.toNat < 128 ∧ hexVal c < 16 := by
  unfold lowerHex at h
  simp only [List.mem_cons, List.not_mem_nil, or_false, decide_eq_true_eq] at h
  rcases h with h|h|h|h|h|h|h|h|h|h|h|h|h|h|h|h <;> subst h <;> decide

theorem hexDigits_all (s : Str) : ∀ acc, (∀ c ∈ s, isHex c = true) →
    hexDigits true acc s = some (s.foldl (fun a c => a * 16 + hexVal c) acc) := by
  induction s with
  | nil => intro acc _; simp [hexDigits]
  | cons c s ih =>
    intro acc h
    simp only [hexDigits, h c (by simp), if_true, List.foldl_cons]
    exact ih _ (fun x hx => h x (by simp [hx]))

theorem hexDigits_start (s : Str) (hne : s ≠ []) (h : ∀ c ∈ s, isHex c = true) :
    hexDigits false 0 s = some (baseVal 16 s) := by
  cases s with
  | nil => exact absurd rfl hne
  | cons c s =>
    simp only [hexDigits, h c (by simp), if_true]
    rw [hexDigits_all _ _ (fun x hx => h x (by simp [hx]))]
    simp [baseVal]

theorem pyIntHex_lower (s : Str) (hne : s ≠ []) (h : ∀ c ∈ s, lowerHex c = true) : pyIntHex s = .ok (baseVal 16 s) := by
  have hx : ∀ c ∈ s, isHex c = true := fun c hc => (lowerHex_facts c (h c hc)).1
  unfold pyIntHex
  rw [if_pos (by simp only [List.all_eq_true, decide_eq_true_eq]; intro c hc; exact (lowerHex_facts c (h c hc)).2.2.2.2.2.2.2.2.2.2.1)]
  rw [stripBy_of_all_not (fun c hc => (lowerHex_facts c (h c hc)).2.2.2.2.2.2.2.2.2.1)]
  have e1 : dropPlus s = s := by
    unfold dropPlus
    split
    · exact absurd rfl (lowerHex_facts '+' (h _ (by simp))).2.2.2.2.2.2.1
    · rfl
  have e2 : dropHexPrefix s = s := by
    unfold dropHexPrefix
    split
    · exact absurd rfl (lowerHex_facts 'x' (h _ (by simp))).2.2.2.2.2.2.2.1
    · exact absurd rfl (lowerHex_facts 'X' (h _ (by simp))).2.2.2.2.2.2.2.2.1
    · exact absurd rfl (lowerHex_facts 'x' (h _ (by simp))).2.2.2.2.2.2.2.1
    · exact absurd rfl (lowerHex_facts 'X' (h _ (by simp))).2.2.2.2.2.2.2.2.1
    · rfl
  rw [e1, e2, hexDigits_start s hne hx]

/-- The parser reads the value of any canonical string. -/
theorem uuidParse_canonical {s : Str} {n : Nat} (h : UuidCanonical s n) : uuidParse s = .ok n := by
  obtain ⟨a, b, c, d, e, rfl, ha, hb, hc, hd, he, hl, hv⟩ := h
  have hch : ∀ x ∈ a ++ '-' :: (b ++ '-' :: (c ++ '-' :: (d ++ '-' :: e))), lowerHex x = true ∨ x = '-' := by
    intro x hx
    simp only [List.mem_append, List.mem_cons] at hx hl
    rcases hx with hx|hx|hx|hx|hx|hx|hx|hx|hx <;> first | exact Or.inr hx | exact Or.inl (hl x (by simp [hx]))
  have nm : ∀ y, lowerHex y = false → y ≠ '-' → y ∉ a ++ '-' :: (b ++ '-' :: (c ++ '-' :: (d ++ '-' :: e))) := by
    intro y h1 h2 hy
    rcases hch y hy with h | h
    · rw [h1] at h; cases h
    · exact h2 h
  have flt : ∀ z : Str, (∀ x ∈ z, lowerHex x = true) → z.filter (fun x => decide (x ≠ '-')) = z := by
    intro z hz
    rw [List.filter_eq_self]
    intro x hx
    simpa using (lowerHex_facts x (hz x hx)).2.1
  unfold uuidParse
  rw [removeSub_of_not_mem c!"urn:" _ 'u' (by decide) (nm 'u' (by decide) (by decide)),
    removeSub_of_not_mem c!"uuid:" _ 'u' (by decide) (nm 'u' (by decide) (by decide))]
  simp only
  rw [stripBy_of_all_not (by
    intro x hx
    rcases hch x hx with h | h
    · have := lowerHex_facts x h; simp [this]
    · subst h; decide)]
  have hflt : (a ++ '-' :: (b ++ '-' :: (c ++ '-' :: (d ++ '-' :: e)))).filter (fun x => decide (x ≠ '-')) = a ++ b ++ c ++ d ++ e := by
    simp only [List.filter_append, List.filter_cons]
    rw [flt a (fun x hx => hl x (by simp [hx])), flt b (fun x hx => hl x (by simp [hx])),
      flt c (fun x hx => hl x (by simp [hx])), flt d (fun x hx => hl x (by simp [hx])), flt e (fun x hx => hl x (by simp [hx]))]
    simp
  simp only [hflt]
  rw [if_neg (by simp [ha, hb, hc, hd, he])]
  rw [pyIntHex_lower _ (by intro h0; have := congrArg List.length h0; simp [ha] at this) hl, hv]

/-! ### Theorems -/

/-- C08: the serialized form of every UUID is canonical. -/
theorem C08_canonical (n : Nat) (h : n < 2 ^ 128) : UuidCanonical (uuidStr n) n := by
  have hlen : (hexPad 32 n).length = 32 := hexPad_length (by simpa using h)
  have hsplit : (hexPad 32 n).take 8 ++ ((hexPad 32 n).drop 8).take 4 ++ ((hexPad 32 n).drop 12).take 4
      ++ ((hexPad 32 n).drop 16).take 4 ++ (hexPad 32 n).drop 20 = hexPad 32 n := by
    generalize hexPad 32 n = z
    have s1 : ∀ k, (z.drop k).take 4 ++ z.drop (k + 4) = z.drop k := by
      intro k
      rw [show z.drop (k + 4) = (z.drop k).drop 4 by rw [List.drop_drop]]
      exact List.take_append_drop 4 _
    rw [List.append_assoc, s1 16, List.append_assoc, s1 12, List.append_assoc, s1 8, List.take_append_drop]
  refine ⟨(hexPad 32 n).take 8, ((hexPad 32 n).drop 8).take 4, ((hexPad 32 n).drop 12).take 4,
    ((hexPad 32 n).drop 16).take 4, (hexPad 32 n).drop 20, ?_, ?_, ?_, ?_, ?_, ?_, ?_, ?_⟩
  · unfold uuidStr; simp
  · simp [hlen]
  · simp [hlen]
  · simp [hlen]
  · simp [hlen]
  · simp [hlen]
  · rw [hsplit]; exact hexPad_lower 32 n
  · rw [hsplit]; exact hexVal_hexPad 32 n

/-- C08: every UUID is read back from its serialized form. -/
theorem C08_roundtrip (n : Nat) (h : n < 2 ^ 128) : uuidParse (uuidStr n) = .ok n :=
  uuidParse_canonical (C08_canonical n h)

/-- C08: distinct UUIDs give distinct strings. -/
theorem C08_injective (m n : Nat) (hm : m < 2 ^ 128) (hn : n < 2 ^ 128) (h : uuidStr m = uuidStr n) : m = n := by
  have h1 := C08_roundtrip m hm
  rw [h, C08_roundtrip n hn] at h1
  injection h1 with h1; exact h1.symm

/-- Digits contribute at most four bits per character. -/
theorem hexDigits_lt : ∀ (s : Str) (prev : Bool) (acc n : Nat), (∀ c, isHex c = true → hexVal c < 16) →
    hexDigits prev acc s = some n → n < (acc + 1) * 16 ^ s.length := by
  intro s
  induction s with
  | nil =>
    intro prev acc n _ h
    simp only [hexDigits] at h
    split at h
    · injection h with h; subst h; simp
    · cases h
  | cons c s ih =>
    intro prev acc n hx h
    simp only [hexDigits] at h
    have hp : 0 < 16 ^ s.length := Nat.pow_pos (by omega)
    have e : (acc + 1) * 16 ^ (c :: s).length = (acc * 16 + 16) * 16 ^ s.length := by
      rw [List.length_cons, Nat.pow_succ, Nat.mul_comm (16 ^ s.length), ← Nat.mul_assoc, Nat.add_mul]
    rw [e]
    split at h
    · rename_i hc
      have h1 := ih _ _ _ hx h
      have h2 := hx c hc
      exact Nat.lt_of_lt_of_le h1 (Nat.mul_le_mul_right _ (by omega))
    · split at h
      · have h1 := ih _ _ _ hx h
        exact Nat.lt_of_lt_of_le h1 (Nat.mul_le_mul_right _ (by omega))
      · cases h

theorem isHex_hexVal (c : Char) (h : isHex c = true) : hexVal c < 16 := by
  unfold isHex isDig at h
  unfold hexVal
  simp only [Bool.or_eq_true, Bool.and_eq_true, decide_eq_true_eq] at h
  split
  · omega
  · split <;> omega

/-- C08: whatever string is accepted, the result is a 128-bit number, that is, a valid `uuid.UUID`. -/
theorem C08_parse_range (s : Str) (n : Nat) (h : uuidParse s = .ok n) : n < 2 ^ 128 := by
  unfold uuidParse at h
  simp only at h
  split at h
  · cases h
  · rename_i hlen
    simp only [ne_eq, Decidable.not_not] at hlen
    generalize (stripBy _ _).filter _ = z at h hlen
    unfold pyIntHex at h
    split at h
    · have hs : (stripBy isSpace z).length ≤ 32 := hlen ▸ (stripBy_sublist isSpace z).length_le
      generalize stripBy isSpace z = w at h hs
      have h1 : ∀ w : Str, (dropPlus w).length ≤ w.length := by
        intro w; unfold dropPlus; split <;> simp
      have h2 : ∀ w : Str, (dropHexPrefix w).length ≤ w.length := by
        intro w; unfold dropHexPrefix; split <;> simp <;> omega
      have h3 := Nat.le_trans (h2 _) (Nat.le_trans (h1 w) hs)
      split at h
      · rename_i m hm
        injection h with h; subst h
        have h4 := hexDigits_lt _ _ _ _ isHex_hexVal hm
        have h5 : 16 ^ _ ≤ 16 ^ 32 := Nat.pow_le_pow_right (by omega) h3
        rw [Nat.zero_add, Nat.one_mul] at h4
        have h6 : (2 : Nat) ^ 128 = 16 ^ 32 := by decide
        rw [h6]
        exact Nat.lt_of_lt_of_le h4 h5
      · cases h
    · cases h

/-! ### Examples -/

example : uuidStr 0x12345678123456781234567812345678 = c!"12345678-1234-5678-1234-567812345678" := by decide +kernel
example : uuidParse c!"{12345678-1234-5678-1234-56781234567F}" = .ok 0x1234567812345678123456781234567F := by decide +kernel
example : uuidParse c!"urn:uuid:12345678-1234-5678-1234-567812345678" = .ok 0x12345678123456781234567812345678 := by decide +kernel
example : uuidParse c!"12345678-1234-5678-1234-56781234567" = .error .valueError := by decide +kernel

end Verif
