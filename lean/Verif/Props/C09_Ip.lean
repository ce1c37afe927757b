import Verif.Lemmas.Ip
/-!
# C09: IP addresses survive a JSON round trip
-/
namespace Verif

/-- C09, IPv4: all 2^32 addresses. -/
theorem C09_ipv4_roundtrip (n : Nat) (h : n < 2 ^ 32) : ipv4Parse (ipv4Str n) = .ok n := by
  unfold ipv4Parse ipv4Str
  rw [splitOn_joinWith '.' _ (by simp) (by
    intro p hp
    simp only [List.mem_cons, List.not_mem_nil, or_false] at hp
    rcases hp with rfl|rfl|rfl|rfl <;> exact decStr_not_mem _ '.' (by decide))]
  simp only
  rw [parseOctet_decStr _ (Nat.mod_lt _ (by omega)), parseOctet_decStr _ (Nat.mod_lt _ (by omega)),
    parseOctet_decStr _ (Nat.mod_lt _ (by omega)), parseOctet_decStr _ (Nat.mod_lt _ (by omega))]
  show Except.ok _ = Except.ok _
  congr 1
  omega

/-- A scope id (RFC 4007 zone) as `IPv6Address` accepts it. -/
def ValidScope : Option Str → Prop
  | none => True
  | some s => s ≠ [] ∧ '%' ∉ s ∧ '/' ∉ s

/-- C09, IPv6: all 2^128 addresses, with or without scope id. -/
theorem C09_ipv6_roundtrip (n : Nat) (h : n < 2 ^ 128) (scope : Option Str) (hs : ValidScope scope) :
    ipv6Parse (ipv6StrScope n scope) = .ok (n, scope) := by
  have hp : '%' ∉ ipv6Str n := ipv6Str_not_mem n '%' (by decide) (by decide)
  have hsl : '/' ∉ ipv6Str n := ipv6Str_not_mem n '/' (by decide) (by decide)
  have hall : ∀ c ∈ ipv6Str n, decide (c ≠ '%') = true := by
    intro c hc; simp only [decide_eq_true_eq]; intro e; subst e; exact hp hc
  unfold ipv6Parse
  cases scope with
  | none =>
    have := takeDrop_append_of_all (ipv6Str n) [] hall (by simp)
    rw [List.append_nil] at this
    simp only [ipv6StrScope]
    simp only [hsl, if_false, this.1, this.2, ipv6Int_ipv6Str n h]; rfl
  | some s =>
    obtain ⟨h1, h2, h3⟩ := hs
    have := takeDrop_append_of_all (p := fun c => decide (c ≠ '%')) (ipv6Str n) ('%' :: s) hall (by simp)
    simp only [ipv6StrScope]
    have hm : '/' ∉ ipv6Str n ++ '%' :: s := by simp [hsl, h3]
    have hm2 : ¬ (s = [] ∨ '%' ∈ s) := by simp [h1, h2]
    simp only [hm, if_false, this.1, this.2, hm2, ipv6Int_ipv6Str n h]; rfl

/-- C09: distinct addresses have distinct texts. -/
theorem C09_ipv4_injective (m n : Nat) (hm : m < 2 ^ 32) (hn : n < 2 ^ 32) (h : ipv4Str m = ipv4Str n) : m = n := by
  have h1 := C09_ipv4_roundtrip m hm
  rw [h, C09_ipv4_roundtrip n hn] at h1
  injection h1 with h1; exact h1.symm

/-! Results are always in range, so that the parsed value is a genuine address. -/

theorem parseOctet_lt {s : Str} {n : Nat} (h : parseOctet s = .ok n) : n < 256 := by
  unfold parseOctet at h
  repeat' split at h
  all_goals first | cases h; done | skip
  injection h with h; omega

theorem C09_ipv4_range (s : Str) (n : Nat) (h : ipv4Parse s = .ok n) : n < 2 ^ 32 := by
  unfold ipv4Parse at h
  split at h
  · rename_i a b c d _
    cases ha : parseOctet a with
    | error e => rw [ha] at h; cases h
    | ok a' =>
      cases hb : parseOctet b with
      | error e => rw [ha, hb] at h; cases h
      | ok b' =>
        cases hc : parseOctet c with
        | error e => rw [ha, hb, hc] at h; cases h
        | ok c' =>
          cases hd : parseOctet d with
          | error e => rw [ha, hb, hc, hd] at h; cases h
          | ok d' =>
            rw [ha, hb, hc, hd] at h
            have := parseOctet_lt ha
            have := parseOctet_lt hb
            have := parseOctet_lt hc
            have := parseOctet_lt hd
            injection h with h
            omega
  · cases h

theorem baseVal16_lt (s : Str) (h : ∀ c ∈ s, isHex c = true) : baseVal 16 s < 16 ^ s.length := by
  induction s with
  | nil => simp
  | cons c s ih =>
    rw [show c :: s = [c] ++ s from rfl, baseVal_append, baseVal_singleton]
    have h1 := ih (fun x hx => h x (by simp [hx]))
    have h2 : hexVal c < 16 := by
      have h3 := h c (by simp)
      unfold isHex isDig at h3
      unfold hexVal
      simp only [Bool.or_eq_true, Bool.and_eq_true, decide_eq_true_eq] at h3
      split
      · omega
      · split <;> omega
    simp only [List.length_append, List.length_singleton]
    rw [Nat.add_comm 1, Nat.pow_succ, Nat.mul_comm (16 ^ s.length)]
    calc hexVal c * 16 ^ s.length + baseVal 16 s < hexVal c * 16 ^ s.length + 16 ^ s.length := by omega
      _ = (hexVal c + 1) * 16 ^ s.length := by rw [Nat.add_mul, Nat.one_mul]
      _ ≤ 16 * 16 ^ s.length := Nat.mul_le_mul_right _ (by omega)

theorem parseHextet_lt {s : Str} {n : Nat} (h : parseHextet s = .ok n) : n < 65536 := by
  unfold parseHextet at h
  split at h
  · cases h
  · split at h
    · cases h
    · split at h
      · cases h
      · rename_i h1 h2 h3
        injection h with h
        have h4 := baseVal16_lt s (by simpa [List.all_eq_true] using h1)
        have h5 : 16 ^ s.length ≤ 16 ^ 4 := Nat.pow_le_pow_right (by omega) (by omega)
        omega

theorem foldHextets_lt (l : List Str) : ∀ ip n, foldHextets ip l = .ok n → n < (ip + 1) * 65536 ^ l.length := by
  induction l with
  | nil => intro ip n h; cases h; simp
  | cons x l ih =>
    intro ip n h
    unfold foldHextets at h
    rw [List.foldlM_cons] at h
    cases hx : parseHextet x with
    | error e => rw [hx] at h; cases h
    | ok v =>
      rw [hx] at h
      have h1 := ih (ip * 65536 + v) n h
      have h2 := parseHextet_lt hx
      have e : (ip + 1) * 65536 ^ (x :: l).length = (ip * 65536 + 65536) * 65536 ^ l.length := by
        rw [List.length_cons, Nat.pow_succ, Nat.mul_comm (65536 ^ l.length), ← Nat.mul_assoc, Nat.add_mul, Nat.one_mul]
      rw [e]
      exact Nat.lt_of_lt_of_le h1 (Nat.mul_le_mul_right _ (by omega))

theorem ipv6Parts_lt (parts : List Str) (n : Nat) (h : ipv6Parts parts = .ok n) : n < 65536 ^ 8 := by
  unfold ipv6Parts at h
  split at h
  · cases h
  · split at h
    · cases h
    · rename_i skip _
      simp only at h
      generalize (if parts.head? = some [] then skip - 1 else skip) = hi at h
      generalize (if parts.getLast? = some [] then parts.length - skip - 1 - 1 else parts.length - skip - 1) = lo at h
      split at h
      · cases h
      · split at h
        · cases h
        · split at h
          · cases h
          · rename_i h8
            cases h1 : foldHextets 0 (parts.take hi) with
            | error e => rw [h1] at h; cases h
            | ok v =>
              rw [h1] at h
              have b1 := foldHextets_lt _ _ _ h1
              have b2 := foldHextets_lt _ _ _ h
              rw [Nat.zero_add, Nat.one_mul] at b1
              have b3 : 65536 ^ (parts.take hi).length ≤ 65536 ^ hi := Nat.pow_le_pow_right (by omega) (by simp; omega)
              have b4 : 65536 ^ (parts.drop (parts.length - lo)).length ≤ 65536 ^ lo :=
                Nat.pow_le_pow_right (by omega) (by simp; omega)
              have b5 : v * 65536 ^ (8 - (hi + lo)) + 1 ≤ 65536 ^ hi * 65536 ^ (8 - (hi + lo)) := by
                have : (v + 1) * 65536 ^ (8 - (hi + lo)) ≤ 65536 ^ hi * 65536 ^ (8 - (hi + lo)) :=
                  Nat.mul_le_mul_right _ (by omega)
                have p : 0 < 65536 ^ (8 - (hi + lo)) := Nat.pow_pos (by omega)
                rw [Nat.add_mul, Nat.one_mul] at this
                omega
              have b6 := Nat.mul_le_mul b5 b4
              have b7 : 65536 ^ hi * 65536 ^ (8 - (hi + lo)) * 65536 ^ lo = 65536 ^ 8 := by
                rw [← Nat.pow_add, ← Nat.pow_add]; congr 1; omega
              rw [b7] at b6
              exact Nat.lt_of_lt_of_le b2 b6
    · split at h
      · cases h
      · rename_i h8
        split at h
        · cases h
        · split at h
          · cases h
          · have := foldHextets_lt _ _ _ h
            rw [Decidable.not_not.1 h8] at this
            rw [Nat.zero_add, Nat.one_mul] at this
            exact this

theorem C09_ipv6_range (s : Str) (n : Nat) (scope : Option Str) (h : ipv6Parse s = .ok (n, scope)) :
    n < 2 ^ 128 ∧ ValidScope scope := by
  have hint : ∀ a m, ipv6Int a = .ok m → m < 2 ^ 128 := by
    intro a m hm
    unfold ipv6Int at hm
    split at hm
    · cases hm
    · split at hm
      · cases hm
      · cases h1 : v4Suffix (splitOn ':' a) with
        | error e => rw [h1] at hm; cases hm
        | ok parts =>
          rw [h1] at hm
          have := ipv6Parts_lt parts m hm
          rw [show (2 : Nat) ^ 128 = 65536 ^ 8 by decide]; exact this
  unfold ipv6Parse at h
  split at h
  · cases h
  · rename_i hslash
    simp only at h
    split at h
    · cases h1 : ipv6Int (s.takeWhile (· ≠ '%')) with
      | error e => rw [h1] at h; cases h
      | ok m =>
        rw [h1] at h
        injection h with h
        cases h
        exact ⟨hint _ _ h1, trivial⟩
    · rename_i c sc hdw
      split at h
      · cases h
      · rename_i hsc
        rw [not_or] at hsc
        cases h1 : ipv6Int (s.takeWhile (· ≠ '%')) with
        | error e => rw [h1] at h; cases h
        | ok m =>
          rw [h1] at h
          injection h with h
          cases h
          refine ⟨hint _ _ h1, hsc.1, hsc.2, ?_⟩
          intro hm
          apply hslash
          have : '/' ∈ s.dropWhile (· ≠ '%') := by rw [hdw]; simp [hm]
          exact (List.dropWhile_sublist _).subset this

/-! ### Examples -/

example : ipv4Str 3232235777 = c!"192.168.1.1" := by decide
example : ipv4Parse c!"192.168.01.1" = .error .valueError := by decide
example : ipv6Str 0x20010db8000000000000000000000001 = c!"2001:db8::1" := by decide +kernel
example : ipv6Str 0 = c!"::" := by decide +kernel
example : ipv6Str 0x00010000000000000000000000000000 = c!"1::" := by decide +kernel
example : ipv6Str 0x00010000000200000000000300000004 = c!"1:0:2::3:0:4" := by decide +kernel
example : ipv6Parse c!"fe80::1%eth0" = .ok (0xfe800000000000000000000000000001, some c!"eth0") := by decide +kernel
example : ipv6Parse c!"::ffff:1.2.3.4" = .ok (0xffff01020304, none) := by decide +kernel
example : ipv6Parse c!"1::2::3" = .error .valueError := by decide +kernel
example : ValidScope (some c!"eth0") := by simp [ValidScope]

end Verif
