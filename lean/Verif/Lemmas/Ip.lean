import Verif.Model.Ip
import Verif.Lemmas.StrOps
/-! Lemmas on printing and parsing IP addresses. -/
namespace Verif

theorem parseOctet_decStr : ∀ o, o < 256 → parseOctet (decStr o) = .ok o := by decide +kernel

theorem decStr_not_mem (n : Nat) (c : Char) (h : isDig c = false) : c ∉ decStr n := by
  intro hc; rw [decStr_dig n c hc] at h; cases h

theorem hexStr_not_mem (n : Nat) (c : Char) (h : isHex c = false) : c ∉ hexStr n := by
  intro hc; rw [hexStr_hex n c hc] at h; cases h

theorem hexStr_eq_zero {n : Nat} (h : hexStr n = ['0']) : n = 0 := by
  have := hexVal_hexStr n
  rw [h] at this
  rw [← this]; decide

theorem parseHextet_hexStr (h : Nat) (hh : h < 65536) : parseHextet (hexStr h) = .ok h := by
  unfold parseHextet
  have h1 : (hexStr h).all isHex = true := by simpa [List.all_eq_true] using hexStr_hex h
  rw [if_neg (by simp [h1])]
  have h2 := hexStr_length_le h 3 (by simpa using hh)
  rw [if_neg (by omega), if_neg (hexStr_ne_nil h), hexVal_hexStr]

/-- Value of a list of hextets, continuing from `ip`. -/
def hextetVal (ip : Nat) (hs : List Nat) : Nat := hs.foldl (fun ip h => ip * 65536 + h) ip

theorem foldHextets_hexStr (hs : List Nat) : ∀ ip, (∀ h ∈ hs, h < 65536) →
    foldHextets ip (hs.map hexStr) = .ok (hextetVal ip hs) := by
  induction hs with
  | nil => intro ip _; rfl
  | cons h hs ih =>
    intro ip hh
    have := ih (ip * 65536 + h) (fun x hx => hh x (by simp [hx]))
    simp only [foldHextets, hextetVal, List.map_cons, List.foldlM_cons, List.foldl_cons] at this ⊢
    rw [parseHextet_hexStr h (hh h (by simp))]
    exact this

theorem hextetVal_append (ip : Nat) (a b : List Nat) : hextetVal ip (a ++ b) = hextetVal (hextetVal ip a) b := by
  simp [hextetVal]

theorem hextetVal_zeros (ip n : Nat) : hextetVal ip (List.replicate n 0) = ip * 65536 ^ n := by
  induction n generalizing ip with
  | zero => simp [hextetVal]
  | succ n ih =>
    rw [List.replicate_succ]
    have : hextetVal ip (0 :: List.replicate n 0) = hextetVal (ip * 65536) (List.replicate n 0) := by simp [hextetVal]
    rw [this, ih, Nat.pow_succ, Nat.mul_assoc, Nat.mul_comm 65536]

theorem hextets_lt (n : Nat) : ∀ h ∈ hextets n, h < 65536 := by
  intro h hh
  simp only [hextets, List.mem_cons, List.not_mem_nil, or_false] at hh
  rcases hh with rfl|rfl|rfl|rfl|rfl|rfl|rfl|rfl <;> exact Nat.mod_lt _ (by omega)

theorem hextetVal_hextets (n : Nat) (hn : n < 2 ^ 128) : hextetVal 0 (hextets n) = n := by
  simp only [hextetVal, hextets, List.foldl_cons, List.foldl_nil]
  omega

/-! ### The zero run found by `_compress_hextets` -/

/-- The positions `[s, s+l)` of `hs` hold `"0"`. -/
def ZeroRun (hs : List Str) (s l : Nat) : Prop := ∀ i, i < l → hs[s + i]? = some ['0']

theorem ZeroRun.append {hs : List Str} {s l : Nat} (h : ZeroRun hs s l) (t : List Str) : ZeroRun (hs ++ t) s l := by
  intro i hi
  have h1 := h i hi
  have h2 : s + i < hs.length := by
    rcases Nat.lt_or_ge (s + i) hs.length with h2 | h2
    · exact h2
    · rw [List.getElem?_eq_none h2] at h1; cases h1
  rw [List.getElem?_append_left h2]; exact h1

/-- Loop invariant of `_compress_hextets` after reading the list `pre`. -/
structure RunInv (pre : List Str) (st : RunState) : Prop where
  index : st.index = pre.length
  best : ZeroRun pre st.bestStart st.bestLen
  cur : match st.start with
    | some s => ZeroRun pre s st.len ∧ s + st.len = pre.length
    | none => st.len = 0

theorem runInv_step {pre : List Str} {st : RunState} (h : RunInv pre st) (x : Str) : RunInv (pre ++ [x]) (runStep st x) := by
  obtain ⟨h1, h2, h3⟩ := h
  unfold runStep
  by_cases hx : x = ['0']
  · subst hx
    have hcur : ZeroRun (pre ++ [['0']]) (st.start.getD st.index) (st.len + 1)
        ∧ st.start.getD st.index + (st.len + 1) = (pre ++ [['0']]).length := by
      cases hs : st.start with
      | some s =>
        rw [hs] at h3
        obtain ⟨h3, h4⟩ := h3
        refine ⟨?_, by simp; omega⟩
        intro i hi
        simp only [Option.getD_some]
        rcases Nat.lt_or_ge i st.len with h5 | h5
        · exact (h3.append _) i h5
        · have : s + i = pre.length := by omega
          rw [this]; simp
      | none =>
        rw [hs] at h3
        simp only at h3
        refine ⟨?_, by simp [h1, h3]⟩
        intro i hi
        have : i = 0 := by omega
        subst this
        simp [h1]
    simp only [if_true]
    split
    · exact ⟨by simp [h1], hcur.1, hcur⟩
    · exact ⟨by simp [h1], h2.append _, hcur⟩
  · rw [if_neg hx]
    exact ⟨by simp [h1], h2.append _, rfl⟩

theorem runInv_foldl (l : List Str) : ∀ (pre : List Str) (st : RunState), RunInv pre st →
    RunInv (pre ++ l) (l.foldl runStep st) := by
  induction l with
  | nil => intro pre st h; simpa using h
  | cons x l ih =>
    intro pre st h
    have := ih _ _ (runInv_step h x)
    simpa using this

/-- A zero run splits the list. -/
theorem ZeroRun.split {hs : List Nat} {s l : Nat} (h : ZeroRun (hs.map hexStr) s l) (hl : 0 < l) :
    ∃ a b : List Nat, hs = a ++ (List.replicate l 0 ++ b) ∧ a.length = s := by
  have hlen : s + l ≤ hs.length := by
    have := h (l - 1) (by omega)
    rcases Nat.lt_or_ge (s + (l - 1)) hs.length with h2 | h2
    · omega
    · rw [List.getElem?_eq_none (by simpa using h2)] at this; cases this
  refine ⟨hs.take s, hs.drop (s + l), ?_, by simp; omega⟩
  have hmid : (hs.drop s).take l = List.replicate l 0 := by
    rw [List.eq_replicate_iff]
    refine ⟨by simp; omega, ?_⟩
    intro x hx
    obtain ⟨i, hi, rfl⟩ := List.mem_iff_getElem.1 hx
    simp only [List.length_take, List.length_drop] at hi
    have := h i (by omega)
    rw [List.getElem?_map, List.getElem?_eq_getElem (by omega)] at this
    simp only [Option.map_some, Option.some.injEq] at this
    simpa using hexStr_eq_zero this
  rw [← hmid]
  conv => lhs; rw [← List.take_append_drop s hs, ← List.take_append_drop l (hs.drop s), List.drop_drop]

/-! ### Parsing compressed and uncompressed part lists -/

theorem emptyIdx_append (l m : List Str) : ∀ i, emptyIdx i (l ++ m) = emptyIdx i l ++ emptyIdx (i + l.length) m := by
  induction l with
  | nil => intro i; simp [emptyIdx]
  | cons x l ih =>
    intro i
    simp only [List.cons_append, emptyIdx, ih, List.length_cons]
    rw [show i + (l.length + 1) = i + 1 + l.length by omega]
    split <;> simp

theorem emptyIdx_map_hexStr (l : List Nat) : ∀ i, emptyIdx i (l.map hexStr) = [] := by
  induction l with
  | nil => intro i; rfl
  | cons x l ih => intro i; simp [emptyIdx, hexStr_ne_nil, ih]

theorem emptyIdx_tail_map (a : List Nat) (x : Nat) (m : List Str) :
    emptyIdx 1 (((x :: a).map hexStr ++ m).tail) = emptyIdx (a.length + 1) m := by
  rw [List.map_cons, List.cons_append, List.tail_cons, emptyIdx_append, emptyIdx_map_hexStr]
  simp [Nat.add_comm]

theorem hexStr_tail_dropLast (hs : List Nat) : emptyInner (hs.map hexStr) = [] := by
  unfold emptyInner
  rw [← List.map_tail, ← List.map_dropLast, emptyIdx_map_hexStr]

theorem map_hexStr_head (hs : List Nat) : (hs.map hexStr).head? ≠ some [] := by
  cases hs with
  | nil => simp
  | cons x l => simpa using hexStr_ne_nil x

theorem map_hexStr_last (hs : List Nat) : (hs.map hexStr).getLast? ≠ some [] := by
  rw [List.getLast?_map]
  cases hs.getLast? with
  | none => simp
  | some x => simpa using hexStr_ne_nil x

theorem getLast?_append_ne (l : List Str) {m : List Str} (h : m ≠ []) : (l ++ m).getLast? = m.getLast? := by
  rw [List.getLast?_append]
  cases hm : m.getLast? with
  | none => rw [List.getLast?_eq_none_iff] at hm; exact absurd hm h
  | some x => rfl

theorem ipv6Parts_plain (hs : List Nat) (h8 : hs.length = 8) (hh : ∀ h ∈ hs, h < 65536) :
    ipv6Parts (hs.map hexStr) = .ok (hextetVal 0 hs) := by
  unfold ipv6Parts
  rw [if_neg (by simp [h8]), hexStr_tail_dropLast]
  simp only
  rw [if_neg (by simp [h8]), if_neg (map_hexStr_head hs), if_neg (map_hexStr_last hs), foldHextets_hexStr _ _ hh]

/-- The part list printed for `a ++ zeros ++ b`. -/
def squeeze (a b : List Nat) : List Str :=
  (if a = [] then [[]] else a.map hexStr) ++ [[]] ++ (if b = [] then [[]] else b.map hexStr)

theorem ipv6Parts_squeeze (a b : List Nat) (l : Nat) (h8 : a.length + l + b.length = 8) (hl : 1 < l)
    (ha : ∀ h ∈ a, h < 65536) (hb : ∀ h ∈ b, h < 65536) :
    ipv6Parts (squeeze a b) = .ok (hextetVal 0 (a ++ (List.replicate l 0 ++ b))) := by
  have key : hextetVal 0 (a ++ (List.replicate l 0 ++ b)) = hextetVal (hextetVal 0 a * 65536 ^ l) b := by
    rw [hextetVal_append, hextetVal_append, hextetVal_zeros]
  rw [key]
  have hlast : ∀ x : Nat, ∀ b : List Nat, ((x :: b).map hexStr).dropLast = ((x :: b).dropLast).map hexStr := by
    intro x b; rw [List.map_dropLast]
  unfold ipv6Parts emptyInner squeeze
  cases a with
  | nil =>
    cases b with
    | nil =>
      simp at h8; subst h8
      decide
    | cons y b =>
      have hne : (y :: b).map hexStr ≠ [] := by simp
      have e1 : emptyIdx 1 (([[]] ++ [[]] ++ (y :: b).map hexStr).tail.dropLast) = [1] := by
        simp only [List.cons_append, List.nil_append, List.tail_cons]
        rw [List.dropLast_cons_of_ne_nil hne, hlast]
        simp only [emptyIdx, if_true, emptyIdx_map_hexStr]
      have e2 : ([[]] ++ [[]] ++ (y :: b).map hexStr : List Str).getLast? ≠ some [] := by
        rw [getLast?_append_ne _ hne]
        exact map_hexStr_last (y :: b)
      simp only [reduceCtorEq, if_true, if_false] at e1 e2 ⊢
      rw [if_neg (by simp at h8 ⊢; omega), e1]
      simp only [e2, false_and, if_false]
      simp only [List.length_cons, List.length_nil] at h8
      have e3 : ([[]] ++ [[]] ++ (y :: b).map hexStr : List Str).length = b.length + 3 := by simp
      rw [e3]
      rw [if_neg (by simp), if_neg (by simp; omega)]
      simp only [List.cons_append, List.nil_append, List.head?_cons, if_true, Nat.sub_self, List.take_zero]
      rw [show b.length + 3 - (b.length + 3 - 1 - 1) = 2 by omega, show 8 - (0 + (b.length + 3 - 1 - 1)) = l by omega]
      simp only [List.drop_succ_cons, List.drop_zero]
      have := foldHextets_hexStr (y :: b) (0 * 65536 ^ l) hb
      simpa [foldHextets, hextetVal] using this
  | cons x a =>
    have hhead : ∀ t : List Str, ((x :: a).map hexStr ++ t).head? ≠ some [] := by
      intro t; simpa using hexStr_ne_nil x
    cases b with
    | nil =>
      have e1 : emptyIdx 1 (((x :: a).map hexStr ++ [[]] ++ [[]]).tail.dropLast) = [a.length + 1] := by
        rw [List.map_cons, List.cons_append, List.cons_append, List.tail_cons, List.dropLast_concat, emptyIdx_append, emptyIdx_map_hexStr]
        simp [emptyIdx, Nat.add_comm]
      have e2 : ((x :: a).map hexStr ++ [[]] ++ [[]] : List Str).getLast? = some [] := List.getLast?_concat
      have e0 := hhead ([[]] ++ [[]])
      rw [← List.append_assoc] at e0
      simp only [reduceCtorEq, if_true, if_false] at e0 e1 e2 ⊢
      simp only [List.length_cons, List.length_nil] at h8
      have e3 : ((x :: a).map hexStr ++ [[]] ++ [[]] : List Str).length = a.length + 3 := by simp
      rw [e3, if_neg (by omega), e1]
      simp only [e0, e2, false_and, if_false, if_true, true_and]
      rw [if_neg (by omega), if_neg (by omega)]
      rw [show a.length + 3 - (a.length + 1) - 1 - 1 = 0 by omega, show 8 - (a.length + 1 + 0) = l by omega]
      have e4 : ((x :: a).map hexStr ++ [[]] ++ [[]] : List Str).take (a.length + 1) = (x :: a).map hexStr := by
        rw [List.append_assoc, List.take_left' (by simp)]
      rw [e4, foldHextets_hexStr _ _ ha]
      have e5 : ((x :: a).map hexStr ++ [[]] ++ [[]] : List Str).drop (a.length + 3 - 0) = [] := by
        apply List.drop_eq_nil_of_le; simp
      rw [e5]; rfl
    | cons y b =>
      have hne : (y :: b).map hexStr ≠ [] := by simp
      have e1 : emptyIdx 1 (((x :: a).map hexStr ++ [[]] ++ (y :: b).map hexStr).tail.dropLast) = [a.length + 1] := by
        rw [List.map_cons, List.cons_append, List.cons_append, List.tail_cons, List.dropLast_append_of_ne_nil hne, hlast,
          emptyIdx_append, emptyIdx_append, emptyIdx_map_hexStr, emptyIdx_map_hexStr]
        simp [emptyIdx, Nat.add_comm]
      have e2 : ((x :: a).map hexStr ++ [[]] ++ (y :: b).map hexStr : List Str).getLast? ≠ some [] := by
        rw [getLast?_append_ne _ hne]
        exact map_hexStr_last (y :: b)
      have e0 := hhead ([[]] ++ (y :: b).map hexStr)
      rw [← List.append_assoc] at e0
      simp only [reduceCtorEq, if_false] at e0 e1 e2 ⊢
      simp only [List.length_cons] at h8
      have e3 : ((x :: a).map hexStr ++ [[]] ++ (y :: b).map hexStr : List Str).length = a.length + b.length + 3 := by
        simp; omega
      rw [e3, if_neg (by omega), e1]
      simp only [e0, e2, false_and, if_false]
      rw [if_neg (by omega)]
      rw [show a.length + b.length + 3 - (a.length + 1) - 1 = b.length + 1 by omega,
        show 8 - (a.length + 1 + (b.length + 1)) = l by omega,
        show a.length + b.length + 3 - (b.length + 1) = a.length + 2 by omega]
      have e4 : ((x :: a).map hexStr ++ [[]] ++ (y :: b).map hexStr : List Str).take (a.length + 1) = (x :: a).map hexStr := by
        rw [List.append_assoc, List.take_left' (by simp)]
      have e5 : ((x :: a).map hexStr ++ [[]] ++ (y :: b).map hexStr : List Str).drop (a.length + 2) = (y :: b).map hexStr := by
        rw [List.drop_left' (by simp)]
      rw [e4, e5, foldHextets_hexStr _ _ ha]
      exact foldHextets_hexStr _ _ hb

/-- What `_compress_hextets` prints: the list itself, or the list with a run of at least two zeros squeezed out. -/
theorem compress_cases (hs : List Nat) :
    compressHextets (hs.map hexStr) = hs.map hexStr ∨
    ∃ a b l, hs = a ++ (List.replicate l 0 ++ b) ∧ 1 < l ∧ compressHextets (hs.map hexStr) = squeeze a b := by
  have inv : RunInv ([] ++ hs.map hexStr) ((hs.map hexStr).foldl runStep ⟨0, 0, 0, none, 0⟩) :=
    runInv_foldl _ [] _ ⟨rfl, fun i hi => absurd hi (by simp), rfl⟩
  rw [List.nil_append] at inv
  unfold compressHextets
  generalize (hs.map hexStr).foldl runStep ⟨0, 0, 0, none, 0⟩ = st at inv
  by_cases hl : 1 < st.bestLen
  · right
    obtain ⟨a, b, e, ha⟩ := inv.best.split (by omega)
    refine ⟨a, b, st.bestLen, e, hl, ?_⟩
    simp only [hl, if_true, ← ha, List.length_map]
    generalize st.bestLen = l at *
    subst e
    have e1 : ∀ t : List Str, (List.map hexStr (a ++ (List.replicate l 0 ++ b)) ++ t).take a.length = a.map hexStr := by
      intro t
      rw [List.map_append, List.append_assoc, List.take_left' (by simp)]
    have e2 : ∀ t : List Str, (List.map hexStr (a ++ (List.replicate l 0 ++ b)) ++ t).drop (a.length + l) = b.map hexStr ++ t := by
      intro t
      rw [List.map_append, List.map_append, ← List.append_assoc, List.append_assoc, List.drop_left' (by simp)]
    have e1' := e1 []
    have e2' := e2 []
    rw [List.append_nil] at e1' e2'
    rw [List.append_nil] at e2'
    unfold squeeze
    cases b with
    | nil =>
      have hc : (a.length + l = (a ++ (List.replicate l 0 ++ [])).length) = True := by simp
      simp only [hc, if_true, e1, e2]
      cases a <;> simp
    | cons y b =>
      have hc : (a.length + l = (a ++ (List.replicate l 0 ++ y :: b)).length) = False := by simp
      simp only [hc, if_false, e1', e2']
      cases a <;> simp
  · left
    simp [hl]

theorem compress_parts (hs : List Nat) : ∀ p ∈ compressHextets (hs.map hexStr), p = [] ∨ ∃ h, p = hexStr h := by
  intro p hp
  rcases compress_cases hs with h | ⟨a, b, l, _, _, h⟩
  · rw [h] at hp
    obtain ⟨x, _, rfl⟩ := List.mem_map.1 hp
    exact Or.inr ⟨x, rfl⟩
  · rw [h] at hp
    unfold squeeze at hp
    simp only [List.mem_append, List.mem_singleton] at hp
    rcases hp with (hp | hp) | hp
    · split at hp
      · simp at hp; exact Or.inl hp
      · obtain ⟨x, _, rfl⟩ := List.mem_map.1 hp
        exact Or.inr ⟨x, rfl⟩
    · exact Or.inl hp
    · split at hp
      · simp at hp; exact Or.inl hp
      · obtain ⟨x, _, rfl⟩ := List.mem_map.1 hp
        exact Or.inr ⟨x, rfl⟩

theorem compress_length (hs : List Nat) (h8 : hs.length = 8) : 3 ≤ (compressHextets (hs.map hexStr)).length := by
  rcases compress_cases hs with h | ⟨a, b, l, _, _, h⟩
  · rw [h]; simp [h8]
  · rw [h]; unfold squeeze
    have : ∀ z : List Nat, 1 ≤ (if z = [] then [[]] else z.map hexStr : List Str).length := by
      intro z; cases z <;> simp
    have h1 := this a
    have h2 := this b
    simp only [List.length_append, List.length_singleton]
    omega

theorem ipv6Str_not_mem (n : Nat) (c : Char) (h : isHex c = false) (h2 : c ≠ ':') : c ∉ ipv6Str n := by
  intro hc
  rcases mem_joinWith _ _ _ hc with hc | ⟨p, hp, hc⟩
  · exact h2 hc
  · rcases compress_parts _ p hp with rfl | ⟨x, rfl⟩
    · cases hc
    · exact hexStr_not_mem x c h hc

theorem ipv6Int_ipv6Str (n : Nat) (hn : n < 2 ^ 128) : ipv6Int (ipv6Str n) = .ok n := by
  have h8 : (hextets n).length = 8 := rfl
  have hlen := compress_length (hextets n) h8
  have hsplit : splitOn ':' (ipv6Str n) = compressHextets ((hextets n).map hexStr) := by
    apply splitOn_joinWith
    · intro h; rw [h] at hlen; simp at hlen
    · intro p hp
      rcases compress_parts _ p hp with rfl | ⟨x, rfl⟩
      · simp
      · exact hexStr_not_mem x ':' (by decide)
  unfold ipv6Int
  rw [if_neg (by intro h0; rw [h0] at hsplit; rw [← hsplit] at hlen; simp [splitOn] at hlen)]
  rw [hsplit, if_neg (by omega)]
  have hv4 : v4Suffix (compressHextets ((hextets n).map hexStr)) = .ok (compressHextets ((hextets n).map hexStr)) := by
    unfold v4Suffix
    split
    · rename_i last hl
      rw [if_neg]
      rcases compress_parts _ last (List.mem_of_getLast? hl) with rfl | ⟨x, rfl⟩
      · simp
      · exact hexStr_not_mem x '.' (by decide)
    · rfl
  rw [hv4]
  show ipv6Parts _ = _
  rcases compress_cases (hextets n) with h | ⟨a, b, l, e, hl, h⟩
  · rw [h, ipv6Parts_plain _ h8 (hextets_lt n), hextetVal_hextets n hn]
  · have hlt := hextets_lt n
    rw [h, ipv6Parts_squeeze a b l ?_ hl ?_ ?_, ← e, hextetVal_hextets n hn]
    · have := congrArg List.length e
      simp [h8] at this; omega
    · intro x hx; exact hlt x (by rw [e]; simp [hx])
    · intro x hx; exact hlt x (by rw [e]; simp [hx])

end Verif
