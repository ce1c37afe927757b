import Verif.Spec.DateTime
import Verif.Lemmas.StrOps
/-! Lemmas on ISO 8601 formatting and parsing. -/
namespace Verif

theorem list_len2 {s : Str} (h : s.length = 2) : ∃ a b, s = [a, b] := by
  match s, h with
  | [a, b], _ => exact ⟨a, b, rfl⟩

theorem list_len4 {s : Str} (h : s.length = 4) : ∃ a b c d, s = [a, b, c, d] := by
  match s, h with
  | [a, b, c, d], _ => exact ⟨a, b, c, d, rfl⟩

theorem list_len6 {s : Str} (h : s.length = 6) : ∃ a b c d e f, s = [a, b, c, d, e, f] := by
  match s, h with
  | [a, b, c, d, e, f], _ => exact ⟨a, b, c, d, e, f, rfl⟩

/-- Two-digit numerals. -/
theorem decPad2 (n : Nat) (h : n < 100) :
    ∃ a b, decPad 2 n = [a, b] ∧ isDig a = true ∧ isDig b = true ∧ decVal [a, b] = n := by
  obtain ⟨a, b, e⟩ := list_len2 (decPad_length (w := 1) (n := n) (by simpa using h))
  have hd := decPad_dig 2 n
  have hv := decVal_decPad 2 n
  rw [e] at hd hv
  exact ⟨a, b, e, hd a (by simp), hd b (by simp), hv⟩

theorem twoDig_decPad (n : Nat) (h : n < 100) (r : Str) : twoDig (decPad 2 n ++ r) = .ok (n, r) := by
  obtain ⟨a, b, e, ha, hb, hv⟩ := decPad2 n h
  rw [e]
  simp [twoDig, ha, hb, hv]

theorem fourDig_decPad (n : Nat) (h : n < 10000) (r : Str) : fourDig (decPad 4 n ++ r) = .ok (n, r) := by
  obtain ⟨a, b, c, d, e⟩ := list_len4 (decPad_length (w := 3) (n := n) (by simpa using h))
  have hd := decPad_dig 4 n
  have hv := decVal_decPad 4 n
  rw [e] at hd hv
  rw [e]
  simp [fourDig, hd a (by simp), hd b (by simp), hd c (by simp), hd d (by simp), hv]

theorem decPad_head_ne (w n : Nat) (c : Char) (hc : isDig c = false) (r : Str) (h : decPad w n ≠ []) :
    (decPad w n ++ r).head? ≠ some c := by
  have hd := decPad_dig w n
  generalize decPad w n = s at *
  cases s with
  | nil => exact absurd rfl h
  | cons x t =>
    intro e
    simp only [List.cons_append, List.head?_cons, Option.some.injEq] at e
    subst e
    rw [hd x (by simp)] at hc; cases hc

theorem decPad_ne_nil (w n : Nat) : decPad w n ≠ [] := by
  unfold decPad padLeft
  intro h
  rw [List.append_eq_nil_iff] at h
  exact decStr_ne_nil n h.2

theorem parseFrac_decPad (h m s n : Nat) (hn : n < 1000000) : parseFrac h m s (decPad 6 n) = .ok ⟨h, m, s, n, false⟩ := by
  have hl : (decPad 6 n).length = 6 := decPad_length (w := 5) (by simpa using hn)
  have ht : (decPad 6 n).take 6 = decPad 6 n := List.take_of_length_le (by omega)
  have hd : (decPad 6 n).drop 6 = [] := List.drop_of_length_le (by omega)
  unfold parseFrac
  rw [ht, hd, if_neg (by simpa [List.all_eq_true] using decPad_dig 6 n), hl, decVal_decPad]
  simp [leftOver]

/-- A numeral of at least two digits. -/
theorem decPad2_cons (n : Nat) (h : n < 100) (r : Str) : ∃ a b, decPad 2 n ++ r = a :: b :: r := by
  obtain ⟨a, b, e, _⟩ := decPad2 n h
  exact ⟨a, b, by rw [e]; rfl⟩

theorem hmsNext_colon (n : Nat) (h : n < 100) (r : Str) :
    hmsNext true (':' :: (decPad 2 n ++ r)) = .ok (.field (decPad 2 n ++ r)) := by
  obtain ⟨a, b, e⟩ := decPad2_cons n h r
  rw [e]; rfl

theorem hmsNext_dot (n : Nat) : hmsNext true ('.' :: decPad 6 n) = .ok (.frac (decPad 6 n)) := by
  have := decPad_ne_nil 6 n
  cases e : decPad 6 n with
  | nil => exact absurd e this
  | cons a r => rfl

theorem parseHmsf_hm (h m : Nat) (hh : h < 100) (hm : m < 100) :
    parseHmsf (decPad 2 h ++ ':' :: decPad 2 m) = .ok ⟨h, m, 0, 0, false⟩ := by
  have e := twoDig_decPad m hm []
  have f := hmsNext_colon m hm []
  rw [List.append_nil] at e f
  simp [parseHmsf, twoDig_decPad h hh, f, e]
  rfl

theorem parseHmsf_hms (h m s : Nat) (hh : h < 100) (hm : m < 100) (hs : s < 100) :
    parseHmsf (decPad 2 h ++ ':' :: (decPad 2 m ++ ':' :: decPad 2 s)) = .ok ⟨h, m, s, 0, false⟩ := by
  have e := twoDig_decPad s hs []
  have f := hmsNext_colon s hs []
  rw [List.append_nil] at e f
  simp [parseHmsf, twoDig_decPad h hh, hmsNext_colon m hm, twoDig_decPad m hm, f, e]
  rfl

theorem parseHmsf_hmsf (h m s us : Nat) (hh : h < 100) (hm : m < 100) (hs : s < 100) (hu : us < 1000000) :
    parseHmsf (decPad 2 h ++ ':' :: (decPad 2 m ++ ':' :: (decPad 2 s ++ '.' :: decPad 6 us))) = .ok ⟨h, m, s, us, false⟩ := by
  simp [parseHmsf, twoDig_decPad h hh, hmsNext_colon m hm, twoDig_decPad m hm, hmsNext_colon s hs, twoDig_decPad s hs,
    hmsNext_dot, parseFrac_decPad h m s us hu]

theorem parseHmsf_formatTime (h m s us : Nat) (hh : h < 100) (hm : m < 100) (hs : s < 100) (hu : us < 1000000) :
    parseHmsf (formatTime h m s us) = .ok ⟨h, m, s, us, false⟩ := by
  unfold formatTime
  split
  · rename_i e; subst e
    rw [List.append_nil]; exact parseHmsf_hms h m s hh hm hs
  · exact parseHmsf_hmsf h m s us hh hm hs hu

/-- Splitting an offset into its components loses nothing. -/
theorem parseHmsf_formatOffsetAbs (a : Nat) (ha : a < 86400000000) :
    ∃ t, parseHmsf (formatOffsetAbs a) = .ok t ∧ t.rest = false ∧ (t.hour * 60 + t.minute) * 60 + t.second = a / 1000000 ∧
      t.micro = a % 1000000 := by
  have hh : a / 3600000000 < 100 := by omega
  have hm : a / 60000000 % 60 < 100 := by omega
  have hs : a / 1000000 % 60 < 100 := by omega
  have hu : a % 1000000 < 1000000 := by omega
  unfold formatOffsetAbs
  split
  · rename_i h0
    rw [List.append_nil]
    exact ⟨_, parseHmsf_hm _ _ hh hm, rfl, by simp only; omega, by simp only; omega⟩
  · split
    · rename_i h0 h1
      rw [List.append_nil]
      exact ⟨_, parseHmsf_hms _ _ _ hh hm hs, rfl, by simp only; omega, by simp only; omega⟩
    · exact ⟨_, parseHmsf_hmsf _ _ _ _ hh hm hs hu, rfl, by simp only; omega, by simp only⟩

theorem isDig_not_tz (c : Char) (h : isDig c = true) : tzStart c = false := by
  unfold isDig at h
  unfold tzStart
  simp only [Bool.and_eq_true, decide_eq_true_eq] at h
  simp only [Bool.or_eq_false_iff, decide_eq_false_iff_not]
  refine ⟨⟨?_, ?_⟩, ?_⟩ <;> (intro e; subst e; revert h; decide)

theorem formatTime_not_tz (h m s us : Nat) : ∀ c ∈ formatTime h m s us, (!tzStart c) = true := by
  intro c hc
  have key : ∀ w n, c ∈ decPad w n → (!tzStart c) = true := by
    intro w n hc; rw [isDig_not_tz c (decPad_dig w n c hc)]; rfl
  unfold formatTime at hc
  simp only [List.mem_append, List.mem_cons] at hc
  rcases hc with hc | rfl | hc | rfl | hc | hc
  · exact key _ _ hc
  · decide
  · exact key _ _ hc
  · decide
  · exact key _ _ hc
  · split at hc
    · cases hc
    · rcases List.mem_cons.1 hc with rfl | hc
      · decide
      · exact key _ _ hc

theorem formatOffset_head (o : Option Int) : ∀ c, (formatOffset o).head? = some c → (!tzStart c) = false := by
  intro c hc
  unfold formatOffset at hc
  split at hc
  · cases hc
  · simp only [List.head?_cons, Option.some.injEq] at hc
    subst hc
    split <;> decide

theorem formatTime_length (h m s us : Nat) (hh : h < 100) (hm : m < 100) (hs : s < 100) : 8 ≤ (formatTime h m s us).length := by
  have l2 : ∀ n, n < 100 → (decPad 2 n).length = 2 := fun n hn => decPad_length (w := 1) (by simpa using hn)
  simp only [formatTime, List.length_append, List.length_cons, l2 h hh, l2 m hm, l2 s hs]
  omega

theorem formatOffsetAbs_length (a : Nat) (ha : a < 86400000000) : 5 ≤ (formatOffsetAbs a).length := by
  have l2 : ∀ n, n < 100 → (decPad 2 n).length = 2 := fun n hn => decPad_length (w := 1) (by simpa using hn)
  simp only [formatOffsetAbs, List.length_append, List.length_cons, l2 (a / 3600000000) (by omega),
    l2 (a / 60000000 % 60) (by omega)]
  omega

/-- Reading a written offset: offsets of less than a second become zero. -/
theorem parseTz_formatOffset (o : Int) (ho : -86400000000 < o ∧ o < 86400000000) :
    parseTz (formatOffset (some o)) = .ok (some (if o.natAbs < 1000000 then 0 else o)) := by
  have ha : o.natAbs < 86400000000 := by omega
  obtain ⟨t, e, er, ev, eu⟩ := parseHmsf_formatOffsetAbs o.natAbs ha
  unfold formatOffset parseTz
  have hz : (if o < 0 then '-' else '+') ≠ 'Z' := by split <;> decide
  simp only [hz, if_false, e, er, ev, eu, Bool.false_eq_true]
  by_cases hs : o.natAbs < 1000000
  · rw [if_pos (by omega), if_pos hs]
  · rw [if_neg (by omega), if_neg hs]
    have hsum : o.natAbs / 1000000 * 1000000 + o.natAbs % 1000000 = o.natAbs := by omega
    rw [hsum]
    have hval : (if (if o < 0 then '-' else '+') = '-' then -(o.natAbs : Int) else (o.natAbs : Int)) = o := by
      by_cases hneg : o < 0
      · simp only [hneg, if_true]; omega
      · simp only [hneg, if_false, show ¬ ('+' = '-') by decide]; omega
    rw [hval, if_pos ho]

/-- What is left of a time of day: an offset of less than a second is lost. -/
def PyTime.coarsen (t : PyTime) : PyTime := { t with off := t.off.map fun o => if o.natAbs < 1000000 then 0 else o }

theorem PyTime.coarsen_of_coarse {t : PyTime} (h : t.Coarse) : t.coarsen = t := by
  cases t with
  | mk hh mm ss us off =>
    cases off with
    | none => rfl
    | some o =>
      have := h o rfl
      simp only [PyTime.coarsen, Option.map_some, PyTime.mk.injEq, true_and, Option.some.injEq]
      split <;> omega

theorem parseIsoTime_timeIso (t : PyTime) (hv : t.Valid) : parseIsoTime (timeIso t) = .ok t.coarsen := by
  obtain ⟨h1, h2, h3, h4, h5⟩ := hv
  have sp := takeDrop_append_of_all _ _ (formatTime_not_tz t.hour t.minute t.second t.micro) (formatOffset_head t.off)
  unfold parseIsoTime timeIso
  rw [sp.1, sp.2, parseHmsf_formatTime _ _ _ _ (by omega) (by omega) (by omega) (by omega)]
  simp only [Bool.false_and, Bool.false_eq_true, if_false]
  cases ho : t.off with
  | none => simp [formatOffset, parseTz, PyTime.coarsen, ho]
  | some o =>
    rw [parseTz_formatOffset o (by have := h5 o ho; omega)]
    simp [PyTime.coarsen, ho]

theorem checkTime_valid (t : PyTime) (hv : t.Valid) : checkTime t = .ok t := by
  obtain ⟨h1, h2, h3, h4, h5⟩ := hv
  unfold checkTime
  rw [if_neg (by omega), if_neg (by omega), if_neg (by omega), if_neg (by omega)]

theorem monthLength_month {y m d : Nat} (h1 : 1 ≤ d) (h2 : d ≤ monthLength y m) : 1 ≤ m ∧ m ≤ 12 := by
  unfold monthLength at h2
  split at h2 <;> omega

theorem daysInMonth_eq (y m : Nat) (h1 : 1 ≤ m) (h2 : m ≤ 12) : daysInMonth y m = monthLength y m := by
  have : m = 1 ∨ m = 2 ∨ m = 3 ∨ m = 4 ∨ m = 5 ∨ m = 6 ∨ m = 7 ∨ m = 8 ∨ m = 9 ∨ m = 10 ∨ m = 11 ∨ m = 12 := by omega
  rcases this with rfl|rfl|rfl|rfl|rfl|rfl|rfl|rfl|rfl|rfl|rfl|rfl
  all_goals simp [daysInMonth, monthLength]
  simp only [isLeap, Bool.and_eq_true, Bool.or_eq_true, decide_eq_true_eq]
  by_cases ha : y % 4 = 0 <;> by_cases hb : y % 100 = 0 <;> by_cases hc : y % 400 = 0 <;> simp [ha, hb, hc] <;> omega

theorem checkDate_valid (d : PyDate) (hv : d.Valid) : checkDate d = .ok d := by
  obtain ⟨h1, h2⟩ := hv
  have h3 := monthLength_month h2.1 h2.2
  unfold checkDate
  rw [if_neg (by omega), if_neg (by omega), daysInMonth_eq _ _ h3.1 h3.2, if_neg (by omega)]

theorem monthLength_le (y m : Nat) : monthLength y m ≤ 31 := by
  unfold monthLength
  split <;> (try split) <;> omega

theorem dateIso_length (d : PyDate) (hv : d.Valid) : (dateIso d).length = 10 := by
  obtain ⟨h1, h2⟩ := hv
  have h3 := monthLength_month h2.1 h2.2
  have h4 := monthLength_le d.year d.month
  have l2 : ∀ n, n < 100 → (decPad 2 n).length = 2 := fun n hn => decPad_length (w := 1) (by simpa using hn)
  have l4 : (decPad 4 d.year).length = 4 := decPad_length (w := 3) (by simp; omega)
  simp only [dateIso, List.length_append, List.length_cons, l4, l2 d.month (by omega), l2 d.day (by omega)]

theorem parseIsoDate_dateIso (d : PyDate) (hv : d.Valid) (len : Nat) : parseIsoDate len (dateIso d) = .ok d := by
  obtain ⟨h1, h2⟩ := hv
  have h3 := monthLength_month h2.1 h2.2
  have h4 := monthLength_le d.year d.month
  have e := twoDig_decPad d.day (by omega) []
  rw [List.append_nil] at e
  unfold parseIsoDate dateIso
  rw [fourDig_decPad _ (by omega)]
  simp only [List.head?_cons, decide_true, if_true, List.tail_cons]
  rw [if_neg (decPad_head_ne 2 d.month 'W' (by decide) _ (decPad_ne_nil _ _)), twoDig_decPad _ (by omega)]
  simp only [e]

theorem isDig_utf8Size {c : Char} (h : isDig c = true) : c.utf8Size = 1 := by
  unfold isDig at h
  simp only [Bool.and_eq_true, decide_eq_true_eq] at h
  unfold Char.utf8Size
  rw [if_pos]
  have : c.val.toNat ≤ 57 := h.2
  exact UInt32.le_iff_toNat_le.2 (by simpa using Nat.le_trans this (by decide))

theorem utf8Len_ascii {s : Str} (h : ∀ c ∈ s, c.utf8Size = 1) : utf8Len s = s.length := by
  unfold utf8Len
  induction s with
  | nil => rfl
  | cons c r ih =>
    simp only [List.map_cons, List.sum_cons, List.length_cons, h c (by simp), ih fun d hd => h d (by simp [hd])]
    omega

theorem dateIso_utf8Len (d : PyDate) : utf8Len (dateIso d) = (dateIso d).length := by
  apply utf8Len_ascii
  intro c hc
  simp only [dateIso, List.mem_append, List.mem_cons] at hc
  rcases hc with hc | rfl | hc | rfl | hc
  · exact isDig_utf8Size (decPad_dig _ _ c hc)
  · decide
  · exact isDig_utf8Size (decPad_dig _ _ c hc)
  · decide
  · exact isDig_utf8Size (decPad_dig _ _ c hc)

theorem dateIso_getElem4 (d : PyDate) (hv : d.Valid) (r : Str) : (dateIso d ++ r)[4]? = some '-' := by
  have l4 : (decPad 4 d.year).length = 4 := decPad_length (w := 3) (by have := hv.year; simp; omega)
  obtain ⟨a, b, c, e, he⟩ := list_len4 l4
  simp [dateIso, he]

theorem dateIso_getElem5 (d : PyDate) (hv : d.Valid) (r : Str) : (dateIso d ++ r)[5]? ≠ some 'W' := by
  have l4 : (decPad 4 d.year).length = 4 := decPad_length (w := 3) (by have := hv.year; simp; omega)
  obtain ⟨a, b, c, e, he⟩ := list_len4 l4
  have hh := decPad_head_ne 2 d.month 'W' (by decide) ('-' :: (decPad 2 d.day ++ r)) (decPad_ne_nil _ _)
  simpa [dateIso, he, ← List.head?_eq_getElem?] using hh

theorem utf8Len_ge (s : Str) : s.length ≤ utf8Len s := by
  unfold utf8Len
  induction s with
  | nil => simp
  | cons c r ih =>
    simp only [List.map_cons, List.sum_cons, List.length_cons]
    have := c.utf8Size_pos
    omega

theorem findSep_dateIso (d : PyDate) (hv : d.Valid) (r : Str) : findSep (dateIso d ++ r) = .ok 10 := by
  have h := utf8Len_ge (dateIso d ++ r)
  rw [List.length_append, dateIso_length d hv] at h
  unfold findSep
  rw [if_neg (by omega), if_pos (dateIso_getElem4 d hv r), if_neg (dateIso_getElem5 d hv r)]

theorem checkTime_coarsen {t : PyTime} (hv : t.Valid) : checkTime t.coarsen = .ok t.coarsen := by
  obtain ⟨h1, h2, h3, h4, h5⟩ := hv
  unfold checkTime PyTime.coarsen
  simp only
  rw [if_neg (by omega), if_neg (by omega), if_neg (by omega), if_neg (by omega)]

theorem dateTimeFromIso_iso (d : PyDateTime) (hv : d.Valid) :
    dateTimeFromIso (dateTimeIso d) = .ok ⟨d.date, d.time.coarsen⟩ := by
  obtain ⟨hd, ht⟩ := hv
  have hl := dateIso_length _ hd
  unfold dateTimeFromIso dateTimeIso
  rw [if_neg (by simp only [List.length_append, List.length_cons]; omega), findSep_dateIso _ hd]
  simp only
  rw [List.take_left' hl, parseIsoDate_dateIso _ hd, List.drop_left' hl]
  have e : (dateIso d.date ++ 'T' :: timeIso d.time).drop (10 + 1) = timeIso d.time := by
    rw [show dateIso d.date ++ 'T' :: timeIso d.time = (dateIso d.date ++ ['T']) ++ timeIso d.time by simp]
    exact List.drop_left' (by simp [hl])
  simp only [e, reduceCtorEq, if_false, parseIsoTime_timeIso _ ht, checkDate_valid _ hd, checkTime_coarsen ht]

/-! ### Suffixes -/

theorem endsWith_append (suf s : Str) : endsWith suf (s ++ suf) = true := by
  unfold endsWith
  rw [List.isSuffixOf_iff_suffix]
  exact List.suffix_append _ _

theorem dropEnd_append (s t : Str) : dropEnd t.length (s ++ t) = s := by
  unfold dropEnd
  simp

theorem endsWith_eq {suf s : Str} (h : endsWith suf s = true) : ∃ t, s = t ++ suf := by
  unfold endsWith at h
  rw [List.isSuffixOf_iff_suffix] at h
  obtain ⟨t, rfl⟩ := h
  exact ⟨t, rfl⟩

/-- The last character of a formatted offset is a digit. -/
theorem decPad_last_dig (w n : Nat) (s : Str) : ∃ t c, s ++ decPad w n = t ++ [c] ∧ isDig c = true := by
  have hne := decPad_ne_nil w n
  refine ⟨s ++ (decPad w n).dropLast, (decPad w n).getLast hne, ?_, decPad_dig w n _ (List.getLast_mem hne)⟩
  rw [List.append_assoc, List.dropLast_concat_getLast]

theorem formatOffsetAbs_last (a : Nat) : ∃ t c, formatOffsetAbs a = t ++ [c] ∧ isDig c = true := by
  unfold formatOffsetAbs
  split
  · rw [List.append_nil]
    have := decPad_last_dig 2 (a / 60000000 % 60) (decPad 2 (a / 3600000000) ++ [':'])
    simpa using this
  · split
    · rw [List.append_nil]
      have := decPad_last_dig 2 (a / 1000000 % 60) (decPad 2 (a / 3600000000) ++ ':' :: (decPad 2 (a / 60000000 % 60) ++ [':']))
      simpa using this
    · have := decPad_last_dig 6 (a % 1000000)
        (decPad 2 (a / 3600000000) ++ ':' :: (decPad 2 (a / 60000000 % 60) ++ ':' :: (decPad 2 (a / 1000000 % 60) ++ ['.'])))
      simpa using this

theorem append_inj_right_len {s t u v : Str} (h : s ++ t = u ++ v) (hl : t.length = v.length) : t = v :=
  List.append_inj_right' h hl

/-- The text ends in `+00:00` exactly for offset zero. -/
theorem endsWith_utc (p : Str) (o : Int) (ho : o.natAbs < 86400000000) :
    endsWith c!"+00:00" (p ++ formatOffset (some o)) = true ↔ o = 0 := by
  have l2 : ∀ n, n < 100 → (decPad 2 n).length = 2 := fun n hn => decPad_length (w := 1) (by simpa using hn)
  constructor
  · intro h
    obtain ⟨t, ht⟩ := endsWith_eq h
    simp only [formatOffset] at ht
    unfold formatOffsetAbs at ht
    generalize hsg : (if o < 0 then '-' else '+') = sg at ht
    have hh : o.natAbs / 3600000000 < 100 := by omega
    have hm : o.natAbs / 60000000 % 60 < 100 := by omega
    have hs : o.natAbs / 1000000 % 60 < 100 := by omega
    have hu : o.natAbs % 1000000 < 10 ^ 6 := by omega
    split at ht
    · rename_i h0
      rw [List.append_nil] at ht
      have e := append_inj_right_len (t := sg :: (decPad 2 (o.natAbs / 3600000000) ++ ':' :: decPad 2 (o.natAbs / 60000000 % 60)))
        ht (by simp [l2 _ hh, l2 _ hm])
      obtain ⟨a, b, e1, _, _, v1⟩ := decPad2 _ hh
      obtain ⟨c, d, e2, _, _, v2⟩ := decPad2 _ hm
      rw [e1, e2] at e
      simp only [List.cons_append, List.nil_append, List.cons.injEq, and_true, true_and] at e
      obtain ⟨_, rfl, rfl, rfl, rfl⟩ := e
      have z : decVal ['0', '0'] = 0 := by decide
      rw [z] at v1 v2
      omega
    · split at ht
      · rw [List.append_nil] at ht
        have hm2 := l2 _ hm
        have e := append_inj_right_len
          (s := p ++ sg :: decPad 2 (o.natAbs / 3600000000)) (t := ':' :: (decPad 2 (o.natAbs / 60000000 % 60) ++ ':' :: decPad 2 (o.natAbs / 1000000 % 60)))
          (by rw [← ht]; simp) (by simp [l2 _ hs, hm2])
        simp at e
      · have e := append_inj_right_len
          (s := p ++ sg :: (decPad 2 (o.natAbs / 3600000000) ++ ':' :: (decPad 2 (o.natAbs / 60000000 % 60) ++ ':' :: (decPad 2 (o.natAbs / 1000000 % 60) ++ ['.']))))
          (t := decPad 6 (o.natAbs % 1000000))
          (by rw [← ht]; simp) (by rw [decPad_length (w := 5) hu]; rfl)
        have := decPad_dig 6 (o.natAbs % 1000000) '+' (by rw [e]; simp)
        exact absurd this (by decide)
  · rintro rfl
    have : formatOffset (some 0) = c!"+00:00" := by decide +kernel
    rw [this]
    exact endsWith_append _ _

end Verif
