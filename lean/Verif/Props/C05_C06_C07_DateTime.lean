import Verif.Lemmas.DateTime
/-!
# C05, C06, C07: dates, times and timestamps
-/
namespace Verif

/-- The text `Z` stands for, before `fromisoformat` is called. -/
theorem dtSerialize_text (d : PyDateTime) (hv : d.Valid) (ha : d.Aware) :
    ∃ s, dtSerialize d = .ok s ∧ (if endsWith ['Z'] s then dropEnd 1 s ++ c!"+00:00" else s) = dateTimeIso d := by
  obtain ⟨o, ho⟩ := ha
  have hr := hv.time.off o ho
  have hro : o.natAbs < 86400000000 := by omega
  have e : dateTimeIso d = (dateIso d.date ++ 'T' :: formatTime d.time.hour d.time.minute d.time.second d.time.micro)
      ++ formatOffset (some o) := by
    simp [dateTimeIso, timeIso, ho]
  unfold dtSerialize
  rw [ho]
  simp only
  refine ⟨_, rfl, ?_⟩
  by_cases hz : o = 0
  · have h1 : endsWith c!"+00:00" (dateTimeIso d) = true := by rw [e]; exact (endsWith_utc _ o hro).2 hz
    simp only [h1, if_true]
    obtain ⟨t, ht⟩ := endsWith_eq h1
    have h2 : dropEnd 6 (dateTimeIso d) = t := by rw [ht]; exact dropEnd_append t c!"+00:00"
    rw [h2, endsWith_append ['Z'] t]
    have h3 : dropEnd 1 (t ++ ['Z']) = t := dropEnd_append t ['Z']
    simp only [if_true, h3, ← ht]
  · have h1 : endsWith c!"+00:00" (dateTimeIso d) = false := by
      rw [← Bool.not_eq_true, e]; exact fun h => hz ((endsWith_utc _ o hro).1 h)
    simp only [h1]
    have h2 : endsWith ['Z'] (dateTimeIso d) = false := by
      rw [← Bool.not_eq_true]
      intro h
      obtain ⟨t, ht⟩ := endsWith_eq h
      obtain ⟨t', c, e', hc⟩ := formatOffsetAbs_last o.natAbs
      rw [e, formatOffset, e', ← List.cons_append, ← List.append_assoc] at ht
      have := append_inj_right_len ht rfl
      simp only [List.cons.injEq, and_true] at this
      subst this
      exact absurd hc (by decide)
    simp [h2]

/-- C05: every time-zone aware timestamp is read back from its serialized form with the same fields; the offset is the
same too, but an offset of less than a second is read as zero. -/
theorem C05_read_back (d : PyDateTime) (hv : d.Valid) (o : Int) (ho : d.time.off = some o) :
    ∃ s, dtSerialize d = .ok s ∧
      dtParse s = .ok ⟨d.date, { d.time with off := some (if o.natAbs < 1000000 then 0 else o) }⟩ := by
  obtain ⟨s, h1, h2⟩ := dtSerialize_text d hv ⟨o, ho⟩
  refine ⟨s, h1, ?_⟩
  unfold dtParse
  rw [h2, dateTimeFromIso_iso d hv]
  simp [PyTime.coarsen, ho]

/-- C05: every time-zone aware timestamp is read back from its serialized form, with the same fields and offset, if the
offset is zero or at least a second.  Missing for the full claim: other offsets, for which it is false
(`C05_fine_offset_lost`). -/
theorem C05_roundtrip_partial (d : PyDateTime) (hv : d.Valid) (ha : d.Aware) (hc : d.time.Coarse) :
    ∃ s, dtSerialize d = .ok s ∧ dtParse s = .ok d := by
  obtain ⟨o, ho⟩ := ha
  obtain ⟨s, h1, h2⟩ := dtSerialize_text d hv ⟨o, ho⟩
  refine ⟨s, h1, ?_⟩
  unfold dtParse
  rw [h2, dateTimeFromIso_iso d hv, PyTime.coarsen_of_coarse hc]
  simp [ho]

/-- 1970-01-01 00:00:00 at an offset of half a second. -/
def fineStamp : PyDateTime := ⟨⟨1970, 1, 1⟩, ⟨0, 0, 0, 0, some 500000⟩⟩

/-- C05 in full is false: an offset of half a second is written, but read as UTC, which is another point in time. -/
theorem C05_fine_offset_lost : fineStamp.Valid ∧ fineStamp.Aware ∧
    dtSerialize fineStamp = .ok c!"1970-01-01T00:00:00+00:00:00.500000" ∧
    dtParse c!"1970-01-01T00:00:00+00:00:00.500000" = .ok ⟨⟨1970, 1, 1⟩, ⟨0, 0, 0, 0, some 0⟩⟩ :=
  ⟨⟨⟨by decide, by decide⟩, by decide, by decide, by decide, by decide, by intro o h; cases h; decide⟩, ⟨_, rfl⟩,
    by decide +kernel, by decide +kernel⟩

/-- C05: the suffix `Z` is written for UTC timestamps and for no other. -/
theorem C05_zulu_iff_utc (d : PyDateTime) (hv : d.Valid) (s : Str) (h : dtSerialize d = .ok s) :
    (∃ t, s = t ++ ['Z']) ↔ d.time.off = some 0 := by
  cases ho : d.time.off with
  | none => unfold dtSerialize at h; rw [ho] at h; cases h
  | some o =>
    have hr := hv.time.off o ho
    have hro : o.natAbs < 86400000000 := by omega
    have e : dateTimeIso d = (dateIso d.date ++ 'T' :: formatTime d.time.hour d.time.minute d.time.second d.time.micro)
        ++ formatOffset (some o) := by
      simp [dateTimeIso, timeIso, ho]
    unfold dtSerialize at h
    rw [ho] at h
    injection h with h
    simp only [Option.some.injEq]
    constructor
    · rintro ⟨t, ht⟩
      by_cases h1 : endsWith c!"+00:00" (dateTimeIso d) = true
      · rw [e] at h1; exact (endsWith_utc _ o hro).1 h1
      · rw [if_neg h1] at h
        obtain ⟨t', c, e', hc⟩ := formatOffsetAbs_last o.natAbs
        rw [← h, e, formatOffset, e', ← List.cons_append, ← List.append_assoc] at ht
        have := append_inj_right_len ht rfl
        simp only [List.cons.injEq, and_true] at this
        subst this
        exact absurd hc (by decide)
    · intro hz
      have h1 : endsWith c!"+00:00" (dateTimeIso d) = true := by rw [e]; exact (endsWith_utc _ o hro).2 hz
      rw [if_pos h1] at h
      exact ⟨_, h.symm⟩

theorem formatOffset_inj {o o' : Int} (h : o.natAbs < 86400000000) (h' : o'.natAbs < 86400000000)
    (e : formatOffset (some o) = formatOffset (some o')) : o = o' := by
  unfold formatOffset at e
  injection e with e1 e2
  obtain ⟨t, p1, _, p2, p3⟩ := parseHmsf_formatOffsetAbs _ h
  obtain ⟨t', q1, _, q2, q3⟩ := parseHmsf_formatOffsetAbs _ h'
  rw [e2, q1] at p1
  injection p1 with p1
  subst p1
  by_cases h1 : o < 0 <;> by_cases h2 : o' < 0 <;> simp [h1, h2] at e1 <;> omega

/-- C05: distinct timestamps have distinct texts. -/
theorem C05_injective (d d' : PyDateTime) (hv : d.Valid) (hv' : d'.Valid) (s : Str)
    (h : dtSerialize d = .ok s) (h' : dtSerialize d' = .ok s) : d = d' := by
  have aware : ∀ x : PyDateTime, dtSerialize x = .ok s → ∃ o, x.time.off = some o := by
    intro x hx
    cases ho : x.time.off with
    | none => unfold dtSerialize at hx; rw [ho] at hx; cases hx
    | some o => exact ⟨o, rfl⟩
  obtain ⟨o, ho⟩ := aware d h
  obtain ⟨o', ho'⟩ := aware d' h'
  obtain ⟨t, h1, h2⟩ := dtSerialize_text d hv ⟨o, ho⟩
  obtain ⟨t', h3, h4⟩ := dtSerialize_text d' hv' ⟨o', ho'⟩
  rw [h] at h1; rw [h'] at h3
  injection h1 with h1; injection h3 with h3
  subst h1; subst h3
  rw [h2] at h4
  have hp := dateTimeFromIso_iso d hv
  rw [h4, dateTimeFromIso_iso d' hv'] at hp
  injection hp with hp
  cases d with
  | mk a t =>
  cases d' with
  | mk a' t' =>
  cases t with
  | mk hh mm ss us off =>
  cases t' with
  | mk hh' mm' ss' us' off' =>
  simp only at ho ho'
  subst ho; subst ho'
  simp only [PyTime.coarsen, PyDateTime.mk.injEq, PyTime.mk.injEq] at hp
  obtain ⟨rfl, rfl, rfl, rfl, rfl, _⟩ := hp
  have hr := hv.time.off o rfl
  have hr' := hv'.time.off o' rfl
  have e : formatOffset (some o) = formatOffset (some o') := by
    simp only [dateTimeIso, timeIso] at h4
    have := List.append_cancel_left h4
    injection this with _ this
    exact List.append_cancel_left this
  rw [formatOffset_inj (by omega) (by omega) e]

/-- C06, writing: naive timestamps are refused, aware timestamps never are. -/
theorem C06_serialize_iff_aware (d : PyDateTime) :
    (¬ d.Aware → dtSerialize d = .error .jsonValue) ∧ (d.Aware → ∃ s, dtSerialize d = .ok s) := by
  unfold PyDateTime.Aware dtSerialize
  cases d.time.off with
  | none => simp
  | some o => simp

/-- C06, reading: whatever the text, the result is never a naive timestamp. -/
theorem C06_parse_aware (s : Str) (d : PyDateTime) (h : dtParse s = .ok d) : d.Aware := by
  unfold dtParse at h
  split at h
  · cases h
  · rename_i x _
    cases ho : x.time.off with
    | none => rw [ho] at h; cases h
    | some o =>
      rw [ho] at h
      injection h with h
      subst h
      exact ⟨o, ho⟩

/-- C06, reading: a text that denotes a naive timestamp (`isoformat` of one) is refused with `JsonValueError`. -/
theorem C06_naive_text_rejected (d : PyDateTime) (hv : d.Valid) (hn : ¬ d.Aware) :
    dtParse (dateTimeIso d) = .error .jsonValue := by
  have ho : d.time.off = none := by
    cases h : d.time.off with
    | none => rfl
    | some o => exact absurd ⟨o, h⟩ hn
  have hz : endsWith ['Z'] (dateTimeIso d) = false := by
    rw [← Bool.not_eq_true]
    intro h
    obtain ⟨t, ht⟩ := endsWith_eq h
    have hlast : ∃ t c, dateTimeIso d = t ++ [c] ∧ isDig c = true := by
      unfold dateTimeIso timeIso formatTime
      rw [ho]
      simp only [formatOffset, List.append_nil]
      split
      · have := decPad_last_dig 2 d.time.second (dateIso d.date ++ 'T' :: (decPad 2 d.time.hour ++ ':' :: (decPad 2 d.time.minute ++ [':'])))
        simpa using this
      · have := decPad_last_dig 6 d.time.micro (dateIso d.date ++ 'T' :: (decPad 2 d.time.hour ++ ':' :: (decPad 2 d.time.minute
          ++ ':' :: (decPad 2 d.time.second ++ ['.']))))
        simpa using this
    obtain ⟨t', c, e', hc⟩ := hlast
    rw [e'] at ht
    have := append_inj_right_len ht rfl
    simp only [List.cons.injEq, and_true] at this
    subst this
    exact absurd hc (by decide)
  unfold dtParse
  simp [hz, dateTimeFromIso_iso d hv, ho, PyTime.coarsen]

/-- C07, dates. -/
theorem C07_date_roundtrip (d : PyDate) (hv : d.Valid) : dateFromIso (dateIso d) = .ok d := by
  unfold dateFromIso
  rw [if_neg (by rw [dateIso_utf8Len, dateIso_length d hv]; omega), parseIsoDate_dateIso d hv]
  exact checkDate_valid d hv

theorem timeFromIso_timeIso (t : PyTime) (hv : t.Valid) : timeFromIso (timeIso t) = .ok t.coarsen := by
  have hne : (timeIso t).head? ≠ some 'T' := by
    unfold timeIso formatTime
    rw [List.append_assoc]
    exact decPad_head_ne 2 t.hour 'T' (by decide) _ (decPad_ne_nil _ _)
  unfold timeFromIso
  rw [if_neg hne, parseIsoTime_timeIso t hv]
  exact checkTime_coarsen hv

/-- C07: naive times of day. -/
theorem C07_naive_time_roundtrip (t : PyTime) (hv : t.Valid) (hn : t.off = none) : timeFromIso (timeIso t) = .ok t := by
  rw [timeFromIso_timeIso t hv, PyTime.coarsen_of_coarse]
  intro o ho; rw [hn] at ho; cases ho

/-- C07, times of day, naive or with an offset that is zero or at least a second.  Missing for the full claim: other
offsets, for which it is false (`C07_fine_offset_lost`). -/
theorem C07_time_roundtrip_partial (t : PyTime) (hv : t.Valid) (hc : t.Coarse) : timeFromIso (timeIso t) = .ok t := by
  rw [timeFromIso_timeIso t hv, PyTime.coarsen_of_coarse hc]

/-- C07 in full is false: an offset of one microsecond is read as UTC. -/
theorem C07_fine_offset_lost : (⟨0, 0, 0, 0, some (-1)⟩ : PyTime).Valid ∧
    timeIso ⟨0, 0, 0, 0, some (-1)⟩ = c!"00:00:00-00:00:00.000001" ∧
    timeFromIso c!"00:00:00-00:00:00.000001" = .ok ⟨0, 0, 0, 0, some 0⟩ :=
  ⟨⟨by decide, by decide, by decide, by decide, by intro o h; cases h; decide⟩, by decide +kernel, by decide +kernel⟩

/-! Results of parsing are valid dates and times. -/

theorem checkDate_ok {d d' : PyDate} (h : checkDate d = .ok d') : d' = d ∧ d.Valid := by
  unfold checkDate at h
  split at h
  · cases h
  · split at h
    · cases h
    · split at h
      · cases h
      · rename_i h1 h2 h3
        injection h with h
        rw [daysInMonth_eq _ _ (by omega) (by omega)] at h3
        exact ⟨h.symm, ⟨by omega, by omega⟩, by omega, by omega⟩

theorem parseTz_ok {s : Str} {o : Option Int} (h : parseTz s = .ok o) :
    ∀ x, o = some x → -(24 * 3600 * 1000000) < x ∧ x < 24 * 3600 * 1000000 := by
  intro x hx
  subst hx
  unfold parseTz at h
  split at h
  · cases h
  · split at h
    · split at h
      · cases h
      · injection h with h; injection h with h; subst h; decide
    · split at h
      · cases h
      · split at h
        · cases h
        · split at h
          · injection h with h; injection h with h; subst h; decide
          · simp only at h
            generalize (if _ = '-' then _ else _ : Int) = z at h
            split at h
            · rename_i hr
              injection h with h
              injection h with h
              rw [h] at hr
              omega
            · cases h

theorem parseIsoTime_ok {s : Str} {t : PyTime} (h : parseIsoTime s = .ok t) :
    ∀ x, t.off = some x → -(24 * 3600 * 1000000) < x ∧ x < 24 * 3600 * 1000000 := by
  unfold parseIsoTime at h
  split at h
  · cases h
  · simp only at h
    split at h
    · cases h
    · split at h
      · cases h
      · rename_i o ho
        injection h with h
        subst h
        exact parseTz_ok ho

theorem checkTime_ok {t t' : PyTime} (h : checkTime t = .ok t')
    (ho : ∀ x, t.off = some x → -(24 * 3600 * 1000000) < x ∧ x < 24 * 3600 * 1000000) : t'.Valid := by
  unfold checkTime at h
  split at h
  · cases h
  · split at h
    · cases h
    · split at h
      · cases h
      · split at h
        · cases h
        · injection h with h
          subst h
          exact ⟨by omega, by omega, by omega, by omega, ho⟩

/-- C07: an accepted date text always denotes an existing calendar day. -/
theorem C07_date_valid (s : Str) (d : PyDate) (h : dateFromIso s = .ok d) : d.Valid := by
  unfold dateFromIso at h
  split at h
  · cases h
  · split at h
    · cases h
    · have := checkDate_ok h
      rw [this.1]; exact this.2

/-- C07: an accepted time text always denotes a valid time of day. -/
theorem C07_time_valid (s : Str) (t : PyTime) (h : timeFromIso s = .ok t) : t.Valid := by
  unfold timeFromIso at h
  split at h
  · cases h
  · rename_i t0 h0
    exact checkTime_ok h (parseIsoTime_ok h0)

/-- C05: an accepted timestamp text always denotes a valid timestamp. -/
theorem C05_parse_valid (s : Str) (d : PyDateTime) (h : dtParse s = .ok d) : d.Valid := by
  unfold dtParse at h
  split at h
  · cases h
  · rename_i x hx
    have hxd : x = d := by
      split at h
      · cases h
      · injection h
    subst hxd
    clear h
    generalize (if endsWith ['Z'] s = true then dropEnd 1 s ++ c!"+00:00" else s) = z at hx
    unfold dateTimeFromIso at hx
    split at hx
    · cases hx
    · split at hx
      · cases hx
      rename_i sep _
      split at hx
      · cases hx
      · split at hx
        · cases hx
        · rename_i t ht
          have hoff : ∀ x, t.off = some x → -(24 * 3600 * 1000000) < x ∧ x < 24 * 3600 * 1000000 := by
            split at ht
            · injection ht with ht; subst ht; intro x hx; cases hx
            · exact parseIsoTime_ok ht
          split at hx
          · cases hx
          · rename_i d' hd'
            split at hx
            · cases hx
            · rename_i t' ht'
              injection hx with hx
              subst hx
              have := checkDate_ok hd'
              exact ⟨by simp only; rw [this.1]; exact this.2, checkTime_ok ht' hoff⟩

/-! ### Examples -/

/-- 2024-02-29 23:59:59.000001 at offset -03:30. -/
def exampleStamp : PyDateTime := ⟨⟨2024, 2, 29⟩, ⟨23, 59, 59, 1, some (-12600000000)⟩⟩

example : exampleStamp.Valid ∧ exampleStamp.Aware :=
  ⟨⟨⟨by decide, by decide⟩, by decide, by decide, by decide, by decide, by intro o h; cases h; decide⟩, ⟨_, rfl⟩⟩
example : dtSerialize exampleStamp = .ok c!"2024-02-29T23:59:59.000001-03:30" := by decide +kernel
example : dtSerialize ⟨⟨2024, 2, 29⟩, ⟨0, 0, 0, 0, some 0⟩⟩ = .ok c!"2024-02-29T00:00:00Z" := by decide +kernel
example : dtParse c!"2023-02-29T00:00:00Z" = .error .valueError := by decide +kernel
example : dtParse c!"2023-02-28T00:00:00" = .error .jsonValue := by decide +kernel
example : dtParse c!"20230228T000000,5+0130" = .ok ⟨⟨2023, 2, 28⟩, ⟨0, 0, 0, 500000, some 5400000000⟩⟩ := by decide +kernel
example : exampleStamp.time.Coarse := by intro o h; cases h; right; decide
example : dtParse c!"2020-W53-7T12x+00:00" = .ok ⟨⟨2021, 1, 3⟩, ⟨12, 0, 0, 0, some 0⟩⟩ := by decide +kernel
example : timeFromIso c!"T12:30" = .ok ⟨12, 30, 0, 0, none⟩ := by decide +kernel
example : dateFromIso c!"0001-01-01" = .ok ⟨1, 1, 1⟩ := by decide +kernel

end Verif
