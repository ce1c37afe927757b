import Verif.Lemmas.Duration
/-!
# C01, C02: durations

* C01: every `timedelta` survives the JSON round trip.  The unchanged code violates this for negative durations:
  `C01_negative_rejected` shows that *every* negative duration is refused on reading, `C01_roundtrip_partial` that
  every non-negative duration survives; `C01_roundtrip_iff` states both.
* C02: reading is exact.  `C02_parse_ok_iff` characterises success and result by the independent grammar of
  `Spec/Duration.lean`; the code also accepts one trailing newline (`$` in the pattern), witness
  `C02_newline_accepted`.
-/
namespace Verif

/-! ## value of the parsed parts -/

theorem TimeDelta.ext_total {a b : TimeDelta} (ha : a.Valid) (hb : b.Valid) (h : a.total = b.total) : a = b := by
  obtain ⟨ad, as, am⟩ := a
  obtain ⟨bd, bs, bm⟩ := b
  simp only [TimeDelta.Valid, TimeDelta.total] at *
  have h1 : am = bm := by omega
  have h2 : as = bs := by omega
  have h3 : ad = bd := by omega
  subst h1 h2 h3; rfl

theorem mkTimeDelta_spec (d s m : Nat) :
    (∀ r, mkTimeDelta d s m = .ok r → r.Valid ∧ r.total = ((d * 86400 + s) * 1000000 + m : Nat)) ∧
    (∀ e, mkTimeDelta d s m = .error e → e = .overflow ∧ 1000000000 * 86400 * 1000000 ≤ (d * 86400 + s) * 1000000 + m) := by
  unfold mkTimeDelta
  constructor
  · intro r hr
    simp only at hr
    split at hr
    · cases hr
      simp only [TimeDelta.Valid, TimeDelta.total]
      constructor
      · omega
      · omega
    · cases hr
  · intro e he
    simp only at he
    split at he
    · cases he
    · cases he; constructor
      · rfl
      · omega

/-- Fraction digits as nanoseconds, independent form. -/
theorem fracNanos_eq (f : Str) (_h : f.length ≤ 9) : fracNanos (some f) = decVal f * 10 ^ (9 - f.length) := by
  simp [fracNanos, decVal, baseVal_append, baseVal_zeros]

/-- Numerals that CPython converts (at most 4300 digits). -/
def DurSyntax.Short (p : DurSyntax) : Prop := ∀ n ∈ p.numerals, n.length ≤ 4300

theorem optInt_short (o : Option Str) (h : ∀ s, o = some s → s.length ≤ 4300) : optInt o = .ok (optVal o) := by
  cases o with
  | none => rfl
  | some s => simp [optInt, pyIntDec, h s rfl, optVal]

theorem optInt_cases (o : Option Str) :
    (optInt o = .ok (optVal o) ∧ ∀ s, o = some s → s.length ≤ 4300) ∨
    (optInt o = .error .valueError ∧ ∃ s, o = some s ∧ 4300 < s.length) := by
  cases o with
  | none => left; exact ⟨rfl, by simp⟩
  | some s =>
    by_cases h : s.length ≤ 4300
    · left; simp [optInt, pyIntDec, h, optVal]
    · right; simp [optInt, pyIntDec, h]; omega

/-- What `tdParse` computes on a text of the grammar, with or without the trailing newline. -/
theorem tdParse_text (p : DurSyntax) (hp : p.Wf) (t : Str) (ht : IsTail t) (r : Res TimeDelta)
    (hr : tdParse (p.text ++ t) = r) :
    (¬ p.Short ∧ r = .error .valueError) ∨
    (p.Short ∧ p.nanos % 1000 ≠ 0 ∧ r = .error .jsonValue) ∨
    (p.Short ∧ p.nanos % 1000 = 0 ∧ 1000000000 * 86400 * 1000000000 ≤ p.nanos ∧ r = .error .overflow) ∨
    (p.Short ∧ p.nanos % 1000 = 0 ∧ p.nanos < 1000000000 * 86400 * 1000000000 ∧
      ∃ d, r = .ok d ∧ d.Valid ∧ d.total * 1000 = p.nanos) := by
  unfold tdParse at hr
  rw [durScan_complete p hp t ht] at hr
  simp only at hr
  have hfrac : ∀ f, p.fraction = some f → fracNanos (some f) = decVal f * 10 ^ (9 - f.length) :=
    fun f hf => fracNanos_eq f (hp.2 f hf).2
  obtain ⟨w, d, tm⟩ := p
  cases tm with
  | none =>
    simp only [DurSyntax.groups] at hr
    rcases optInt_cases w with ⟨ew, hw⟩ | ⟨ew, sw, hw, hlw⟩
    rotate_left
    · left
      refine ⟨fun hs => ?_, ?_⟩
      · have := hs sw (by simp [DurSyntax.numerals, hw]); omega
      · rw [← hr, ew]; rfl
    rcases optInt_cases d with ⟨ed, hd⟩ | ⟨ed, sd, hd, hld⟩
    rotate_left
    · left
      refine ⟨fun hs => ?_, ?_⟩
      · have := hs sd (by simp [DurSyntax.numerals, hd]); omega
      · rw [← hr, ew, ed]; rfl
    right
    have hshort : DurSyntax.Short ⟨w, d, none⟩ := by
      intro n hn
      simp [DurSyntax.numerals] at hn
      rcases hn with hn | hn
      · exact hw n hn
      · exact hd n hn
    have hnan : DurSyntax.nanos ⟨w, d, none⟩ = (optVal w * 604800 + optVal d * 86400) * 1000000000 := by
      have hf0 : fracVal (DurSyntax.fraction ⟨w, d, none⟩) = 0 := rfl
      unfold DurSyntax.nanos; rw [hf0]; simp only; omega
    have hr' : mkTimeDelta (7 * optVal w + optVal d) 0 0 = r := by
      rw [← hr, ew, ed]; rfl
    right
    rw [hnan]
    have hmk := mkTimeDelta_spec (7 * optVal w + optVal d) 0 0
    cases hmr : mkTimeDelta (7 * optVal w + optVal d) 0 0 with
    | error e =>
      left
      have h2 := hmk.2 e hmr
      refine ⟨hshort, by omega, by omega, ?_⟩
      rw [← hr', hmr, h2.1]
    | ok v =>
      right
      have h2 := hmk.1 v hmr
      refine ⟨hshort, by omega, ?_, v, by rw [← hr', hmr], h2.1, by rw [h2.2]; omega⟩
      have h3 := h2.1
      have h4 := h2.2
      simp only [TimeDelta.Valid, TimeDelta.total] at h3 h4
      omega
  | some x =>
    obtain ⟨h, m, s⟩ := x
    simp only [DurSyntax.groups] at hr
    rcases optInt_cases w with ⟨ew, hw⟩ | ⟨ew, sw, hw, hlw⟩
    rotate_left
    · left
      refine ⟨fun hs => ?_, ?_⟩
      · have := hs sw (by simp [DurSyntax.numerals, hw]); omega
      · rw [← hr, ew]; rfl
    rcases optInt_cases d with ⟨ed, hd⟩ | ⟨ed, sd, hd, hld⟩
    rotate_left
    · left
      refine ⟨fun hs => ?_, ?_⟩
      · have := hs sd (by simp [DurSyntax.numerals, hd]); omega
      · rw [← hr, ew, ed]; rfl
    rcases optInt_cases h with ⟨eh, hh⟩ | ⟨eh, sh, hh, hlh⟩
    rotate_left
    · left
      refine ⟨fun hs => ?_, ?_⟩
      · have := hs sh (by simp [DurSyntax.numerals, hh]); omega
      · rw [← hr, ew, ed, eh]; rfl
    rcases optInt_cases m with ⟨em, hm⟩ | ⟨em, sm, hm, hlm⟩
    rotate_left
    · left
      refine ⟨fun hs => ?_, ?_⟩
      · have := hs sm (by simp [DurSyntax.numerals, hm]); omega
      · rw [← hr, ew, ed, eh, em]; rfl
    rcases optInt_cases (s.map (·.1)) with ⟨es, hs⟩ | ⟨es, ss, hs, hls⟩
    rotate_left
    · left
      refine ⟨fun hs' => ?_, ?_⟩
      · have := hs' ss (by simp [DurSyntax.numerals]; right; right; right; right; simpa using hs); omega
      · rw [← hr, ew, ed, eh, em, es]; rfl
    right
    have hshort : DurSyntax.Short ⟨w, d, some (h, m, s)⟩ := by
      intro n hn
      simp only [DurSyntax.numerals, List.mem_append, Option.mem_toList] at hn
      rcases hn with (hn | hn) | (hn | hn) | hn
      · exact hw n hn
      · exact hd n hn
      · exact hh n hn
      · exact hm n hn
      · exact hs n hn
    obtain ⟨F, hF⟩ : ∃ F, fracNanos (s.bind (·.2)) = F := ⟨_, rfl⟩
    have hnan : DurSyntax.nanos ⟨w, d, some (h, m, s)⟩ = (optVal w * 604800 + optVal d * 86400 +
        (optVal h * 3600 + optVal m * 60 + optVal (s.map (·.1)))) * 1000000000 + F := by
      simp only [DurSyntax.nanos]
      congr 1
      cases hfr : s.bind (·.2) with
      | none => simp [DurSyntax.fraction, hfr, fracVal] ; rw [hfr] at hF; exact hF
      | some f =>
        have := hfrac f (by simp [DurSyntax.fraction, hfr])
        simp only [DurSyntax.fraction, Option.bind_some, hfr, fracVal]
        rw [← this, ← hF, hfr]
    have hr' : (if F % 1000 ≠ 0 then Except.error Err.jsonValue else
        mkTimeDelta (7 * optVal w + optVal d) (3600 * optVal h + 60 * optVal m + optVal (s.map (·.1))) (F / 1000)) = r := by
      rw [← hr, ew, ed, eh, em, es, ← hF]; rfl
    rw [hnan]
    by_cases hF0 : F % 1000 ≠ 0
    · left
      rw [if_pos hF0] at hr'
      exact ⟨hshort, by omega, hr'.symm⟩
    rw [if_neg hF0] at hr'
    right
    have hmk := mkTimeDelta_spec (7 * optVal w + optVal d)
      (3600 * optVal h + 60 * optVal m + optVal (s.map (·.1))) (F / 1000)
    cases hmr : mkTimeDelta (7 * optVal w + optVal d)
      (3600 * optVal h + 60 * optVal m + optVal (s.map (·.1))) (F / 1000) with
    | error e =>
      left
      have h2 := hmk.2 e hmr
      refine ⟨hshort, by omega, by omega, ?_⟩
      rw [← hr', hmr, h2.1]
    | ok v =>
      right
      have h2 := hmk.1 v hmr
      have h3 := h2.1
      have h4 := h2.2
      refine ⟨hshort, by omega, ?_, v, by rw [← hr', hmr], h2.1, by rw [h2.2]; omega⟩
      simp only [TimeDelta.Valid, TimeDelta.total] at h3 h4
      omega

/-! ## C02 -/

/-- A text that the reader recognises: a duration of the grammar, optionally followed by one newline. -/
def IsDurText (s : Str) (p : DurSyntax) : Prop := p.Wf ∧ (s = p.text ∨ s = p.text ++ ['\n'])

theorem isDurText_iff (s : Str) (p : DurSyntax) : IsDurText s p ↔ p.Wf ∧ ∃ t, IsTail t ∧ s = p.text ++ t := by
  constructor
  · rintro ⟨h, e | e⟩
    · exact ⟨h, [], Or.inl rfl, by simpa using e⟩
    · exact ⟨h, ['\n'], Or.inr rfl, e⟩
  · rintro ⟨h, t, rfl | rfl, e⟩
    · exact ⟨h, Or.inl (by simpa using e)⟩
    · exact ⟨h, Or.inr e⟩

/-- Success and result: the value has exactly the denoted length; nothing is rounded or truncated. -/
theorem C02_parse_ok_iff (s : Str) (d : TimeDelta) :
    tdParse s = .ok d ↔
      d.Valid ∧ ∃ p, IsDurText s p ∧ p.Short ∧ d.total * 1000 = p.nanos := by
  constructor
  · intro h
    cases hq : durScan s with
    | none => simp [tdParse, hq] at h
    | some q =>
      obtain ⟨p, t, hp, ht, hs, _⟩ := durScan_sound s q hq
      subst hs
      rcases tdParse_text p hp t ht _ h with ⟨_, e⟩ | ⟨_, _, e⟩ | ⟨_, _, _, e⟩ | ⟨h1, h2, h3, d', e, hv, htot⟩
      · cases e
      · cases e
      · cases e
      · cases e
        exact ⟨hv, p, (isDurText_iff _ _).2 ⟨hp, t, ht, rfl⟩, h1, htot⟩
  · rintro ⟨hv, p, hd, hs, htot⟩
    obtain ⟨hp, t, ht, rfl⟩ := (isDurText_iff _ _).1 hd
    have hv' := hv
    have htot' := htot
    simp only [TimeDelta.Valid, TimeDelta.total] at hv' htot'
    rcases tdParse_text p hp t ht _ rfl with ⟨h, _⟩ | ⟨_, h, _⟩ | ⟨_, _, h, _⟩ | ⟨_, _, _, d', e, hv2, htot2⟩
    · exact absurd hs h
    · omega
    · omega
    · rw [e]
      congr 1
      exact TimeDelta.ext_total hv2 hv (by omega)

/-- All failures: `JsonValueError` outside the grammar or below microsecond precision, `OverflowError` beyond
`timedelta.max`, `ValueError` for numerals of more than 4300 digits; no other exception. -/
theorem C02_parse_error_iff (s : Str) (e : Err) :
    tdParse s = .error e ↔
      (e = .jsonValue ∧ ((¬ ∃ p, IsDurText s p) ∨ ∃ p, IsDurText s p ∧ p.Short ∧ p.nanos % 1000 ≠ 0)) ∨
      (e = .valueError ∧ ∃ p, IsDurText s p ∧ ¬ p.Short) ∨
      (e = .overflow ∧ ∃ p, IsDurText s p ∧ p.Short ∧ p.nanos % 1000 = 0 ∧ 1000000000 * 86400 * 1000000000 ≤ p.nanos) := by
  have unique : ∀ p, IsDurText s p → ∀ r, tdParse s = r →
      (¬ p.Short ∧ r = .error .valueError) ∨
      (p.Short ∧ p.nanos % 1000 ≠ 0 ∧ r = .error .jsonValue) ∨
      (p.Short ∧ p.nanos % 1000 = 0 ∧ 1000000000 * 86400 * 1000000000 ≤ p.nanos ∧ r = .error .overflow) ∨
      (p.Short ∧ p.nanos % 1000 = 0 ∧ p.nanos < 1000000000 * 86400 * 1000000000 ∧
        ∃ d, r = .ok d ∧ d.Valid ∧ d.total * 1000 = p.nanos) := by
    intro p hd r hr
    obtain ⟨hp, t, ht, rfl⟩ := (isDurText_iff _ _).1 hd
    exact tdParse_text p hp t ht r hr
  constructor
  · intro h
    by_cases hex : ∃ p, IsDurText s p
    · obtain ⟨p, hd⟩ := hex
      rcases unique p hd _ h with ⟨h1, h2⟩ | ⟨h1, h2, h3⟩ | ⟨h1, h2, h3, h4⟩ | ⟨_, _, _, d, hd, _⟩
      · cases h2; right; left; exact ⟨rfl, p, hd, h1⟩
      · cases h3; left; exact ⟨rfl, Or.inr ⟨p, hd, h1, h2⟩⟩
      · cases h4; right; right; exact ⟨rfl, p, hd, h1, h2, h3⟩
      · cases hd
    · left
      refine ⟨?_, Or.inl hex⟩
      cases hq : durScan s with
      | none => simp [tdParse, hq] at h; exact h.symm
      | some q =>
        obtain ⟨p, t, hp, ht, hs, _⟩ := durScan_sound s q hq
        exact absurd ⟨p, (isDurText_iff _ _).2 ⟨hp, t, ht, hs⟩⟩ hex
  · intro h
    rcases h with ⟨rfl, h | ⟨p, hd, h1, h2⟩⟩ | ⟨rfl, p, hd, h1⟩ | ⟨rfl, p, hd, h1, h2, h3⟩
    · cases hq : durScan s with
      | none => simp [tdParse, hq]
      | some q =>
        obtain ⟨p, t, hp, ht, hs, _⟩ := durScan_sound s q hq
        exact absurd ⟨p, (isDurText_iff _ _).2 ⟨hp, t, ht, hs⟩⟩ h
    · rcases unique p hd _ rfl with ⟨g, _⟩ | ⟨_, _, g⟩ | ⟨_, g, _, _⟩ | ⟨_, g, _, _⟩
      · exact absurd h1 g
      · exact g
      · exact absurd g h2
      · exact absurd g h2
    · rcases unique p hd _ rfl with ⟨_, g⟩ | ⟨g, _⟩ | ⟨g, _⟩ | ⟨g, _⟩
      · exact g
      all_goals exact absurd g h1
    · rcases unique p hd _ rfl with ⟨g, _⟩ | ⟨_, g, _⟩ | ⟨_, _, _, g⟩ | ⟨_, _, g, _⟩
      · exact absurd h1 g
      · exact absurd h2 g
      · exact g
      · omega

/-- On the documented grammar proper (no trailing newline) reading is exact. -/
theorem C02_exact_partial (p : DurSyntax) (hp : p.Wf) (hs : p.Short) (d : TimeDelta) :
    tdParse p.text = .ok d ↔ d.Valid ∧ d.total * 1000 = p.nanos := by
  constructor
  · intro h
    rcases tdParse_text p hp [] (Or.inl rfl) _ (by simpa using h) with ⟨_, e⟩ | ⟨_, _, e⟩ | ⟨_, _, _, e⟩ | ⟨_, _, _, d', e, hv, ht⟩
    · cases e
    · cases e
    · cases e
    · cases e; exact ⟨hv, ht⟩
  · rintro ⟨hv, ht⟩
    exact (C02_parse_ok_iff _ _).2 ⟨hv, p, ⟨hp, Or.inl rfl⟩, hs, ht⟩

/-- The hypotheses are met: `P1W2DT3H4M5.006S` is in the grammar and denotes 788645.006 seconds. -/
example : tdParse c!"P1W2DT3H4M5.006S" = .ok ⟨9, 11045, 6000⟩ := by decide
example : (DurSyntax.mk (some c!"1") (some c!"2") (some (some c!"3", some c!"4", some (c!"5", some c!"006")))).text
    = c!"P1W2DT3H4M5.006S" := by decide
example : (DurSyntax.mk (some c!"1") (some c!"2") (some (some c!"3", some c!"4", some (c!"5", some c!"006")))).Wf := by
  constructor
  · intro n hn; simp [DurSyntax.numerals] at hn
    rcases hn with rfl | rfl | rfl | rfl | rfl <;> exact ⟨by decide, by decide⟩
  · intro f hf; simp [DurSyntax.fraction] at hf; subst hf; exact ⟨⟨by decide, by decide⟩, by decide⟩
/-- Sub-microsecond precision is refused, not rounded. -/
example : tdParse c!"PT0.1234567S" = .error .jsonValue := by decide
/-- Beyond `timedelta.max`. -/
example : tdParse c!"P142857143W" = .error .overflow := by decide

/-- The code violates the English claim: a trailing newline is not part of the documented grammar, yet accepted. -/
theorem C02_newline_accepted : tdParse c!"P1D\n" = .ok ⟨1, 0, 0⟩ ∧ ¬ ∃ p : DurSyntax, p.Wf ∧ c!"P1D\n" = p.text := by
  refine ⟨by decide, ?_⟩
  rintro ⟨p, hp, e⟩
  have hlast : c!"P1D\n".getLast? = some '\n' := by decide
  rw [e] at hlast
  have key : ∀ (o : Option Str) u, u ≠ '\n' → (unitText u o).getLast? ≠ some '\n' := by
    intro o u hu
    cases o <;> simp [unitText, hu]
  obtain ⟨w, d, tm⟩ := p
  cases tm with
  | none =>
    cases d with
    | some ds => simp [DurSyntax.text, unitText, List.getLast?_append, List.getLast?_cons] at hlast
    | none =>
      cases w with
      | some ds => simp [DurSyntax.text, unitText, List.getLast?_append, List.getLast?_cons] at hlast
      | none => simp [DurSyntax.text, unitText, List.getLast?_append, List.getLast?_cons] at hlast
  | some x =>
    obtain ⟨h, m, s⟩ := x
    match s with
    | some (ds, none) => simp [DurSyntax.text, secText, List.getLast?_append, List.getLast?_cons] at hlast
    | some (ds, some f) => simp [DurSyntax.text, secText, List.getLast?_append, List.getLast?_cons] at hlast
    | none =>
      cases m with
      | some ds => simp [DurSyntax.text, secText, unitText, List.getLast?_append, List.getLast?_cons] at hlast
      | none =>
        cases h with
        | some ds => simp [DurSyntax.text, secText, unitText, List.getLast?_append, List.getLast?_cons] at hlast
        | none => simp [DurSyntax.text, secText, unitText, List.getLast?_append, List.getLast?_cons] at hlast

/-! ## C01 -/

/-- The syntax tree that the writer produces for a non-negative duration. -/
def writtenFraction (micros : Nat) : Option Str :=
  if micros % 1000 ≠ 0 then some (decPad 6 micros)
  else if micros / 1000 ≠ 0 then some (decPad 3 (micros / 1000))
  else none

def writtenTime (total micros : Nat) : Option Str × Option Str × Option (Str × Option Str) :=
  let hours := total / 3600
  let minutes := total % 3600 / 60
  let s := some (decStr (total % 3600 % 60), writtenFraction micros)
  if hours ≠ 0 then (some (decStr hours), some (decStr minutes), s)
  else if minutes ≠ 0 then (none, some (decStr minutes), s)
  else (none, none, s)

def written (days : Nat) (seconds micros : Nat) : DurSyntax :=
  ⟨none, if days ≠ 0 then some (decStr days) else none,
   if (seconds ≠ 0 ∨ micros ≠ 0) ∨ days = 0 then some (writtenTime seconds micros) else none⟩

theorem isNumeral_decStr (n : Nat) : IsNumeral (decStr n) := ⟨decStr_ne_nil n, decStr_dig n⟩

theorem tdTime_text (total micros : Nat) :
    tdTime total micros = ['T'] ++ unitText 'H' (writtenTime total micros).1 ++
      unitText 'M' (writtenTime total micros).2.1 ++ secText (writtenTime total micros).2.2 := by
  have hf : ∀ ds : Str, secText (some (ds, writtenFraction micros)) = ds ++ tdFraction micros ++ ['S'] := by
    intro ds
    unfold writtenFraction tdFraction
    split
    · simp [secText]
    · split <;> simp [secText]
  unfold tdTime writtenTime
  simp only
  split
  · simp [hf, unitText]
  · split
    · simp [hf, unitText]
    · simp [hf, unitText]

theorem tdSerialize_text (n s m : Nat) : tdSerialize ⟨n, s, m⟩ = (written n s m).text := by
  unfold tdSerialize written DurSyntax.text
  have hn : ((n : Int) ≠ 0) ↔ n ≠ 0 := by omega
  simp only [hn]
  by_cases h0 : n = 0
  · subst h0
    by_cases h1 : s ≠ 0 ∨ m ≠ 0
    · have hne : tdTime s m ≠ [] := by rw [tdTime_text]; simp
      simp only [h1, if_true, hne, ne_eq, not_true_eq_false, not_false_eq_true, or_true, if_false, true_or]
      rw [tdTime_text]; simp [unitText]
    · have : s = 0 ∧ m = 0 := by omega
      obtain ⟨rfl, rfl⟩ := this
      decide
  · have e : intStr (n : Int) = decStr n := rfl
    by_cases h1 : s ≠ 0 ∨ m ≠ 0
    · simp only [h0, h1, e, ne_eq, not_false_eq_true, if_true, true_or]
      rw [tdTime_text]; simp [unitText]
    · simp only [h0, h1, e, ne_eq, not_false_eq_true, if_true, if_false]
      simp [unitText, h0]

theorem writtenFraction_wf (m : Nat) (hm : m < 1000000) :
    ∀ f, writtenFraction m = some f → IsNumeral f ∧ f.length ≤ 9 := by
  intro f hf
  unfold writtenFraction at hf
  split at hf
  · cases hf
    have hl : (decPad 6 m).length = 6 := decPad_length (w := 5) (n := m) (by omega)
    refine ⟨⟨?_, decPad_dig _ _⟩, by omega⟩
    intro h; rw [h] at hl; simp at hl
  · split at hf
    · cases hf
      have hl : (decPad 3 (m / 1000)).length = 3 := decPad_length (w := 2) (n := m / 1000) (by omega)
      refine ⟨⟨?_, decPad_dig _ _⟩, by omega⟩
      intro h; rw [h] at hl; simp at hl
    · cases hf

theorem writtenTime_cases (P : Option Str × Option Str × Option (Str × Option Str) → Prop) (s m : Nat)
    (h1 : P (some (decStr (s / 3600)), some (decStr (s % 3600 / 60)),
      some (decStr (s % 3600 % 60), writtenFraction m)))
    (h2 : P (none, some (decStr (s % 3600 / 60)), some (decStr (s % 3600 % 60), writtenFraction m)))
    (h3 : P (none, none, some (decStr (s % 3600 % 60), writtenFraction m))) : P (writtenTime s m) := by
  unfold writtenTime
  simp only
  split
  · exact h1
  · split
    · exact h2
    · exact h3

theorem written_numerals (n s m : Nat) (x : Str) (hx : x ∈ (written n s m).numerals) :
    ∃ k, x = decStr k ∧ k ≤ n + s := by
  unfold written DurSyntax.numerals at hx
  simp only [Option.toList_none, List.nil_append, List.mem_append, Option.mem_toList] at hx
  rcases hx with hx | hx
  · split at hx
    · cases hx; exact ⟨n, rfl, by omega⟩
    · cases hx
  · by_cases hc : (s ≠ 0 ∨ m ≠ 0) ∨ n = 0
    · rw [if_pos hc] at hx
      revert hx
      have key : ∀ p : Option Str × Option Str × Option (Str × Option Str),
          p = writtenTime s m → x ∈ p.1.toList ++ p.2.1.toList ++ (p.2.2.map (·.1)).toList →
          ∃ k, x = decStr k ∧ k ≤ n + s := by
        rintro p rfl
        apply writtenTime_cases (fun p => x ∈ p.1.toList ++ p.2.1.toList ++ (p.2.2.map (·.1)).toList →
          ∃ k, x = decStr k ∧ k ≤ n + s)
        · intro h
          simp at h
          rcases h with h | h | h
          · exact ⟨_, h, by omega⟩
          · exact ⟨_, h, by omega⟩
          · exact ⟨_, h, by omega⟩
        · intro h
          simp at h
          rcases h with h | h
          · exact ⟨_, h, by omega⟩
          · exact ⟨_, h, by omega⟩
        · intro h
          simp at h
          exact ⟨_, h, by omega⟩
      exact key _ rfl
    · rw [if_neg hc] at hx; simp at hx

theorem written_fraction (n s m : Nat) (f : Str) (hf : (written n s m).fraction = some f) :
    writtenFraction m = some f := by
  unfold written DurSyntax.fraction at hf
  simp only at hf
  split at hf
  · simp only [Option.bind_some] at hf
    revert hf
    apply writtenTime_cases (fun p => (p.2.2.bind (·.2)) = some f → writtenFraction m = some f) <;> intro h <;> exact h
  · simp at hf

theorem written_wf (n s m : Nat) (hm : m < 1000000) : (written n s m).Wf := by
  constructor
  · intro x hx
    obtain ⟨k, rfl, _⟩ := written_numerals n s m x hx
    exact isNumeral_decStr k
  · intro f hf
    exact writtenFraction_wf m hm f (written_fraction n s m f hf)

theorem written_numerals_short (n s m : Nat) (hn : n ≤ 999999999) (hs : s < 86400) : (written n s m).Short := by
  intro x hx
  obtain ⟨k, rfl, _⟩ := written_numerals n s m x hx
  have := decStr_length_le k 10 (by omega)
  omega

theorem written_nanos (n s m : Nat) (hm : m < 1000000) :
    (written n s m).nanos = ((n * 86400 + s) * 1000000 + m) * 1000 := by
  have hfr : fracVal (writtenFraction m) = m * 1000 := by
    unfold writtenFraction
    by_cases h1 : m % 1000 ≠ 0
    · simp only [h1, if_true, ne_eq, not_false_eq_true]
      rw [fracVal, decVal_decPad, decPad_length (w := 5) (by omega)]
    · by_cases h2 : m / 1000 ≠ 0
      · simp only [h1, h2, if_true, if_false, ne_eq, not_false_eq_true]
        rw [fracVal, decVal_decPad, decPad_length (w := 2) (by omega)]
        simp; omega
      · simp only [h1, h2, if_false, fracVal]
        omega
  unfold written DurSyntax.nanos DurSyntax.fraction writtenTime
  simp only
  by_cases hc : (s ≠ 0 ∨ m ≠ 0) ∨ n = 0
  · simp only [hc, if_true, Option.bind_some]
    by_cases h1 : s / 3600 ≠ 0
    · simp only [h1, ne_eq, not_false_eq_true, if_true, Option.bind_some, hfr, optVal, decVal_decStr, Option.map_some]
      by_cases h0 : n ≠ 0
      · simp only [h0, ne_eq, not_false_eq_true, if_true, optVal, decVal_decStr]; omega
      · simp only [h0, if_false]; omega
    · by_cases h2 : s % 3600 / 60 ≠ 0
      · simp only [h1, h2, ne_eq, not_false_eq_true, if_true, if_false, Option.bind_some, hfr, optVal, decVal_decStr, Option.map_some]
        by_cases h0 : n ≠ 0
        · simp only [h0, ne_eq, not_false_eq_true, if_true, optVal, decVal_decStr]; omega
        · simp only [h0, if_false]; omega
      · simp only [h1, h2, if_false, Option.bind_some, hfr, optVal, decVal_decStr, Option.map_some]
        by_cases h0 : n ≠ 0
        · simp only [h0, ne_eq, not_false_eq_true, if_true, optVal, decVal_decStr]; omega
        · simp only [h0, if_false]; omega
  · simp only [hc, if_false, Option.bind_none, fracVal]
    have h0 : n ≠ 0 := by omega
    simp only [h0, ne_eq, not_false_eq_true, if_true, optVal, decVal_decStr]
    omega

/-- Every non-negative duration survives. The full claim drops the hypothesis `0 ≤ d.days`; it is false of the code,
see `C01_negative_rejected`. -/
theorem C01_roundtrip_partial (d : TimeDelta) (hv : d.Valid) (h0 : 0 ≤ d.days) : tdParse (tdSerialize d) = .ok d := by
  obtain ⟨days, s, m⟩ := d
  obtain ⟨n, rfl⟩ := Int.eq_ofNat_of_zero_le h0
  have hv' := hv
  simp only [TimeDelta.Valid] at hv'
  rw [show tdSerialize ⟨(n : Int), s, m⟩ = (written n s m).text from tdSerialize_text n s m]
  refine (C02_parse_ok_iff _ _).2 ⟨hv, written n s m, ⟨written_wf n s m (by omega), Or.inl rfl⟩,
    written_numerals_short n s m (by omega) (by omega), ?_⟩
  rw [written_nanos n s m (by omega)]
  simp only [TimeDelta.total]
  omega

/-- Every negative duration is refused on reading with `JsonValueError`. -/
theorem C01_negative_rejected (d : TimeDelta) (h0 : d.days < 0) : tdParse (tdSerialize d) = .error .jsonValue := by
  obtain ⟨days, s, m⟩ := d
  obtain ⟨n, rfl⟩ := Int.eq_negSucc_of_lt_zero h0
  have e : ∃ r, tdSerialize ⟨Int.negSucc n, s, m⟩ = 'P' :: '-' :: r := by
    unfold tdSerialize
    simp [intStr]
  obtain ⟨r, hr⟩ := e
  rw [hr]
  rfl

/-- Exact extent of the round trip. -/
theorem C01_roundtrip_iff (d : TimeDelta) (hv : d.Valid) : tdParse (tdSerialize d) = .ok d ↔ 0 ≤ d.days := by
  constructor
  · intro h
    apply Int.not_lt.1
    intro h0
    rw [C01_negative_rejected d h0] at h
    cases h
  · exact C01_roundtrip_partial d hv

/-- A concrete violation of the full claim: one microsecond less than nothing. -/
theorem C01_violated : ∃ d : TimeDelta, d.Valid ∧ tdParse (tdSerialize d) ≠ .ok d :=
  ⟨⟨-1, 86399, 999999⟩, by decide, by decide⟩

example : (TimeDelta.mk 3 4000 1500).Valid ∧ tdSerialize ⟨3, 4000, 1500⟩ = c!"P3DT1H6M40.001500S" := by decide

/-- The text of a negative duration is that of the opposite number of days with a minus sign. -/
theorem tdSerialize_neg (d : TimeDelta) (h : d.days < 0) :
    ∃ r, tdSerialize ⟨-d.days, d.seconds, d.micros⟩ = 'P' :: r ∧ tdSerialize d = 'P' :: '-' :: r := by
  have h1 : d.days ≠ 0 := by omega
  have h2 : -d.days ≠ 0 := by omega
  have h3 : ¬ (-d.days < 0) := by omega
  have e1 : intStr d.days = '-' :: decStr d.days.natAbs := by
    cases hd : d.days with
    | ofNat n => rw [hd] at h; exact absurd h (by simp)
    | negSucc n => rfl
  have e2 : intStr (-d.days) = decStr d.days.natAbs := by
    obtain ⟨n, hn⟩ := Int.eq_ofNat_of_zero_le (a := -d.days) (by omega)
    have : d.days.natAbs = n := by omega
    rw [hn, this]; rfl
  refine ⟨decStr d.days.natAbs ++ ['D'] ++ (if d.seconds ≠ 0 ∨ d.micros ≠ 0 then tdTime d.seconds d.micros else []), ?_, ?_⟩
  · simp only [tdSerialize, ne_eq, h2, not_false_eq_true, if_true, e2]
    rw [if_pos (Or.inl (by simp))]
    simp
  · simp only [tdSerialize, ne_eq, h1, not_false_eq_true, if_true, e1]
    rw [if_pos (Or.inl (by simp))]
    simp

/-- Distinct durations have distinct texts, negative or not. -/
theorem C01_serialize_injective (a b : TimeDelta) (ha : a.Valid) (hb : b.Valid) (h : tdSerialize a = tdSerialize b) : a = b := by
  have nonneg : ∀ {a b : TimeDelta}, a.Valid → b.Valid → 0 ≤ a.days → tdSerialize a = tdSerialize b → a = b := by
    intro a b ha hb h0 h
    have h1 := C01_roundtrip_partial a ha h0
    rw [h] at h1
    have h2 : 0 ≤ b.days := by
      apply Int.not_lt.1
      intro h0
      rw [C01_negative_rejected b h0] at h1
      cases h1
    rw [C01_roundtrip_partial b hb h2] at h1
    cases h1; rfl
  by_cases pa : 0 ≤ a.days
  · exact nonneg ha hb pa h
  by_cases pb : 0 ≤ b.days
  · exact (nonneg hb ha pb h.symm).symm
  obtain ⟨r, e1, e2⟩ := tdSerialize_neg a (by omega)
  obtain ⟨r', e1', e2'⟩ := tdSerialize_neg b (by omega)
  rw [e2, e2'] at h
  simp only [List.cons.injEq, true_and] at h
  unfold TimeDelta.Valid at ha hb
  have := nonneg (a := ⟨-a.days, a.seconds, a.micros⟩) (b := ⟨-b.days, b.seconds, b.micros⟩)
    (by unfold TimeDelta.Valid; simp only; omega) (by unfold TimeDelta.Valid; simp only; omega) (by simp only; omega) (by rw [e1, e1', h])
  cases a; cases b
  simp only [TimeDelta.mk.injEq] at this ⊢
  omega

/-- `timedelta(days=-1, seconds=86399)`. -/
example : tdSerialize ⟨-1, 86399, 0⟩ = c!"P-1DT23H59M59S" := by decide +kernel

end Verif
