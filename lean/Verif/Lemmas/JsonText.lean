import Verif.Spec.JsonText
import Verif.Spec.Env
import Verif.Lemmas.Digits
import Verif.Lemmas.Core
/-!
# Lemmas about JSON text
-/
namespace Verif

/-! ### Strings -/

theorem hexPad4_lt (n : Nat) (h : n < 65536) : (hexPad 4 n).length = 4 := hexPad_length (w := 3) (by omega)

theorem hexPad4_hex (n : Nat) : ∀ c ∈ hexPad 4 n, isHex c = true := padLeft_all _ (by decide) _ _ (hexStr_hex n)

theorem hex4_hexPad (n : Nat) (h : n < 65536) (r : Str) : hex4 (hexPad 4 n ++ r) = some (n, r) := by
  have hl := hexPad4_lt n h
  have ht : (hexPad 4 n ++ r).take 4 = hexPad 4 n := List.take_left' hl
  have hd : (hexPad 4 n ++ r).drop 4 = r := List.drop_left' hl
  simp only [hex4, ht, hd, hl, hexVal_hexPad, true_and]
  rw [if_pos]
  exact List.all_eq_true.2 (hexPad4_hex n)

theorem charOfNat_toNat (c : Char) : Char.ofNat c.toNat = c := by simp

/-- Reading an escaped character. -/
theorem scanStr_esc (c : Char) (f : Nat) (r s t : Str) (h : scanStr f r = .ok (s, t)) :
    scanStr (f + 1) (escChar c ++ r) = .ok (c :: s, t) := by
  unfold escChar
  split
  · rename_i hc; subst hc; simp [scanStr, unescape, h]
  split
  · rename_i hc; subst hc; simp [scanStr, unescape, h]
  split
  · rename_i hc; have := charOfNat_toNat c; rw [hc] at this; simp [scanStr, unescape, h]; exact this
  split
  · rename_i hc; have := charOfNat_toNat c; rw [hc] at this; simp [scanStr, unescape, h]; exact this
  split
  · rename_i hc; have := charOfNat_toNat c; rw [hc] at this; simp [scanStr, unescape, h, ← this]
  split
  · rename_i hc; have := charOfNat_toNat c; rw [hc] at this; simp [scanStr, unescape, h, ← this]
  split
  · rename_i hc; have := charOfNat_toNat c; rw [hc] at this; simp [scanStr, unescape, h, ← this]
  split
  · rename_i hc
    have hx := hex4_hexPad c.toNat (by omega) r
    have hu : scanUnicode (hexPad 4 c.toNat ++ r) = .ok (c, r) := by
      have h1 : ¬ (55296 ≤ c.toNat ∧ c.toNat ≤ 56319 ∧ r.take 2 = c!"\\u") := by omega
      have h2 : ¬ (55296 ≤ c.toNat ∧ c.toNat ≤ 57343) := by omega
      simp [scanUnicode, hx, codeChar, h1, h2]
    simp [scanStr, hu, h]
  · rename_i h1 h2 _ _ _ _ _ h8
    simp [scanStr, h1, h2, h8, h]

theorem escChar_length (c : Char) : 1 ≤ (escChar c).length := by
  unfold escChar
  repeat' split
  all_goals simp

theorem scanStr_encoded (s r : Str) : ∀ f, (s.flatMap escChar).length < f →
    scanStr f (s.flatMap escChar ++ '"' :: r) = .ok (s, r) := by
  induction s with
  | nil =>
    intro f hf
    cases f with
    | zero => simp at hf
    | succ f => simp [scanStr]
  | cons c s ih =>
    intro f hf
    cases f with
    | zero => simp at hf
    | succ f =>
      have := escChar_length c
      simp only [List.flatMap_cons, List.length_append] at hf
      have := ih f (by omega)
      simp only [List.flatMap_cons, List.append_assoc]
      exact scanStr_esc _ _ _ _ _ this

/-! ### Numbers -/

/-- What can follow a value in a compact text, or in a file. -/
def Delim (r : Str) : Prop := ∀ c, r.head? = some c → c = ',' ∨ c = ']' ∨ c = '}' ∨ c = '\n'

theorem Delim.notDig {r : Str} (h : Delim r) (c : Char) (hc : r.head? = some c) : isDig c = false := by
  rcases h c hc with rfl | rfl | rfl | rfl <;> decide

theorem numFrac_delim {r : Str} (h : Delim r) : numFrac r = ([], r) := by
  cases r with
  | nil => rfl
  | cons c r => rcases h c rfl with rfl | rfl | rfl | rfl <;> rfl

theorem numExp_delim {r : Str} (h : Delim r) : numExp r = ([], r) := by
  cases r with
  | nil => rfl
  | cons c r => rcases h c rfl with rfl | rfl | rfl | rfl <;> rfl

/-- Reading the integer part of a number. -/
theorem numInt_digits (neg : Bool) (ds r : Str) (hne : ds ≠ []) (hd : ∀ c ∈ ds, isDig c = true)
    (h0 : ds.head? = some '0' → ds = ['0']) (hr : ∀ c, r.head? = some c → isDig c = false) :
    numInt ((if neg then ['-'] else []) ++ ds ++ r) = some (neg, ds, r) := by
  obtain ⟨d, ds', rfl⟩ : ∃ d ds', ds = d :: ds' := by
    cases ds with
    | nil => exact absurd rfl hne
    | cons d ds' => exact ⟨d, ds', rfl⟩
  have htd := takeDrop_append_of_all (p := isDig) (d :: ds') r hd hr
  have hdd := hd d (by simp)
  have hminus : d ≠ '-' := by rintro rfl; exact absurd hdd (by decide)
  have key : numDigits ((d :: ds') ++ r) = some (d :: ds', r) := by
    unfold numDigits
    by_cases hz : d = '0'
    · subst hz
      have := h0 rfl
      simp only [List.cons.injEq, true_and] at this
      subst this
      rfl
    · rw [htd.1, htd.2]
      simp only [List.cons_append]
      split
      · rename_i heq
        injection heq with h1 h2
        exact absurd h1 hz
      · simp
  cases neg with
  | true =>
    have hs : numSign ((if true then ['-'] else []) ++ (d :: ds') ++ r) = (true, (d :: ds') ++ r) := rfl
    unfold numInt
    rw [hs]
    simp only [key]
  | false =>
    have hs : numSign ((if false then ['-'] else []) ++ (d :: ds') ++ r) = (false, (d :: ds') ++ r) := by
      simp only [Bool.false_eq_true, if_false, List.nil_append, List.cons_append]
      unfold numSign
      split
      · rename_i heq
        injection heq with h1 h2
        exact absurd h1 hminus
      · rfl
    simp only [numInt, hs, key]

/-- The dispatch on the first character passes a number on to the number branch. -/
theorem scanVal_number (io : FloatIO) (f : Nat) (c : Char) (r : Str) (hc : isDig c = true ∨ c = '-') :
    scanVal io (f + 1) (c :: r) = scanNumber io (c :: r) := by
  have h1 : c ≠ '"' := by rintro rfl; rcases hc with h | h <;> exact absurd h (by decide)
  have h2 : c ≠ '{' := by rintro rfl; rcases hc with h | h <;> exact absurd h (by decide)
  have h3 : c ≠ '[' := by rintro rfl; rcases hc with h | h <;> exact absurd h (by decide)
  have h4 : c ≠ 'n' := by rintro rfl; rcases hc with h | h <;> exact absurd h (by decide)
  have h5 : c ≠ 't' := by rintro rfl; rcases hc with h | h <;> exact absurd h (by decide)
  have h6 : c ≠ 'f' := by rintro rfl; rcases hc with h | h <;> exact absurd h (by decide)
  simp [scanVal, h1, h2, h3, h4, h5, h6]

theorem intStr_eq (i : Int) : intStr i = (if i < 0 then ['-'] else []) ++ decStr i.natAbs := by
  cases i with
  | ofNat n => simp [intStr]
  | negSucc n => simp [intStr, Int.negSucc_lt_zero]

theorem decStr_head_zero (n : Nat) (h : (decStr n).head? = some '0') : decStr n = ['0'] := by
  by_cases hn : n = 0
  · subst hn; exact decStr_zero
  · exact absurd h (decStr_head hn)

theorem pyIntDec_decStr {n : Nat} (h : (decStr n).length ≤ 4300) : pyIntDec (decStr n) = .ok n := by
  simp [pyIntDec, h, decVal_decStr]

theorem scanNumber_int (io : FloatIO) (i : Int) (r : Str) (hr : Delim r) (hl : (decStr i.natAbs).length ≤ 4300) :
    scanNumber io (intStr i ++ r) = .ok (.int i, r) := by
  have hn := numInt_digits (decide (i < 0)) (decStr i.natAbs) r (decStr_ne_nil _) (decStr_dig _) (decStr_head_zero _) hr.notDig
  simp only [decide_eq_true_eq] at hn
  rw [← intStr_eq] at hn
  simp only [scanNumber, hn, numFrac_delim hr, numExp_delim hr, and_self, if_true, pyIntDec_decStr hl]
  congr 3
  by_cases h : i < 0
  · simp [h]; omega
  · simp [h]; omega

theorem scanVal_int (io : FloatIO) (i : Int) (r : Str) (hr : Delim r) (hl : (decStr i.natAbs).length ≤ 4300) (f : Nat) :
    scanVal io (f + 1) (intStr i ++ r) = .ok (.int i, r) := by
  rw [← scanNumber_int io i r hr hl]
  have : ∃ c s, intStr i = c :: s ∧ (isDig c = true ∨ c = '-') := by
    rw [intStr_eq]
    by_cases h : i < 0
    · exact ⟨'-', decStr i.natAbs, by simp [h], Or.inr rfl⟩
    · cases hd : decStr i.natAbs with
      | nil => exact absurd hd (decStr_ne_nil _)
      | cons c s => exact ⟨c, s, by simp [h], Or.inl (decStr_dig i.natAbs c (by rw [hd]; simp))⟩
  obtain ⟨c, s, e, hc⟩ := this
  rw [e]
  exact scanVal_number io f c (s ++ r) hc

theorem numExp_digits (sg : Char) (ds r : Str) (hs : sg = '+' ∨ sg = '-') (hne : ds ≠ []) (hd : ∀ c ∈ ds, isDig c = true)
    (hr : ∀ c, r.head? = some c → isDig c = false) : numExp ('e' :: sg :: ds ++ r) = ('e' :: sg :: ds, r) := by
  have htd := takeDrop_append_of_all (p := isDig) ds r hd hr
  have hsg : sg = '-' ∨ sg = '+' := hs.symm
  simp [numExp, hsg, htd.1, htd.2, hne]

theorem numFrac_digits (ds r : Str) (hne : ds ≠ []) (hd : ∀ c ∈ ds, isDig c = true)
    (hr : ∀ c, r.head? = some c → isDig c = false) : numFrac ('.' :: ds ++ r) = ('.' :: ds, r) := by
  have htd := takeDrop_append_of_all (p := isDig) ds r hd hr
  simp [numFrac, htd.1, htd.2, hne]

theorem numFrac_other {r : Str} (h : ∀ c, r.head? = some c → c ≠ '.') : numFrac r = ([], r) := by
  unfold numFrac
  split
  · exact absurd rfl (h '.' rfl)
  · rfl

theorem head?_append_cases {a b : Str} {c : Char} (h : (a ++ b).head? = some c) : a.head? = some c ∨ (a = [] ∧ b.head? = some c) := by
  cases a with
  | nil => exact Or.inr ⟨rfl, by simpa using h⟩
  | cons x a => exact Or.inl (by simpa using h)

theorem scanNumber_float (io : FloatIO) (s r : Str) (hs : FloatSyntax s) (hr : Delim r) :
    scanNumber io (s ++ r) = .ok (.float (io.read s), r) := by
  obtain ⟨neg, ds, frac, exp, e, ⟨hne, hd, h0⟩, hfr, hex, hany⟩ := hs
  have hexp : numExp (exp ++ r) = (exp, r) := by
    rcases hex with rfl | ⟨sg, ds', rfl, hsg, hne', hd'⟩
    · simpa using numExp_delim hr
    · exact numExp_digits sg ds' r hsg hne' hd' hr.notDig
  have hhead : ∀ c, (exp ++ r).head? = some c → c = 'e' ∨ c = ',' ∨ c = ']' ∨ c = '}' ∨ c = '\n' := by
    intro c hc
    rcases hex with rfl | ⟨sg, ds', rfl, _, _, _⟩
    · exact Or.inr (hr c (by simpa using hc))
    · simp at hc; exact Or.inl hc.symm
  have hfrac : numFrac (frac ++ (exp ++ r)) = (frac, exp ++ r) := by
    rcases hfr with rfl | ⟨ds', rfl, hne', hd'⟩
    · refine numFrac_other ?_
      intro c hc
      rcases hhead c hc with rfl | rfl | rfl | rfl | rfl <;> decide
    · refine numFrac_digits ds' _ hne' hd' ?_
      intro c hc
      rcases hhead c hc with rfl | rfl | rfl | rfl | rfl <;> decide
  have hint := numInt_digits neg ds (frac ++ (exp ++ r)) hne hd h0 (by
    intro c hc
    rcases hfr with rfl | ⟨ds', rfl, _, _⟩
    · rcases hhead c hc with rfl | rfl | rfl | rfl | rfl <;> decide
    · simp at hc; subst hc; decide)
  have hcond : ¬ (frac = [] ∧ exp = []) := by
    rintro ⟨rfl, rfl⟩
    rcases hany with h | h <;> exact h rfl
  have es : s ++ r = (if neg then ['-'] else []) ++ ds ++ (frac ++ (exp ++ r)) := by rw [e]; simp
  rw [es]
  simp only [scanNumber, hint, hfrac, hexp, if_neg hcond, e]

theorem FloatSyntax.head {s : Str} (hs : FloatSyntax s) : ∃ c t, s = c :: t ∧ (isDig c = true ∨ c = '-') := by
  obtain ⟨neg, ds, frac, exp, e, ⟨hne, hd, _⟩, _⟩ := hs
  cases neg with
  | true => exact ⟨'-', _, by rw [e]; rfl, Or.inr rfl⟩
  | false =>
    cases ds with
    | nil => exact absurd rfl hne
    | cons c ds => exact ⟨c, ds ++ frac ++ exp, by rw [e]; simp, Or.inl (hd c (by simp))⟩

theorem scanVal_float (io : FloatIO) (s r : Str) (hs : FloatSyntax s) (hr : Delim r) (f : Nat) :
    scanVal io (f + 1) (s ++ r) = .ok (.float (io.read s), r) := by
  rw [← scanNumber_float io s r hs hr]
  obtain ⟨c, t, e, hc⟩ := hs.head
  rw [e]
  exact scanVal_number io f c (t ++ r) hc

/-! ### All values -/

/-- First character of the text of a value: it is not whitespace, and it closes nothing. -/
theorem encJson_head (io : FloatIO) (j : Json) (s : Str) (hf : io.FaithfulOn j) (h : encJson io j = .ok s) :
    ∃ c t, s = c :: t ∧ isJsonWs c = false ∧ c ≠ ']' := by
  have num : ∀ c : Char, isDig c = true ∨ c = '-' → isJsonWs c = false ∧ c ≠ ']' := by
    intro c hc
    refine ⟨?_, ?_⟩
    · cases hw : isJsonWs c with
      | false => rfl
      | true =>
        simp only [isJsonWs, Bool.or_eq_true, decide_eq_true_eq] at hw
        rcases hw with ((rfl | rfl) | rfl) | rfl <;> rcases hc with h | h <;> exact absurd h (by decide)
    · rintro rfl; rcases hc with h | h <;> exact absurd h (by decide)
  cases j with
  | null => simp only [encJson, Except.ok.injEq] at h; subst h; exact ⟨_, _, rfl, by decide, by decide⟩
  | bool b =>
    cases b <;> simp only [encJson, Except.ok.injEq] at h <;> subst h <;> exact ⟨_, _, rfl, by decide, by decide⟩
  | int i =>
    simp only [encJson, intRepr] at h
    split at h
    · simp only [Except.ok.injEq] at h
      rw [intStr_eq] at h
      subst h
      by_cases hi : i < 0
      · refine ⟨'-', decStr i.natAbs, by simp [hi], num _ (Or.inr rfl)⟩
      · cases hd : decStr i.natAbs with
        | nil => exact absurd hd (decStr_ne_nil _)
        | cons c t => exact ⟨c, t, by simp [hi], num _ (Or.inl (decStr_dig i.natAbs c (by rw [hd]; simp)))⟩
    · simp at h
  | float f =>
    simp only [encJson, Except.ok.injEq] at h
    subst h
    cases f with
    | nan => exact ⟨_, _, rfl, by decide, by decide⟩
    | inf b => cases b <;> exact ⟨_, _, rfl, by decide, by decide⟩
    | fin neg m e =>
      obtain ⟨c, t, e', hc⟩ := (hf neg m e .float).syn.head
      exact ⟨c, t, e', num c hc⟩
  | str x => simp only [encJson, encodeStr, Except.ok.injEq] at h; subst h; exact ⟨_, _, rfl, by decide, by decide⟩
  | arr xs =>
    simp only [encJson] at h
    split at h
    · simp at h
    · simp only [Except.ok.injEq] at h; subst h; exact ⟨_, _, rfl, by decide, by decide⟩
  | obj kvs =>
    simp only [encJson] at h
    split at h
    · simp at h
    · simp only [Except.ok.injEq] at h; subst h; exact ⟨_, _, rfl, by decide, by decide⟩

theorem skipWs_cons {c : Char} (h : isJsonWs c = false) (r : Str) : skipWs (c :: r) = c :: r := by
  simp [skipWs, h]

theorem encItems_ok {io : FloatIO} {b : Bool} {x : Json} {xs : List Json} {s : Str} (h : encItems io b (x :: xs) = .ok s) :
    ∃ a t, encJson io x = .ok a ∧ encItems io false xs = .ok t ∧ s = (if b then [] else itemSep) ++ (a ++ t) := by
  simp only [encItems] at h
  cases ha : encJson io x with
  | error e => rw [ha] at h; simp at h
  | ok a =>
    rw [ha] at h
    cases ht : encItems io false xs with
    | error e => rw [ht] at h; simp at h
    | ok t => rw [ht] at h; simp only [Except.ok.injEq] at h; exact ⟨a, t, rfl, rfl, h.symm⟩

theorem encPairs_ok {io : FloatIO} {b : Bool} {k : Str} {x : Json} {xs : List (Str × Json)} {s : Str}
    (h : encPairs io b ((k, x) :: xs) = .ok s) :
    ∃ a t, encJson io x = .ok a ∧ encPairs io false xs = .ok t ∧
      s = (if b then [] else itemSep) ++ (encodeStr k ++ (keySep ++ (a ++ t))) := by
  simp only [encPairs] at h
  cases ha : encJson io x with
  | error e => rw [ha] at h; simp at h
  | ok a =>
    rw [ha] at h
    cases ht : encPairs io false xs with
    | error e => rw [ht] at h; simp at h
    | ok t => rw [ht] at h; simp only [Except.ok.injEq] at h; exact ⟨a, t, rfl, rfl, h.symm⟩

theorem encItems_delim {io : FloatIO} {xs : List Json} {t : Str} (h : encItems io false xs = .ok t) (r : Str) :
    Delim (t ++ ']' :: r) := by
  cases xs with
  | nil => simp only [encItems, Except.ok.injEq] at h; subst h; intro c hc; simp at hc; exact Or.inr (Or.inl hc.symm)
  | cons x xs =>
    obtain ⟨a, t', _, _, rfl⟩ := encItems_ok h
    intro c hc; simp [itemSep] at hc; exact Or.inl hc.symm

theorem encPairs_delim {io : FloatIO} {xs : List (Str × Json)} {t : Str} (h : encPairs io false xs = .ok t) (r : Str) :
    Delim (t ++ '}' :: r) := by
  cases xs with
  | nil => simp only [encPairs, Except.ok.injEq] at h; subst h; intro c hc; simp at hc; exact Or.inr (Or.inr (Or.inl hc.symm))
  | cons x xs =>
    obtain ⟨k, x⟩ := x
    obtain ⟨a, t', _, _, rfl⟩ := encPairs_ok h
    intro c hc; simp [itemSep] at hc; exact Or.inl hc.symm

mutual

theorem scanVal_enc (io : FloatIO) : ∀ (j : Json) (s r : Str) (f : Nat), j.Wf → io.FaithfulOn j → encJson io j = .ok s →
    Delim r → s.length ≤ f → scanVal io f (s ++ r) = .ok (j, r)
  | .null, s, r, f, _, _, h, hr, hf => by
    simp only [encJson, Except.ok.injEq] at h; subst h
    cases f with
    | zero => simp at hf
    | succ f => simp [scanVal]
  | .bool true, s, r, f, _, _, h, hr, hf => by
    simp only [encJson, Except.ok.injEq] at h; subst h
    cases f with
    | zero => simp at hf
    | succ f => simp [scanVal]
  | .bool false, s, r, f, _, _, h, hr, hf => by
    simp only [encJson, Except.ok.injEq] at h; subst h
    cases f with
    | zero => simp at hf
    | succ f => simp [scanVal]
  | .int i, s, r, f, _, _, h, hr, hf => by
    simp only [encJson, intRepr] at h
    split at h
    · rename_i hl
      simp only [Except.ok.injEq] at h; subst h
      cases f with
      | zero =>
        rw [intStr_eq] at hf
        have := decStr_ne_nil i.natAbs
        simp at hf
        exact absurd hf.2 this
      | succ f => exact scanVal_int io i r hr hl f
    · simp at h
  | .float .nan, s, r, f, _, _, h, hr, hf => by
    simp only [encJson, Except.ok.injEq] at h; subst h
    cases f with
    | zero => simp [floatText] at hf
    | succ f => simp [scanVal, floatText, scanNumber, numInt, numSign, numDigits, isDig]
  | .float (.inf false), s, r, f, _, _, h, hr, hf => by
    simp only [encJson, Except.ok.injEq] at h; subst h
    cases f with
    | zero => simp [floatText] at hf
    | succ f => simp [scanVal, floatText, scanNumber, numInt, numSign, numDigits, isDig]
  | .float (.inf true), s, r, f, _, _, h, hr, hf => by
    simp only [encJson, Except.ok.injEq] at h; subst h
    cases f with
    | zero => simp [floatText] at hf
    | succ f => simp [scanVal, floatText, scanNumber, numInt, numSign, numDigits, isDig]
  | .float (.fin neg m e), s, r, f, _, hio, h, hr, hf => by
    simp only [encJson, Except.ok.injEq, floatText] at h; subst h
    have hF := hio neg m e .float
    cases f with
    | zero =>
      obtain ⟨c, t, e', _⟩ := hF.syn.head
      rw [e'] at hf
      simp at hf
    | succ f =>
      rw [scanVal_float io _ r hF.syn hr f, hF.inv]
  | .str x, s, r, f, _, _, h, hr, hf => by
    simp only [encJson, Except.ok.injEq, encodeStr] at h; subst h
    cases f with
    | zero => simp at hf
    | succ f =>
      simp only [List.length_cons, List.length_append, List.length_nil] at hf
      have := scanStr_encoded x r f (by omega)
      simp [scanVal, this]
  | .arr xs, s, r, f, hw, hio, h, hr, hf => by
    have ihx := scanItems_enc io xs
    simp only [encJson] at h
    cases he : encItems io true xs with
    | error e => rw [he] at h; simp at h
    | ok t =>
      rw [he] at h
      simp only [Except.ok.injEq] at h; subst h
      cases hw with
      | arr hw =>
      cases f with
      | zero => simp at hf
      | succ f =>
        cases xs with
        | nil =>
          simp only [encItems, Except.ok.injEq] at he; subst he
          simp [scanVal, skipWs, isJsonWs]
        | cons x xs =>
          obtain ⟨a, t', ha, ht, rfl⟩ := encItems_ok he
          obtain ⟨c, a', e', hcw, hcb⟩ := encJson_head io x a (fun n m e hh => hio n m e (.arr (by simp) hh)) ha
          simp only [if_true, List.nil_append, List.length_cons, List.length_append, List.length_nil] at hf
          have := ihx x xs a t' rfl hw (fun y hy n m e hh => hio n m e (.arr hy hh)) ha ht [] r f (by simp only [List.length_append]; omega)
          subst e'
          simp only [if_true, List.nil_append, List.cons_append, List.append_assoc] at this ⊢
          simp [scanVal, skipWs_cons hcw, hcb, this]
  | .obj kvs, s, r, f, hw, hio, h, hr, hf => by
    have ihx := scanPairs_enc io kvs
    simp only [encJson] at h
    cases he : encPairs io true kvs with
    | error e => rw [he] at h; simp at h
    | ok t =>
      rw [he] at h
      simp only [Except.ok.injEq] at h; subst h
      cases hw with
      | obj hn hw =>
      cases f with
      | zero => simp at hf
      | succ f =>
        cases kvs with
        | nil =>
          simp only [encPairs, Except.ok.injEq] at he; subst he
          simp [scanVal, skipWs, isJsonWs]
        | cons x xs =>
          obtain ⟨k, x⟩ := x
          obtain ⟨a, t', ha, ht, rfl⟩ := encPairs_ok he
          simp only [if_true, List.nil_append, List.length_cons, List.length_append, List.length_nil, encodeStr, keySep] at hf
          have := ihx k x xs a t' rfl hw (fun y hy n m e hh => hio n m e (.obj hy hh)) ha ht [] r f
            (by simpa using hn) (by simp only [List.length_append]; omega)
          simp only [if_true, List.nil_append, List.cons_append, List.append_assoc, encodeStr, keySep] at this ⊢
          simp [scanVal, skipWs_cons (c := '"') (by decide), this]

theorem scanItems_enc (io : FloatIO) : ∀ (l : List Json) (x : Json) (xs : List Json) (a t : Str), l = x :: xs →
    (∀ y ∈ l, y.Wf) → (∀ y ∈ l, io.FaithfulOn y) → encJson io x = .ok a → encItems io false xs = .ok t →
    ∀ (acc : List Json) (r : Str) (f : Nat), (a ++ t).length + 1 ≤ f →
    scanItems io f acc (a ++ (t ++ ']' :: r)) = .ok (.arr (acc ++ l), r)
  | [], _, _, _, _, e, _, _, _, _, _, _, _, _ => nomatch e
  | y :: ys, x, xs, a, t, e, hw, hio, ha, ht, acc, r, f, hf => by
    have ih1 := scanVal_enc io y
    have ih2 := scanItems_enc io ys
    injection e with e1 e2
    subst e1; subst e2
    cases f with
    | zero => omega
    | succ f =>
      simp only [List.length_append] at hf
      have h1 := ih1 a (t ++ ']' :: r) f (hw y (by simp)) (hio y (by simp)) ha (encItems_delim ht r) (by omega)
      cases ys with
      | nil =>
        simp only [encItems, Except.ok.injEq] at ht; subst ht
        simp only [List.nil_append] at h1
        simp [scanItems, h1, skipWs_cons (c := ']') (by decide)]
      | cons z zs =>
        obtain ⟨b, t', hb, ht', rfl⟩ := encItems_ok ht
        obtain ⟨c, b', e', hcw, _⟩ := encJson_head io z b (hio z (by simp)) hb
        simp only [Bool.false_eq_true, if_false, itemSep, List.length_append, List.length_cons, List.length_nil] at hf
        have h2 := ih2 z zs b t' rfl (fun y hy => hw y (by simp [List.mem_cons.1 hy])) (fun y hy => hio y (by simp [List.mem_cons.1 hy])) hb ht' (acc ++ [y]) r f
          (by simp only [List.length_append]; omega)
        subst e'
        simp only [Bool.false_eq_true, if_false, itemSep, List.cons_append, List.nil_append, List.append_assoc] at h1 h2 ⊢
        simp [scanItems, h1, skipWs_cons (c := ',') (by decide), skipWs_cons hcw, h2]

theorem scanPairs_enc (io : FloatIO) : ∀ (l : List (Str × Json)) (k : Str) (x : Json) (xs : List (Str × Json)) (a t : Str),
    l = (k, x) :: xs →
    (∀ y ∈ l, y.2.Wf) → (∀ y ∈ l, io.FaithfulOn y.2) → encJson io x = .ok a → encPairs io false xs = .ok t →
    ∀ (acc : List (Str × Json)) (r : Str) (f : Nat), ((acc ++ l).map (·.1)).Nodup →
    (k.flatMap escChar ++ a ++ t).length + 3 ≤ f →
    scanPairs io f acc (k.flatMap escChar ++ '"' :: ':' :: (a ++ (t ++ '}' :: r))) = .ok (.obj (acc ++ l), r)
  | [], _, _, _, _, _, e, _, _, _, _, _, _, _, _, _ => nomatch e
  | (k', y) :: ys, k, x, xs, a, t, e, hw, hio, ha, ht, acc, r, f, hn, hf => by
    have ih1 := scanVal_enc io y
    have ih2 := scanPairs_enc io ys
    injection e with e1 e2
    injection e1 with e0 e1
    subst e1; subst e2; subst e0
    cases f with
    | zero => omega
    | succ f =>
      simp only [List.length_append] at hf
      have h0 := scanStr_encoded k' (':' :: (a ++ (t ++ '}' :: r))) f (by omega)
      have h1 := ih1 a (t ++ '}' :: r) f (hw _ (List.mem_cons_self ..)) (hio _ (List.mem_cons_self ..)) ha (encPairs_delim ht r) (by omega)
      obtain ⟨c, a', e', hcw, _⟩ := encJson_head io y a (hio (k', y) (by simp)) ha
      have hup : upsert k' y acc = acc ++ [(k', y)] := by
        refine upsert_of_not_mem ?_
        simp only [List.map_append, List.map_cons] at hn
        have := (List.nodup_append.1 hn).2.2
        intro hmem
        exact this k' hmem k' (by simp) rfl
      cases ys with
      | nil =>
        simp only [encPairs, Except.ok.injEq] at ht; subst ht
        subst e'
        simp only [List.nil_append, List.cons_append] at h0 h1 ⊢
        simp [scanPairs, h0, h1, skipWs_cons (c := ':') (by decide), skipWs_cons (c := '}') (by decide), skipWs_cons hcw, hup]
      | cons z zs =>
        obtain ⟨k2, z⟩ := z
        obtain ⟨b, t', hb, ht', rfl⟩ := encPairs_ok ht
        simp only [Bool.false_eq_true, if_false, itemSep, keySep, encodeStr, List.length_append, List.length_cons,
          List.length_nil] at hf
        have h2 := ih2 k2 z zs b t' rfl (fun y hy => hw y (by simp [List.mem_cons.1 hy])) (fun y hy => hio y (by simp [List.mem_cons.1 hy])) hb ht'
          (acc ++ [(k', y)]) r f (by simpa using hn) (by simp only [List.length_append]; omega)
        subst e'
        simp only [Bool.false_eq_true, if_false, itemSep, keySep, encodeStr, List.cons_append, List.nil_append, List.append_assoc] at h0 h1 h2 ⊢
        simp [scanPairs, h0, h1, skipWs_cons (c := ':') (by decide), skipWs_cons (c := ',') (by decide), skipWs_cons hcw,
          skipWs_cons (c := '"') (by decide), hup, h2]

end

/-! ### Compactness -/

/-- From mode `m` the text leads to mode `m'`, all characters outside literals are visible ASCII characters, and no character at
all is a control character. -/
def CleanText : TextMode → Str → TextMode → Prop
  | m, [], m' => m = m'
  | m, c :: r, m' => (m = .out → 32 < c.toNat ∧ c.toNat < 127) ∧ 32 ≤ c.toNat ∧ CleanText (m.next c) r m'

theorem CleanText.append {m m' m'' : TextMode} {s t : Str} (h : CleanText m s m') (h' : CleanText m' t m'') : CleanText m (s ++ t) m'' := by
  induction s generalizing m with
  | nil => cases h; exact h'
  | cons c s ih => exact ⟨h.1, h.2.1, ih h.2.2⟩

theorem CleanText.after {m m' : TextMode} {s : Str} (h : CleanText m s m') : m.after s = m' := by
  induction s generalizing m with
  | nil => exact h
  | cons c s ih => exact ih h.2.2

theorem CleanText.outside {m m' : TextMode} {s a b : Str} {c : Char} (h : CleanText m s m') (e : s = a ++ c :: b)
    (ha : m.after a = .out) : 32 < c.toNat ∧ c.toNat < 127 := by
  induction a generalizing m s with
  | nil =>
    subst e
    exact h.1 ha
  | cons d a ih =>
    subst e
    exact ih h.2.2 rfl ha

theorem CleanText.visible {m m' : TextMode} {s : Str} (h : CleanText m s m') : ∀ c ∈ s, 32 ≤ c.toNat := by
  induction s generalizing m with
  | nil => simp
  | cons d s ih =>
    intro c hc
    rcases List.mem_cons.1 hc with rfl | hc
    · exact h.2.1
    · exact ih h.2.2 c hc

theorem isHex_safe (c : Char) (h : isHex c = true) : 32 ≤ c.toNat ∧ c ≠ '"' ∧ c ≠ '\\' := by
  refine ⟨?_, ?_, ?_⟩
  · simp [isHex, isDig] at h; omega
  · rintro rfl; exact absurd h (by decide)
  · rintro rfl; exact absurd h (by decide)

theorem clean_inside_of_all {s : Str} (h : ∀ c ∈ s, 32 ≤ c.toNat ∧ c ≠ '"' ∧ c ≠ '\\') : CleanText .inside s .inside := by
  induction s with
  | nil => rfl
  | cons c s ih =>
    have hc := h c (by simp)
    refine ⟨(fun e => nomatch e), hc.1, ?_⟩
    simp only [TextMode.next, hc.2.1, hc.2.2, if_false]
    exact ih (fun c hc => h c (by simp [hc]))

theorem clean_escChar (c : Char) : CleanText .inside (escChar c) .inside := by
  have two : ∀ d : Char, 32 ≤ d.toNat → CleanText .inside ['\\', d] .inside := by
    intro d hd
    exact ⟨(fun e => nomatch e), by decide, (fun e => nomatch e), hd, rfl⟩
  unfold escChar
  split
  · exact two _ (by decide)
  split
  · exact two _ (by decide)
  split
  · exact two _ (by decide)
  split
  · exact two _ (by decide)
  split
  · exact two _ (by decide)
  split
  · exact two _ (by decide)
  split
  · exact two _ (by decide)
  split
  · refine (two 'u' (by decide)).append (clean_inside_of_all ?_)
    intro d hd
    exact isHex_safe d (hexPad4_hex _ d hd)
  · rename_i h1 h2 _ _ _ _ _ h8
    refine clean_inside_of_all ?_
    intro d hd
    simp only [List.mem_singleton] at hd
    subst hd
    exact ⟨by omega, h2, h1⟩

theorem clean_encodeStr (s : Str) : CleanText .out (encodeStr s) .out := by
  have body : CleanText .inside (s.flatMap escChar) .inside := by
    induction s with
    | nil => rfl
    | cons c s ih => simp only [List.flatMap_cons]; exact (clean_escChar c).append ih
  exact ⟨fun _ => by decide, by decide, body.append ⟨(fun e => nomatch e), by decide, rfl⟩⟩

theorem clean_out_of_all {s : Str} (h : ∀ c ∈ s, 32 < c.toNat ∧ c.toNat < 127 ∧ c ≠ '"') : CleanText .out s .out := by
  induction s with
  | nil => rfl
  | cons c s ih =>
    have hc := h c (by simp)
    refine ⟨fun _ => ⟨hc.1, hc.2.1⟩, by omega, ?_⟩
    simp only [TextMode.next, hc.2.2, if_false]
    exact ih (fun c hc => h c (by simp [hc]))

theorem isDig_plain (c : Char) (h : isDig c = true) : 32 < c.toNat ∧ c.toNat < 127 ∧ c ≠ '"' := by
  refine ⟨?_, ?_, ?_⟩
  · simp [isDig] at h; omega
  · simp [isDig] at h; omega
  · rintro rfl; exact absurd h (by decide)

theorem FloatSyntax.plain {s : Str} (h : FloatSyntax s) : ∀ c ∈ s, 32 < c.toNat ∧ c.toNat < 127 ∧ c ≠ '"' := by
  obtain ⟨neg, ds, frac, exp, e, ⟨_, hd, _⟩, hfr, hex, _⟩ := h
  intro c hc
  subst e
  simp only [List.mem_append] at hc
  rcases hc with ((hc | hc) | hc) | hc
  · cases neg <;> simp at hc
    subst hc; decide
  · exact isDig_plain c (hd c hc)
  · rcases hfr with rfl | ⟨r, rfl, _, hr⟩
    · simp at hc
    · rcases List.mem_cons.1 hc with rfl | hc
      · decide
      · exact isDig_plain c (hr c hc)
  · rcases hex with rfl | ⟨sg, r, rfl, hsg, _, hr⟩
    · simp at hc
    · rcases List.mem_cons.1 hc with rfl | hc
      · decide
      · rcases List.mem_cons.1 hc with rfl | hc
        · rcases hsg with rfl | rfl <;> decide
        · exact isDig_plain c (hr c hc)

mutual

theorem clean_encJson (io : FloatIO) : ∀ (j : Json) (s : Str), io.FaithfulOn j → encJson io j = .ok s → CleanText .out s .out
  | .null, s, _, h => by
    simp only [encJson, Except.ok.injEq] at h; subst h
    exact clean_out_of_all (by decide)
  | .bool true, s, _, h => by
    simp only [encJson, Except.ok.injEq] at h; subst h
    exact clean_out_of_all (by decide)
  | .bool false, s, _, h => by
    simp only [encJson, Except.ok.injEq] at h; subst h
    exact clean_out_of_all (by decide)
  | .int i, s, _, h => by
    simp only [encJson, intRepr] at h
    split at h
    · simp only [Except.ok.injEq] at h; subst h
      rw [intStr_eq]
      refine clean_out_of_all ?_
      intro c hc
      rcases List.mem_append.1 hc with hc | hc
      · by_cases hi : i < 0
        · simp [hi] at hc; subst hc; decide
        · simp [hi] at hc
      · exact isDig_plain c (decStr_dig _ c hc)
    · simp at h
  | .float .nan, s, _, h => by
    simp only [encJson, floatText, Except.ok.injEq] at h; subst h
    exact clean_out_of_all (by decide)
  | .float (.inf false), s, _, h => by
    simp only [encJson, floatText, Except.ok.injEq] at h; subst h
    exact clean_out_of_all (by decide)
  | .float (.inf true), s, _, h => by
    simp only [encJson, floatText, Except.ok.injEq] at h; subst h
    exact clean_out_of_all (by decide)
  | .float (.fin neg m e), s, hio, h => by
    simp only [encJson, floatText, Except.ok.injEq] at h; subst h
    exact clean_out_of_all (hio neg m e .float).syn.plain
  | .str x, s, _, h => by
    simp only [encJson, Except.ok.injEq] at h; subst h
    exact clean_encodeStr x
  | .arr xs, s, hio, h => by
    have ih := clean_encItems io xs
    simp only [encJson] at h
    cases he : encItems io true xs with
    | error e => rw [he] at h; simp at h
    | ok t =>
      rw [he] at h
      simp only [Except.ok.injEq] at h; subst h
      have := ih true t (fun y hy n m e hh => hio n m e (.arr hy hh)) he
      exact ⟨fun _ => by decide, by decide, this.append ⟨fun _ => by decide, by decide, rfl⟩⟩
  | .obj kvs, s, hio, h => by
    have ih := clean_encPairs io kvs
    simp only [encJson] at h
    cases he : encPairs io true kvs with
    | error e => rw [he] at h; simp at h
    | ok t =>
      rw [he] at h
      simp only [Except.ok.injEq] at h; subst h
      have := ih true t (fun y hy n m e hh => hio n m e (.obj hy hh)) he
      exact ⟨fun _ => by decide, by decide, this.append ⟨fun _ => by decide, by decide, rfl⟩⟩

theorem clean_encItems (io : FloatIO) : ∀ (xs : List Json) (b : Bool) (s : Str), (∀ y ∈ xs, io.FaithfulOn y) →
    encItems io b xs = .ok s → CleanText .out s .out
  | [], b, s, _, h => by
    simp only [encItems, Except.ok.injEq] at h; subst h; rfl
  | x :: xs, b, s, hio, h => by
    have ih1 := clean_encJson io x
    have ih2 := clean_encItems io xs
    obtain ⟨a, t, ha, ht, rfl⟩ := encItems_ok h
    have h1 := ih1 a (hio x (by simp)) ha
    have h2 := ih2 false t (fun y hy => hio y (by simp [hy])) ht
    refine CleanText.append (m' := .out) ?_ (h1.append h2)
    cases b <;> exact clean_out_of_all (by decide)

theorem clean_encPairs (io : FloatIO) : ∀ (xs : List (Str × Json)) (b : Bool) (s : Str), (∀ y ∈ xs, io.FaithfulOn y.2) →
    encPairs io b xs = .ok s → CleanText .out s .out
  | [], b, s, _, h => by
    simp only [encPairs, Except.ok.injEq] at h; subst h; rfl
  | (k, x) :: xs, b, s, hio, h => by
    have ih1 := clean_encJson io x
    have ih2 := clean_encPairs io xs
    obtain ⟨a, t, ha, ht, rfl⟩ := encPairs_ok h
    have h1 := ih1 a (hio (k, x) (by simp)) ha
    have h2 := ih2 false t (fun y hy => hio y (by simp [hy])) ht
    refine CleanText.append (m' := .out) ?_ ((clean_encodeStr k).append (CleanText.append (m' := .out) ?_ (h1.append h2)))
    · cases b <;> exact clean_out_of_all (by decide)
    · exact clean_out_of_all (by decide)

end

/-! ### When writing raises -/

theorem decVal_lt : ∀ (s : Str), (∀ c ∈ s, isDig c = true) → decVal s < 10 ^ s.length := by
  intro s
  induction s with
  | nil => intro _; simp [decVal, baseVal]
  | cons c s ih =>
    intro h
    have h1 := ih (fun d hd => h d (by simp [hd]))
    have hc : hexVal c ≤ 9 := by
      have := h c (by simp)
      simp only [isDig, Bool.and_eq_true, decide_eq_true_eq] at this
      simp only [hexVal]
      split <;> omega
    have e := baseVal_append 10 [c] s
    rw [baseVal_singleton] at e
    simp only [decVal, List.length_cons, Nat.pow_succ] at h1 ⊢
    rw [List.singleton_append] at e
    rw [e]
    have := Nat.mul_le_mul_right (10 ^ s.length) hc
    omega

theorem decStr_short_iff (n : Nat) : (decStr n).length ≤ 4300 ↔ n < 10 ^ 4300 := by
  constructor
  · intro h
    have := decVal_lt (decStr n) (decStr_dig n)
    rw [decVal_decStr] at this
    exact Nat.lt_of_lt_of_le this (Nat.pow_le_pow_right (by omega) h)
  · intro h
    exact decStr_length_le n 4299 h

mutual

theorem encJson_total (io : FloatIO) : ∀ (j : Json),
    (j.ShortInts ∧ ∃ s, encJson io j = .ok s) ∨ (¬ j.ShortInts ∧ encJson io j = .error .valueError)
  | .null => Or.inl ⟨(fun i h => nomatch h), _, rfl⟩
  | .bool true => Or.inl ⟨(fun i h => nomatch h), _, rfl⟩
  | .bool false => Or.inl ⟨(fun i h => nomatch h), _, rfl⟩
  | .float f => Or.inl ⟨(fun i h => nomatch h), _, rfl⟩
  | .str s => Or.inl ⟨(fun i h => nomatch h), _, rfl⟩
  | .int i => by
    simp only [encJson, intRepr, decStr_short_iff]
    by_cases h : i.natAbs < 10 ^ 4300
    · refine Or.inl ⟨?_, _, if_pos h⟩
      intro k hk
      cases hk
      exact h
    · exact Or.inr ⟨fun hs => h (hs i .int), if_neg h⟩
  | .arr xs => by
    rcases encItems_total io xs true with ⟨h, s, e⟩ | ⟨h, e⟩
    · refine Or.inl ⟨?_, _, by simp only [encJson, e]; rfl⟩
      intro i hi
      cases hi with
      | arr hx hi => exact h _ hx i hi
    · refine Or.inr ⟨fun hs => h ?_, by simp only [encJson, e]⟩
      intro x hx i hi
      exact hs i (.arr hx hi)
  | .obj kvs => by
    rcases encPairs_total io kvs true with ⟨h, s, e⟩ | ⟨h, e⟩
    · refine Or.inl ⟨?_, _, by simp only [encJson, e]; rfl⟩
      intro i hi
      cases hi with
      | obj hx hi => exact h _ hx i hi
    · refine Or.inr ⟨fun hs => h ?_, by simp only [encJson, e]⟩
      intro x hx i hi
      exact hs i (.obj hx hi)

theorem encItems_total (io : FloatIO) : ∀ (xs : List Json) (b : Bool),
    ((∀ x ∈ xs, x.ShortInts) ∧ ∃ s, encItems io b xs = .ok s) ∨
    (¬ (∀ x ∈ xs, x.ShortInts) ∧ encItems io b xs = .error .valueError)
  | [], b => Or.inl ⟨by simp, [], by simp only [encItems]⟩
  | x :: xs, b => by
    have ih1 := encJson_total io x
    have ih2 := encItems_total io xs false
    rcases ih1 with ⟨h1, s1, e1⟩ | ⟨h1, e1⟩
    · rcases ih2 with ⟨h2, s2, e2⟩ | ⟨h2, e2⟩
      · refine Or.inl ⟨?_, _, by simp only [encItems, e1, e2]; rfl⟩
        intro y hy
        rcases List.mem_cons.1 hy with rfl | hy
        · exact h1
        · exact h2 y hy
      · exact Or.inr ⟨fun h => h2 (fun y hy => h y (by simp [hy])), by simp only [encItems, e1, e2]⟩
    · exact Or.inr ⟨fun h => h1 (h x (by simp)), by simp only [encItems, e1]⟩

theorem encPairs_total (io : FloatIO) : ∀ (xs : List (Str × Json)) (b : Bool),
    ((∀ x ∈ xs, x.2.ShortInts) ∧ ∃ s, encPairs io b xs = .ok s) ∨
    (¬ (∀ x ∈ xs, x.2.ShortInts) ∧ encPairs io b xs = .error .valueError)
  | [], b => Or.inl ⟨by simp, [], by simp only [encPairs]⟩
  | (k, x) :: xs, b => by
    have ih1 := encJson_total io x
    have ih2 := encPairs_total io xs false
    rcases ih1 with ⟨h1, s1, e1⟩ | ⟨h1, e1⟩
    · rcases ih2 with ⟨h2, s2, e2⟩ | ⟨h2, e2⟩
      · refine Or.inl ⟨?_, _, by simp only [encPairs, e1, e2]; rfl⟩
        intro y hy
        rcases List.mem_cons.1 hy with rfl | hy
        · exact h1
        · exact h2 y hy
      · exact Or.inr ⟨fun h => h2 (fun y hy => h y (by simp [hy])), by simp only [encPairs, e1, e2]⟩
    · exact Or.inr ⟨fun h => h1 (h (k, x) (by simp)), by simp only [encPairs, e1]⟩

end

end Verif
