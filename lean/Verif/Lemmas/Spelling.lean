import Verif.Spec.Spelling
import Verif.Lemmas.JsonText
import Verif.Props.C09_Ip
/-!
# Lemmas about escapes in string literals
-/
namespace Verif

theorem hex4_quad {n : Nat} {h : Str} (hq : HexQuad n h) (r : Str) : hex4 (h ++ r) = some (n, r) := by
  obtain ⟨hl, hh, hv⟩ := hq
  have ht : (h ++ r).take 4 = h := List.take_left' hl
  have hd : (h ++ r).drop 4 = r := List.drop_left' hl
  simp only [hex4, ht, hd, hl, hv, true_and]
  rw [if_pos]
  exact List.all_eq_true.2 hh

theorem hex4_inv {s r : Str} {n : Nat} (h : hex4 s = some (n, r)) : ∃ q, s = q ++ r ∧ HexQuad n q := by
  unfold hex4 at h
  split at h
  · rename_i hc
    simp only [Option.some.injEq, Prod.mk.injEq] at h
    refine ⟨s.take 4, by rw [← h.2, List.take_append_drop], hc.1, List.all_eq_true.1 hc.2, h.1⟩
  · cases h

theorem char_code (c : Char) : c.toNat < 0xd800 ∨ (0xdfff < c.toNat ∧ c.toNat < 0x110000) := c.valid

theorem toNat_ofNat_code (n : Nat) (h : n < 0xd800 ∨ (0xdfff < n ∧ n < 0x110000)) : (Char.ofNat n).toNat = n := by
  have hv : n.isValidChar := h
  simp [Char.ofNat, hv, Char.toNat, Char.ofNatAux]

theorem scanUnicode_code {c : Char} {h : Str} (hq : HexQuad c.toNat h) (r : Str) : scanUnicode (h ++ r) = .ok (c, r) := by
  have hc := char_code c
  have h1 : ¬ (55296 ≤ c.toNat ∧ c.toNat ≤ 56319 ∧ r.take 2 = c!"\\u") := by omega
  have h2 : ¬ (55296 ≤ c.toNat ∧ c.toNat ≤ 57343) := by omega
  simp [scanUnicode, hex4_quad hq, codeChar, h1, h2]

theorem scanUnicode_pair {c : Char} {h l : Str} (hc : 0x10000 ≤ c.toNat) (hh : HexQuad (0xd800 + (c.toNat - 0x10000) / 1024) h)
    (hl : HexQuad (0xdc00 + (c.toNat - 0x10000) % 1024) l) (r : Str) :
    scanUnicode (h ++ (c!"\\u" ++ l) ++ r) = .ok (c, r) := by
  have hv := char_code c
  have e1 : h ++ (c!"\\u" ++ l) ++ r = h ++ (c!"\\u" ++ (l ++ r)) := by simp
  have e2 : (c!"\\u" ++ (l ++ r)).take 2 = c!"\\u" := rfl
  have e3 : (c!"\\u" ++ (l ++ r)).drop 2 = l ++ r := rfl
  rw [e1]
  unfold scanUnicode
  rw [hex4_quad hh]
  simp only [e2, e3, hex4_quad hl]
  rw [if_pos ⟨by omega, by omega, trivial⟩, if_pos ⟨by omega, by omega⟩]
  have : 0x10000 + ((0xd800 + (c.toNat - 0x10000) / 1024 - 0xd800) * 1024 + (0xdc00 + (c.toNat - 0x10000) % 1024 - 0xdc00)) = c.toNat := by
    omega
  rw [this, charOfNat_toNat]

theorem scanUnicode_inv {s r : Str} {c : Char} (h : scanUnicode s = .ok (c, r)) : ∃ q, s = q ++ r ∧ Spelt c (c!"\\u" ++ q) := by
  unfold scanUnicode at h
  split at h
  · cases h
  · rename_i n r1 e1
    obtain ⟨q1, rfl, hq1⟩ := hex4_inv e1
    split at h
    · rename_i hc
      split at h
      · cases h
      · rename_i n2 r2 e2
        obtain ⟨q2, e, hq2⟩ := hex4_inv e2
        split at h
        · rename_i hd
          simp only [Except.ok.injEq, Prod.mk.injEq] at h
          obtain ⟨hc', rfl⟩ := h
          have er : r1 = c!"\\u" ++ (q2 ++ r2) := by
            rw [← e, ← hc.2.2, List.take_append_drop]
          have hn : (Char.ofNat (0x10000 + ((n - 0xd800) * 1024 + (n2 - 0xdc00)))).toNat
              = 0x10000 + ((n - 0xd800) * 1024 + (n2 - 0xdc00)) := toNat_ofNat_code _ (by omega)
          rw [hc'] at hn
          refine ⟨q1 ++ (c!"\\u" ++ q2), by rw [er]; simp, ?_⟩
          rw [← List.append_assoc]
          refine .pair (by omega) ?_ ?_
          · rwa [show 0xd800 + (c.toNat - 0x10000) / 1024 = n by omega]
          · rwa [show 0xdc00 + (c.toNat - 0x10000) % 1024 = n2 by omega]
        · cases h
    · split at h
      · cases h
      · rename_i c' e2
        simp only [Except.ok.injEq, Prod.mk.injEq] at h
        obtain ⟨rfl, rfl⟩ := h
        unfold codeChar at e2
        split at e2
        · cases e2
        · rename_i hns
          simp only [Except.ok.injEq] at e2
          subst e2
          refine ⟨q1, rfl, .code ?_⟩
          have hlt : n < 65536 := by
            have := baseVal16_lt q1 hq1.2.1
            rw [hq1.1, hq1.2.2] at this
            exact this
          rwa [toNat_ofNat_code n (by omega)]

theorem scanStr_spelt {c : Char} {t : Str} (hs : Spelt c t) (f : Nat) (r s u : Str) (h : scanStr f r = .ok (s, u)) :
    scanStr (f + 1) (t ++ r) = .ok (c :: s, u) := by
  cases hs with
  | plain h1 h2 h3 =>
    have : ¬ c.toNat < 32 := by omega
    simp [scanStr, h1, h2, this, h]
  | code hq =>
    have := scanUnicode_code hq r
    simp [scanStr, this, h]
  | pair hc hh hl =>
    have := scanUnicode_pair hc hh hl r
    simp only [List.append_assoc, List.cons_append, List.nil_append] at this
    simp [scanStr, this, h]
  | _ => simp [scanStr, unescape, h]

theorem spelt_length {c : Char} {t : Str} (hs : Spelt c t) : 1 ≤ t.length := by
  cases hs <;> simp

theorem scanStr_spelling {s t : Str} (hs : Spelling s t) (r : Str) : ∀ f, t.length < f →
    scanStr f (t ++ '"' :: r) = .ok (s, r) := by
  induction hs with
  | nil =>
    intro f hf
    cases f with
    | zero => simp at hf
    | succ f => simp [scanStr]
  | cons hc _ ih =>
    intro f hf
    cases f with
    | zero => simp at hf
    | succ f =>
      have := spelt_length hc
      simp only [List.length_append] at hf
      have := ih f (by omega)
      simp only [List.append_assoc]
      exact scanStr_spelt hc _ _ _ _ this

theorem unescape_spelt {e c : Char} (h : unescape e = some c) : Spelt c ['\\', e] := by
  unfold unescape at h
  by_cases h1 : e = '"'
  · subst h1; cases h; exact .quote
  rw [if_neg h1] at h
  by_cases h1 : e = '\\'
  · subst h1; cases h; exact .backslash
  rw [if_neg h1] at h
  by_cases h1 : e = '/'
  · subst h1; cases h; exact .slash
  rw [if_neg h1] at h
  by_cases h1 : e = 'b'
  · subst h1; cases h; exact .backspace
  rw [if_neg h1] at h
  by_cases h1 : e = 'f'
  · subst h1; cases h; exact .formFeed
  rw [if_neg h1] at h
  by_cases h1 : e = 'n'
  · subst h1; cases h; exact .lineFeed
  rw [if_neg h1] at h
  by_cases h1 : e = 'r'
  · subst h1; cases h; exact .return
  rw [if_neg h1] at h
  by_cases h1 : e = 't'
  · subst h1; cases h; exact .tab
  rw [if_neg h1] at h
  cases h

theorem scanStr_inv : ∀ (f : Nat) (r s u : Str), scanStr f r = .ok (s, u) → ∃ t, r = t ++ '"' :: u ∧ Spelling s t := by
  intro f
  induction f with
  | zero => intro r s u h; cases h
  | succ f ih =>
    intro r s u h
    cases r with
    | nil => cases h
    | cons c r =>
      simp only [scanStr] at h
      by_cases hq : c = '"'
      · rw [if_pos hq] at h
        simp only [Except.ok.injEq, Prod.mk.injEq] at h
        obtain ⟨rfl, rfl⟩ := h
        exact ⟨[], by simp [hq], .nil⟩
      rw [if_neg hq] at h
      by_cases hb : c = '\\'
      · rw [if_pos hb] at h
        cases r with
        | nil => cases h
        | cons e r =>
          simp only at h
          by_cases hu : e = 'u'
          · rw [if_pos hu] at h
            split at h
            · cases h
            · rename_i c' r'' e1
              split at h
              · cases h
              · rename_i s' t' e2
                simp only [Except.ok.injEq, Prod.mk.injEq] at h
                obtain ⟨rfl, rfl⟩ := h
                obtain ⟨q, rfl, hsp⟩ := scanUnicode_inv e1
                obtain ⟨t, rfl, hst⟩ := ih _ _ _ e2
                exact ⟨_, by simp [hb, hu], .cons hsp hst⟩
          · rw [if_neg hu] at h
            split at h
            · cases h
            · rename_i c' e1
              split at h
              · cases h
              · rename_i s' t' e2
                simp only [Except.ok.injEq, Prod.mk.injEq] at h
                obtain ⟨rfl, rfl⟩ := h
                obtain ⟨t, rfl, hst⟩ := ih _ _ _ e2
                exact ⟨_, by simp [hb], .cons (unescape_spelt e1) hst⟩
      · rw [if_neg hb] at h
        by_cases hl : c.toNat < 32
        · rw [if_pos hl] at h; cases h
        · rw [if_neg hl] at h
          split at h
          · cases h
          · rename_i s' t' e2
            simp only [Except.ok.injEq, Prod.mk.injEq] at h
            obtain ⟨rfl, rfl⟩ := h
            obtain ⟨t, rfl, hst⟩ := ih _ _ _ e2
            exact ⟨_, by simp, .cons (.plain hq hb (by omega)) hst⟩

theorem scanItems_arr (io : FloatIO) : ∀ (f : Nat) (acc : List Json) (s : Str) (j : Json) (r : Str),
    scanItems io f acc s = .ok (j, r) → ∃ xs, j = .arr xs := by
  intro f
  induction f with
  | zero => intro acc s j r h; cases h
  | succ f ih =>
    intro acc s j r h
    rw [scanItems] at h
    split at h
    · cases h
    · split at h
      · cases h
      · split at h
        · simp only [Except.ok.injEq, Prod.mk.injEq] at h
          exact ⟨_, h.1.symm⟩
        · split at h
          · exact ih _ _ _ _ h
          · cases h

theorem scanPairs_obj (io : FloatIO) : ∀ (f : Nat) (acc : List (Str × Json)) (s : Str) (j : Json) (r : Str),
    scanPairs io f acc s = .ok (j, r) → ∃ kvs, j = .obj kvs := by
  intro f
  induction f with
  | zero => intro acc s j r h; cases h
  | succ f ih =>
    intro acc s j r h
    rw [scanPairs] at h
    split at h
    · cases h
    · split at h
      · cases h
      · split at h
        · cases h
        · split at h
          · cases h
          · split at h
            · cases h
            · split at h
              · simp only [Except.ok.injEq, Prod.mk.injEq] at h
                exact ⟨_, h.1.symm⟩
              · split at h
                · split at h
                  · cases h
                  · split at h
                    · exact ih _ _ _ _ h
                    · cases h
                · cases h

theorem scanNumber_not_str (io : FloatIO) (s x r : Str) : scanNumber io s ≠ .ok (.str x, r) := by
  intro h
  unfold scanNumber at h
  split at h
  · simp only at h
    split at h
    · split at h <;> cases h
    · cases h
  · split at h
    · cases h
    · split at h
      · cases h
      · split at h <;> cases h

/-- Only a string literal is read as a string. -/
theorem scanVal_str (io : FloatIO) (f : Nat) (s x r : Str) (h : scanVal io f s = .ok (.str x, r)) :
    ∃ t, s = '"' :: (t ++ '"' :: r) ∧ Spelling x t := by
  cases f with
  | zero => cases h
  | succ f =>
    cases s with
    | nil => cases h
    | cons c s =>
      rw [scanVal] at h
      split at h
      · rename_i hc
        split at h
        · cases h
        · rename_i s' t' e
          simp only [Except.ok.injEq, Prod.mk.injEq, Json.str.injEq] at h
          obtain ⟨rfl, rfl⟩ := h
          obtain ⟨t, rfl, hs⟩ := scanStr_inv _ _ _ _ e
          exact ⟨t, by rw [hc], hs⟩
      · split at h
        · split at h
          · cases h
          · split at h
            · cases h
            · split at h
              · obtain ⟨_, e⟩ := scanPairs_obj io _ _ _ _ _ h; cases e
              · cases h
        · split at h
          · split at h
            · cases h
            · split at h
              · cases h
              · obtain ⟨_, e⟩ := scanItems_arr io _ _ _ _ _ h; cases e
          · split at h
            · cases h
            · split at h
              · cases h
              · split at h
                · cases h
                · exact absurd h (scanNumber_not_str io _ _ _)

theorem skipWs_all {w : Str} (h : ∀ c ∈ w, isJsonWs c = true) (s : Str) (hs : ∀ c, s.head? = some c → isJsonWs c = false) :
    skipWs (w ++ s) = s := by
  induction w with
  | nil =>
    cases s with
    | nil => rfl
    | cons c s => simp [skipWs, hs c rfl]
  | cons c w ih =>
    have := ih (fun d hd => h d (by simp [hd]))
    simp only [skipWs] at this ⊢
    simp [h c (by simp), this]

theorem skipWs_split (s : Str) : ∃ w, s = w ++ skipWs s ∧ ∀ c ∈ w, isJsonWs c = true :=
  ⟨s.takeWhile isJsonWs, (List.takeWhile_append_dropWhile).symm, fun c hc => by
    induction s with
    | nil => simp at hc
    | cons d s ih =>
      rw [List.takeWhile_cons] at hc
      split at hc
      · rcases List.mem_cons.1 hc with rfl | hc
        · assumption
        · exact ih hc
      · simp at hc⟩

/-- Text that is read as a string: a literal with whitespace around it. -/
theorem loads_str_iff (io : FloatIO) (u s : Str) :
    jsonLoads io u = .ok (.str s) ↔
      ∃ w t w', u = w ++ '"' :: (t ++ '"' :: w') ∧ (∀ c ∈ w, isJsonWs c = true) ∧ (∀ c ∈ w', isJsonWs c = true) ∧ Spelling s t := by
  constructor
  · intro h
    unfold jsonLoads at h
    split at h
    · cases h
    · split at h
      · cases h
      · rename_i j r e
        split at h
        · rename_i hr
          simp only [Except.ok.injEq] at h
          subst h
          obtain ⟨t, e', hs⟩ := scanVal_str io _ _ _ _ e
          obtain ⟨w, hw, hww⟩ := skipWs_split u
          obtain ⟨w', hw', hww'⟩ := skipWs_split r
          rw [hr, List.append_nil] at hw'
          subst hw'
          exact ⟨w, t, r, by rw [hw, e'], hww, hww', hs⟩
        · cases h
  · rintro ⟨w, t, w', rfl, hw, hw', hs⟩
    have hsk := skipWs_all hw ('"' :: (t ++ '"' :: w')) (by intro c hc; simp at hc; subst hc; decide)
    have hsk' : skipWs w' = [] := by
      have := skipWs_all hw' [] (by simp)
      rwa [List.append_nil] at this
    have hb : (w ++ '"' :: (t ++ '"' :: w')).head? ≠ some (Char.ofNat 0xfeff) := by
      cases w with
      | nil => simp
      | cons c w =>
        intro hc
        simp at hc
        have := hw c (by simp)
        rw [hc] at this
        exact absurd this (by decide)
    unfold jsonLoads
    rw [if_neg hb, hsk, scanVal]
    rw [if_pos rfl, scanStr_spelling hs w' _ (by simp; omega)]
    simp only
    rw [if_pos hsk']

end Verif
