import Verif.Model.Duration
import Verif.Spec.Duration
import Verif.Lemmas.Digits
/-! Helper lemmas for durations. -/
namespace Verif

theorem takeWhile_all (p : Char → Bool) (s : Str) : ∀ c ∈ s.takeWhile p, p c = true := by
  induction s with
  | nil => simp
  | cons a s ih =>
    intro c hc
    by_cases h : p a = true
    · simp [h] at hc
      rcases hc with rfl | hc
      · exact h
      · exact ih c hc
    · simp [h] at hc

/-- `optNum` consumes exactly a numeral and its unit. -/
theorem optNum_sound (u : Char) (s : Str) :
    (∃ ds r, optNum u s = (some ds, r) ∧ IsNumeral ds ∧ s = unitText u (some ds) ++ r) ∨
    (optNum u s = (none, s)) := by
  unfold optNum
  have hall := takeWhile_all isDig s
  have hcat := List.takeWhile_append_dropWhile (p := isDig) (l := s)
  cases hd : s.dropWhile isDig with
  | nil => right; rfl
  | cons c rest =>
    by_cases h : s.takeWhile isDig ≠ [] ∧ c = u
    · left
      refine ⟨s.takeWhile isDig, rest, by simp only [h, and_self, if_true, ne_eq, not_false_eq_true], ⟨h.1, hall⟩, ?_⟩
      rw [hd, h.2] at hcat
      simp [unitText]; exact hcat.symm
    · right; simp only [h, if_false]

theorem optNum_hit (u : Char) (hu : isDig u = false) (ds r : Str) (h : IsNumeral ds) :
    optNum u (unitText u (some ds) ++ r) = (some ds, r) := by
  have := takeDrop_append_of_all ds ([u] ++ r) h.2 (by intro c hc; simp at hc; subst hc; exact hu)
  unfold optNum
  simp only [unitText, List.append_assoc]
  rw [this.1, this.2]
  simp [h.1]

/-- The text cannot be mistaken for one with unit `u`: it starts with no digit, or its digit run is followed by
something other than `u`. -/
theorem optNum_miss (u : Char) (s : Str) (h : ∀ c, (s.dropWhile isDig).head? = some c → c ≠ u) :
    optNum u s = (none, s) := by
  unfold optNum
  cases hd : s.dropWhile isDig with
  | nil => rfl
  | cons c rest => simp [h c (by simp [hd])]

theorem optSec_sound (s : Str) :
    (∃ ds o r, optSec s = (some (ds, o), r) ∧ IsNumeral ds ∧ (∀ f, o = some f → IsNumeral f ∧ f.length ≤ 9) ∧
      s = secText (some (ds, o)) ++ r) ∨ (optSec s = (none, s)) := by
  unfold optSec
  have hall := takeWhile_all isDig s
  have hcat := List.takeWhile_append_dropWhile (p := isDig) (l := s)
  by_cases h0 : s.takeWhile isDig = []
  · right; simp [h0]
  simp only [h0, if_false]
  split
  · rename_i rest hd
    left
    refine ⟨_, none, rest, rfl, ⟨h0, hall⟩, by simp, ?_⟩
    rw [hd] at hcat; simp [secText]; exact hcat.symm
  · rename_i r hd
    have hall2 := takeWhile_all isDig r
    have hcat2 := List.takeWhile_append_dropWhile (p := isDig) (l := r)
    split
    · rename_i rest hd2
      split
      · rename_i hl
        left
        refine ⟨_, _, rest, rfl, ⟨h0, hall⟩, ?_, ?_⟩
        · rintro f hf; cases hf
          refine ⟨⟨?_, hall2⟩, hl.2⟩
          intro hnil; rw [hnil] at hl; simp at hl
        · rw [hd] at hcat; rw [hd2] at hcat2
          simp only [secText, List.append_assoc, List.singleton_append]
          rw [← hcat, ← hcat2]; simp [hcat, hcat2]
      · right; rfl
    · right; rfl
  · right; rfl

theorem optSec_hit (ds : Str) (o : Option Str) (r : Str) (h : IsNumeral ds)
    (ho : ∀ f, o = some f → IsNumeral f ∧ f.length ≤ 9) :
    optSec (secText (some (ds, o)) ++ r) = (some (ds, o), r) := by
  cases o with
  | none =>
    have := takeDrop_append_of_all ds (['S'] ++ r) h.2 (by intro c hc; simp at hc; subst hc; decide)
    unfold optSec
    simp only [secText, List.append_assoc]
    rw [this.1, this.2]
    simp [h.1]
  | some f =>
    obtain ⟨hf, hl⟩ := ho f rfl
    have h1 := takeDrop_append_of_all ds (['.'] ++ (f ++ (['S'] ++ r))) h.2
      (by intro c hc; simp at hc; subst hc; decide)
    have h2 := takeDrop_append_of_all f (['S'] ++ r) hf.2 (by intro c hc; simp at hc; subst hc; decide)
    have hl1 : 1 ≤ f.length := by
      have := hf.1
      cases f with
      | nil => exact absurd rfl this
      | cons _ _ => simp
    unfold optSec
    simp only [secText, List.append_assoc]
    rw [h1.1, h1.2]
    simp only [h.1, if_false, List.singleton_append]
    rw [show f ++ 'S' :: r = f ++ (['S'] ++ r) from rfl, h2.1, h2.2]
    simp [hl1, hl]

theorem unitText_drop (u : Char) (hu : isDig u = false) (o : Option Str) (h : ∀ ds, o = some ds → IsNumeral ds)
    (t : Str) (P : Char → Prop) (hP : P u) (ht : ∀ c, (t.dropWhile isDig).head? = some c → P c) :
    ∀ c, ((unitText u o ++ t).dropWhile isDig).head? = some c → P c := by
  cases o with
  | none => simpa [unitText] using ht
  | some ds =>
    have := takeDrop_append_of_all ds ([u] ++ t) (h ds rfl).2 (by intro c hc; simp at hc; subst hc; exact hu)
    intro c hc
    simp only [unitText, List.append_assoc] at hc
    rw [this.2] at hc
    simp at hc; subst hc; exact hP

theorem secText_drop (o : Option (Str × Option Str)) (h : ∀ x, o = some x → IsNumeral x.1)
    (t : Str) (P : Char → Prop) (hP : P 'S' ∧ P '.') (ht : ∀ c, (t.dropWhile isDig).head? = some c → P c) :
    ∀ c, ((secText o ++ t).dropWhile isDig).head? = some c → P c := by
  match o with
  | none => simpa [secText] using ht
  | some (ds, none) =>
    have := takeDrop_append_of_all ds (['S'] ++ t) (h _ rfl).2 (by intro c hc; simp at hc; subst hc; decide)
    intro c hc
    simp only [secText, List.append_assoc] at hc
    rw [this.2] at hc
    simp at hc; subst hc; exact hP.1
  | some (ds, some f) =>
    have := takeDrop_append_of_all ds (['.'] ++ (f ++ (['S'] ++ t))) (h _ rfl).2
      (by intro c hc; simp at hc; subst hc; decide)
    intro c hc
    simp only [secText, List.append_assoc] at hc
    rw [this.2] at hc
    simp at hc; subst hc; exact hP.2

theorem optNum_text (u : Char) (hu : isDig u = false) (o : Option Str) (h : ∀ ds, o = some ds → IsNumeral ds) (t : Str)
    (ht : ∀ c, (t.dropWhile isDig).head? = some c → c ≠ u) : optNum u (unitText u o ++ t) = (o, t) := by
  cases o with
  | none => simpa [unitText] using optNum_miss u t ht
  | some ds => exact optNum_hit u hu ds t (h ds rfl)

/-- End-of-pattern tails. -/
def IsTail (t : Str) : Prop := t = [] ∨ t = ['\n']

theorem atEnd_iff (t : Str) : atEnd t = true ↔ IsTail t := by simp [atEnd, IsTail]

theorem tail_drop {t : Str} (h : IsTail t) (P : Char → Prop) (hP : P '\n') :
    ∀ c, (t.dropWhile isDig).head? = some c → P c := by
  rcases h with rfl | rfl
  · simp
  · intro c hc
    rw [show (['\n'].dropWhile isDig) = ['\n'] from by decide] at hc
    simp at hc; subst hc; exact hP

theorem optSec_tail {t : Str} (h : IsTail t) : optSec t = (none, t) := by
  rcases h with rfl | rfl <;> decide

/-- The groups of the match for a syntax tree. -/
def DurSyntax.groups (p : DurSyntax) : DurMatch :=
  match p.time with
  | none => ⟨p.weeks, p.days, none, none, none⟩
  | some (h, m, s) => ⟨p.weeks, p.days, h, m, s⟩

theorem durScan_complete (p : DurSyntax) (hp : p.Wf) (t : Str) (ht : IsTail t) :
    durScan (p.text ++ t) = some p.groups := by
  obtain ⟨w, d, tm⟩ := p
  obtain ⟨hn, hf⟩ := hp
  have hw : ∀ ds, w = some ds → IsNumeral ds := fun ds e => hn ds (by simp [DurSyntax.numerals, e])
  have hd : ∀ ds, d = some ds → IsNumeral ds := fun ds e => hn ds (by simp [DurSyntax.numerals, e])
  cases tm with
  | none =>
    have e : DurSyntax.text ⟨w, d, none⟩ ++ t = 'P' :: (unitText 'W' w ++ (unitText 'D' d ++ t)) := by
      simp [DurSyntax.text]
    have h1 := optNum_text 'W' (by decide) w hw (unitText 'D' d ++ t)
      (unitText_drop 'D' (by decide) d hd t (· ≠ 'W') (by decide) (tail_drop ht _ (by decide)))
    have h2 := optNum_text 'D' (by decide) d hd t (tail_drop ht _ (by decide))
    rw [e]
    unfold durScan
    simp only [h1, h2]
    rcases ht with rfl | rfl <;> rfl
  | some x =>
    obtain ⟨h, m, s⟩ := x
    have hh : ∀ ds, h = some ds → IsNumeral ds := fun ds e => hn ds (by simp [DurSyntax.numerals, e])
    have hm : ∀ ds, m = some ds → IsNumeral ds := fun ds e => hn ds (by simp [DurSyntax.numerals, e])
    have hs : ∀ x, s = some x → IsNumeral x.1 := fun x e => hn x.1 (by simp [DurSyntax.numerals, e])
    have e : DurSyntax.text ⟨w, d, some (h, m, s)⟩ ++ t = 'P' :: (unitText 'W' w ++ (unitText 'D' d ++
        ('T' :: (unitText 'H' h ++ (unitText 'M' m ++ (secText s ++ t)))))) := by
      simp [DurSyntax.text]
    have hT : ∀ (r : Str) (P : Char → Prop), P 'T' → ∀ c, (('T' :: r).dropWhile isDig).head? = some c → P c := by
      intro r P hP c hc
      simp [List.dropWhile, show isDig 'T' = false from by decide] at hc; subst hc; exact hP
    have h1 := optNum_text 'W' (by decide) w hw _
      (unitText_drop 'D' (by decide) d hd ('T' :: (unitText 'H' h ++ (unitText 'M' m ++ (secText s ++ t))))
        (· ≠ 'W') (by decide) (hT _ _ (by decide)))
    have h2 := optNum_text 'D' (by decide) d hd ('T' :: (unitText 'H' h ++ (unitText 'M' m ++ (secText s ++ t))))
      (hT _ _ (by decide))
    have h3 := optNum_text 'H' (by decide) h hh (unitText 'M' m ++ (secText s ++ t))
      (unitText_drop 'M' (by decide) m hm _ (· ≠ 'H') (by decide)
        (secText_drop s hs t _ (by decide) (tail_drop ht _ (by decide))))
    have h4 := optNum_text 'M' (by decide) m hm (secText s ++ t)
        (secText_drop s hs t _ (by decide) (tail_drop ht _ (by decide)))
    have h5 : optSec (secText s ++ t) = (s, t) := by
      cases s with
      | none => simpa [secText] using optSec_tail ht
      | some x =>
        obtain ⟨ds, o⟩ := x
        apply optSec_hit ds o t (hs _ rfl)
        intro f hfo
        exact hf f (by simp [DurSyntax.fraction, hfo])
    rw [e]
    unfold durScan
    simp only [h1, h2, h3, h4, h5, (atEnd_iff t).2 ht, if_true]
    rfl

theorem durScan_sound (s : Str) (q : DurMatch) (h : durScan s = some q) :
    ∃ p t, DurSyntax.Wf p ∧ IsTail t ∧ s = p.text ++ t ∧ q = p.groups := by
  unfold durScan at h
  split at h
  · rename_i r
    have hW := optNum_sound 'W' r
    generalize hw : optNum 'W' r = xw at *
    obtain ⟨w, r1⟩ := xw
    have hD := optNum_sound 'D' r1
    simp only at h
    generalize hd : optNum 'D' r1 = xd at *
    obtain ⟨d, r2⟩ := xd
    simp only at h
    have eW : r = unitText 'W' w ++ r1 ∧ ∀ ds, w = some ds → IsNumeral ds := by
      rcases hW with ⟨ds, r', he, hn, hs⟩ | he
      · cases he; exact ⟨hs, by intro ds e; cases e; exact hn⟩
      · cases he; simp [unitText]
    have eD : r1 = unitText 'D' d ++ r2 ∧ ∀ ds, d = some ds → IsNumeral ds := by
      rcases hD with ⟨ds, r', he, hn, hs⟩ | he
      · cases he; exact ⟨hs, by intro ds e; cases e; exact hn⟩
      · cases he; simp [unitText]
    split at h
    · rename_i r3
      have hH := optNum_sound 'H' r3
      generalize hh : optNum 'H' r3 = xh at *
      obtain ⟨hr, r4⟩ := xh
      have hM := optNum_sound 'M' r4
      simp only at h
      generalize hm : optNum 'M' r4 = xm at *
      obtain ⟨mn, r5⟩ := xm
      have hS := optSec_sound r5
      simp only at h
      generalize hs : optSec r5 = xs at *
      obtain ⟨sc, r6⟩ := xs
      simp only at h
      have eH : r3 = unitText 'H' hr ++ r4 ∧ ∀ ds, hr = some ds → IsNumeral ds := by
        rcases hH with ⟨ds, r', he, hn, hs⟩ | he
        · cases he; exact ⟨hs, by intro ds e; cases e; exact hn⟩
        · cases he; simp [unitText]
      have eM : r4 = unitText 'M' mn ++ r5 ∧ ∀ ds, mn = some ds → IsNumeral ds := by
        rcases hM with ⟨ds, r', he, hn, hs⟩ | he
        · cases he; exact ⟨hs, by intro ds e; cases e; exact hn⟩
        · cases he; simp [unitText]
      have eS : r5 = secText sc ++ r6 ∧ (∀ x, sc = some x → IsNumeral x.1 ∧
          ∀ f, x.2 = some f → IsNumeral f ∧ f.length ≤ 9) := by
        rcases hS with ⟨ds, o, r', he, hn, hf, hs⟩ | he
        · cases he; exact ⟨hs, by intro ds e; cases e; exact ⟨hn, hf⟩⟩
        · cases he; simp [secText]
      split at h
      · rename_i he
        cases h
        refine ⟨⟨w, d, some (hr, mn, sc)⟩, r6, ⟨?_, ?_⟩, (atEnd_iff _).1 he, ?_, rfl⟩
        · intro n hn
          simp [DurSyntax.numerals] at hn
          rcases hn with hn | hn | hn | hn | ⟨o, hn⟩
          · exact eW.2 n hn
          · exact eD.2 n hn
          · exact eH.2 n hn
          · exact eM.2 n hn
          · exact (eS.2 _ hn).1
        · intro f hf
          cases sc with
          | none => simp [DurSyntax.fraction] at hf
          | some x => exact (eS.2 x rfl).2 f hf
        · simp [DurSyntax.text]; rw [eW.1, eD.1, eH.1, eM.1, eS.1]
      · cases h
    · split at h
      · rename_i he
        cases h
        refine ⟨⟨w, d, none⟩, r2, ⟨?_, ?_⟩, (atEnd_iff _).1 he, ?_, rfl⟩
        · intro n hn
          simp [DurSyntax.numerals] at hn
          rcases hn with hn | hn
          · exact eW.2 n hn
          · exact eD.2 n hn
        · intro f hf; simp [DurSyntax.fraction] at hf
        · simp [DurSyntax.text]; rw [eW.1, eD.1]
      · cases h
  · cases h

end Verif
