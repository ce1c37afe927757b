import Verif.Spec.TypeName
import Verif.Lemmas.Digits
import Verif.Lemmas.JsonText
/-!
# Lemmas about names of types
-/
namespace Verif

/-! ### Words -/

/-- Characters of words: names, and the dots of the ellipsis. -/
def isWord (c : Char) : Bool := c = '.' || !(notInNames.contains c)

theorem isWord_of_name {n : Str} (h : IsName n) : ∀ c ∈ n, isWord c = true := by
  intro c hc
  have := h.2 c hc
  simp [isWord, this]

/-- Splitting two texts after a word. -/
theorem word_cancel {p : Char → Bool} {w w' t t' : Str} (hw : ∀ c ∈ w, p c = true) (hw' : ∀ c ∈ w', p c = true)
    (ht : ∀ c, t.head? = some c → p c = false) (ht' : ∀ c, t'.head? = some c → p c = false) (h : w ++ t = w' ++ t') :
    w = w' ∧ t = t' := by
  have h1 := takeDrop_append_of_all w t hw ht
  have h2 := takeDrop_append_of_all w' t' hw' ht'
  rw [h] at h1
  exact ⟨h1.1.symm.trans h2.1, h1.2.symm.trans h2.2⟩

/-! ### `repr` of strings -/

theorem pad_cancel {w : Nat} {m n : Nat} {s t : Str} (hm : m < 16 ^ (w + 1)) (hn : n < 16 ^ (w + 1))
    (h : hexPad (w + 1) m ++ s = hexPad (w + 1) n ++ t) : m = n ∧ s = t := by
  have h1 := hexPad_length hm
  have h2 := hexPad_length hn
  have := List.append_inj h (h1.trans h2.symm)
  refine ⟨?_, this.2⟩
  have e := congrArg (baseVal 16) this.1
  rwa [hexVal_hexPad, hexVal_hexPad] at e

theorem char_eq_of_toNat {c d : Char} (h : c.toNat = d.toNat) : c = d := by
  rw [← charOfNat_toNat c, ← charOfNat_toNat d, h]

theorem char_lt (c : Char) : c.toNat < 16 ^ 8 := by
  have h := c.valid
  have : c.val.toNat < 2 ^ 32 := c.val.toNat_lt
  simp only [Char.toNat]
  omega

/-- The forms of one character in `repr`. -/
inductive ReprForm (q : Char) : Char → Str → Prop
  | lit {c} : c ≠ q → c ≠ '\\' → ReprForm q c [c]
  | self {c} : c = q ∨ c = '\\' → ReprForm q c ['\\', c]
  | tab : ReprForm q '\t' c!"\\t"
  | nl : ReprForm q '\n' c!"\\n"
  | cr : ReprForm q '\r' c!"\\r"
  | x {c} : c.toNat < 256 → ReprForm q c ('\\' :: 'x' :: hexPad 2 c.toNat)
  | u {c} : c.toNat < 65536 → ReprForm q c ('\\' :: 'u' :: hexPad 4 c.toNat)
  | uu {c} : ReprForm q c ('\\' :: 'U' :: hexPad 8 c.toNat)

theorem reprChar_form (pr : Char → Bool) (q c : Char) : ReprForm q c (reprChar pr q c) := by
  unfold reprChar
  split
  · exact .self (by assumption)
  rename_i h
  have h1 : c ≠ q := fun e => h (Or.inl e)
  have h2 : c ≠ '\\' := fun e => h (Or.inr e)
  split
  · rename_i e; subst e; exact .tab
  split
  · rename_i e; subst e; exact .nl
  split
  · rename_i e; subst e; exact .cr
  split
  · exact .x (by omega)
  split
  · exact .lit h1 h2
  split
  · exact .lit h1 h2
  split
  · exact .x (by assumption)
  split
  · exact .u (by assumption)
  · exact .uu

/-- The character quotes can be. -/
def IsQuote (q : Char) : Prop := q = '\'' ∨ q = '"'

theorem IsQuote.ne {q : Char} (h : IsQuote q) : q ≠ '\\' ∧ q ≠ 't' ∧ q ≠ 'n' ∧ q ≠ 'r' ∧ q ≠ 'x' ∧ q ≠ 'u' ∧ q ≠ 'U' := by
  rcases h with rfl | rfl <;> decide

theorem reprForm_head {q c : Char} {s : Str} (hq : IsQuote q) (h : ReprForm q c s) (t t' : Str) : s ++ t ≠ q :: t' := by
  intro e
  have hb := hq.ne.1
  cases h with
  | lit h1 h2 => injection e with e1 e2; exact h1 e1
  | self => injection e with e1 e2; exact hb e1.symm
  | tab => injection e with e1 e2; exact hb e1.symm
  | nl => injection e with e1 e2; exact hb e1.symm
  | cr => injection e with e1 e2; exact hb e1.symm
  | x => injection e with e1 e2; exact hb e1.symm
  | u => injection e with e1 e2; exact hb e1.symm
  | uu => injection e with e1 e2; exact hb e1.symm

theorem reprForm_cancel {q c d : Char} {s s' t t' : Str} (hq : IsQuote q) (h : ReprForm q c s) (h' : ReprForm q d s')
    (e : s ++ t = s' ++ t') : c = d ∧ t = t' := by
  obtain ⟨_, q1, q2, q3, q4, q5, q6⟩ := hq.ne
  cases h with
  | lit h1 h2 =>
    cases h' with
    | lit => injection e with e1 e2; exact ⟨e1, e2⟩
    | _ => injection e with e1 e2; exact absurd e1 h2
  | self hc =>
    have hne : c ≠ 't' ∧ c ≠ 'n' ∧ c ≠ 'r' ∧ c ≠ 'x' ∧ c ≠ 'u' ∧ c ≠ 'U' := by
      rcases hc with rfl | rfl
      · exact ⟨q1, q2, q3, q4, q5, q6⟩
      · decide
    cases h' with
    | lit h1 h2 => injection e with e1 e2; exact absurd e1.symm h2
    | self hd => injection e with e1 e2; injection e2 with e2 e3; exact ⟨e2, e3⟩
    | tab => injection e with e1 e2; injection e2 with e2 e3; exact absurd e2 hne.1
    | nl => injection e with e1 e2; injection e2 with e2 e3; exact absurd e2 hne.2.1
    | cr => injection e with e1 e2; injection e2 with e2 e3; exact absurd e2 hne.2.2.1
    | x => injection e with e1 e2; injection e2 with e2 e3; exact absurd e2 hne.2.2.2.1
    | u => injection e with e1 e2; injection e2 with e2 e3; exact absurd e2 hne.2.2.2.2.1
    | uu => injection e with e1 e2; injection e2 with e2 e3; exact absurd e2 hne.2.2.2.2.2
  | tab =>
    cases h' with
    | lit h1 h2 => injection e with e1 e2; exact absurd e1.symm h2
    | self hd =>
      injection e with e1 e2; injection e2 with e2 e3
      rcases hd with rfl | rfl
      · exact absurd e2.symm q1
      · exact absurd e2 (by decide)
    | tab => injection e with e1 e2; injection e2 with e2 e3; exact ⟨rfl, e3⟩
    | _ => injection e with e1 e2; injection e2 with e2 e3; exact absurd e2 (by decide)
  | nl =>
    cases h' with
    | lit h1 h2 => injection e with e1 e2; exact absurd e1.symm h2
    | self hd =>
      injection e with e1 e2; injection e2 with e2 e3
      rcases hd with rfl | rfl
      · exact absurd e2.symm q2
      · exact absurd e2 (by decide)
    | nl => injection e with e1 e2; injection e2 with e2 e3; exact ⟨rfl, e3⟩
    | _ => injection e with e1 e2; injection e2 with e2 e3; exact absurd e2 (by decide)
  | cr =>
    cases h' with
    | lit h1 h2 => injection e with e1 e2; exact absurd e1.symm h2
    | self hd =>
      injection e with e1 e2; injection e2 with e2 e3
      rcases hd with rfl | rfl
      · exact absurd e2.symm q3
      · exact absurd e2 (by decide)
    | cr => injection e with e1 e2; injection e2 with e2 e3; exact ⟨rfl, e3⟩
    | _ => injection e with e1 e2; injection e2 with e2 e3; exact absurd e2 (by decide)
  | x hc =>
    cases h' with
    | lit h1 h2 => injection e with e1 e2; exact absurd e1.symm h2
    | self hd =>
      injection e with e1 e2; injection e2 with e2 e3
      rcases hd with rfl | rfl
      · exact absurd e2.symm q4
      · exact absurd e2 (by decide)
    | x hd =>
      injection e with e1 e2; injection e2 with e2 e3
      have := pad_cancel (w := 1) (by omega) (by omega) e3
      exact ⟨char_eq_of_toNat this.1, this.2⟩
    | _ => injection e with e1 e2; injection e2 with e2 e3; exact absurd e2 (by decide)
  | u hc =>
    cases h' with
    | lit h1 h2 => injection e with e1 e2; exact absurd e1.symm h2
    | self hd =>
      injection e with e1 e2; injection e2 with e2 e3
      rcases hd with rfl | rfl
      · exact absurd e2.symm q5
      · exact absurd e2 (by decide)
    | u hd =>
      injection e with e1 e2; injection e2 with e2 e3
      have := pad_cancel (w := 3) (by omega) (by omega) e3
      exact ⟨char_eq_of_toNat this.1, this.2⟩
    | _ => injection e with e1 e2; injection e2 with e2 e3; exact absurd e2 (by decide)
  | uu =>
    cases h' with
    | lit h1 h2 => injection e with e1 e2; exact absurd e1.symm h2
    | self hd =>
      injection e with e1 e2; injection e2 with e2 e3
      rcases hd with rfl | rfl
      · exact absurd e2.symm q6
      · exact absurd e2 (by decide)
    | uu =>
      injection e with e1 e2; injection e2 with e2 e3
      have := pad_cancel (w := 7) (char_lt _) (char_lt _) e3
      exact ⟨char_eq_of_toNat this.1, this.2⟩
    | _ => injection e with e1 e2; injection e2 with e2 e3; exact absurd e2 (by decide)

theorem reprBody_cancel (pr : Char → Bool) {q : Char} (hq : IsQuote q) : ∀ (s s' t t' : Str),
    s.flatMap (reprChar pr q) ++ q :: t = s'.flatMap (reprChar pr q) ++ q :: t' → s = s' ∧ t = t'
  | [], [], t, t', h => ⟨rfl, by simpa using h⟩
  | [], d :: s', t, t', h => by
    simp only [List.flatMap_nil, List.nil_append, List.flatMap_cons, List.append_assoc] at h
    exact absurd h.symm (reprForm_head hq (reprChar_form pr q d) _ _)
  | c :: s, [], t, t', h => by
    simp only [List.flatMap_nil, List.nil_append, List.flatMap_cons, List.append_assoc] at h
    exact absurd h (reprForm_head hq (reprChar_form pr q c) _ _)
  | c :: s, d :: s', t, t', h => by
    simp only [List.flatMap_cons, List.append_assoc] at h
    obtain ⟨e1, e2⟩ := reprForm_cancel hq (reprChar_form pr q c) (reprChar_form pr q d) h
    obtain ⟨e3, e4⟩ := reprBody_cancel pr hq s s' t t' e2
    exact ⟨by rw [e1, e3], e4⟩

theorem reprQuote_isQuote (s : Str) : IsQuote (reprQuote s) := by
  unfold reprQuote IsQuote
  split
  · exact Or.inr rfl
  · exact Or.inl rfl

theorem reprStr_cancel (pr : Char → Bool) {s s' t t' : Str} (h : reprStr pr s ++ t = reprStr pr s' ++ t') : s = s' ∧ t = t' := by
  simp only [reprStr, List.cons_append, List.append_assoc, List.nil_append, List.cons.injEq] at h
  obtain ⟨h1, h2⟩ := h
  rw [← h1] at h2
  exact reprBody_cancel pr (reprQuote_isQuote s) s s' t t' h2

/-! ### `repr` of literals -/

/-- The text does not go on with a digit. -/
def NoDigit (r : Str) : Prop := ∀ c, r.head? = some c → isDig c = false

theorem intStr_head (i : Int) : ∃ c s, intStr i = c :: s ∧ (isDig c = true ∨ c = '-') := by
  rw [intStr_eq]
  by_cases h : i < 0
  · exact ⟨'-', decStr i.natAbs, by simp [h], Or.inr rfl⟩
  · cases hd : decStr i.natAbs with
    | nil => exact absurd hd (decStr_ne_nil _)
    | cons c s => exact ⟨c, s, by simp [h], Or.inl (decStr_dig i.natAbs c (by rw [hd]; simp))⟩

theorem intStr_cancel {i j : Int} {r r' : Str} (hr : NoDigit r) (hr' : NoDigit r') (h : intStr i ++ r = intStr j ++ r') :
    i = j ∧ r = r' := by
  have dig : ∀ {m n : Nat}, decStr m ++ r = decStr n ++ r' → m = n ∧ r = r' := by
    intro m n e
    have := word_cancel (p := isDig) (decStr_dig m) (decStr_dig n) hr hr' e
    exact ⟨decStr_inj this.1, this.2⟩
  have clash : ∀ (m : Nat) (x y : Str), decStr m ++ x ≠ '-' :: y := by
    intro m x y e
    cases hd : decStr m with
    | nil => exact absurd hd (decStr_ne_nil _)
    | cons c s =>
      have := decStr_dig m c (by rw [hd]; simp)
      rw [hd] at e
      injection e with e1 e2
      rw [e1] at this
      exact absurd this (by decide)
  rw [intStr_eq, intStr_eq] at h
  by_cases hi : i < 0 <;> by_cases hj : j < 0
  · simp only [hi, hj, if_true, List.cons_append, List.nil_append, List.cons.injEq, true_and] at h
    obtain ⟨e1, e2⟩ := dig h
    exact ⟨by omega, e2⟩
  · simp only [hi, hj, if_true, if_false, List.cons_append, List.nil_append] at h
    exact absurd h.symm (clash _ _ _)
  · simp only [hi, hj, if_true, if_false, List.cons_append, List.nil_append] at h
    exact absurd h (clash _ _ _)
  · simp only [hi, hj, if_false, List.nil_append] at h
    obtain ⟨e1, e2⟩ := dig h
    exact ⟨by omega, e2⟩

/-- First character of a literal: it tells the kind. -/
theorem atom_head (pr : Char → Bool) (a : LitAtom) : ∃ c s, a.repr pr = c :: s ∧
    match a with
    | .none => c = 'N'
    | .bool true => c = 'T'
    | .bool false => c = 'F'
    | .int _ => isDig c = true ∨ c = '-'
    | .str _ => IsQuote c := by
  cases a with
  | none => exact ⟨_, _, rfl, rfl⟩
  | bool b => cases b <;> exact ⟨_, _, rfl, rfl⟩
  | int i => exact intStr_head i
  | str s => exact ⟨_, _, rfl, reprQuote_isQuote s⟩

theorem atom_cancel (pr : Char → Bool) {a b : LitAtom} {r r' : Str} (hr : NoDigit r) (hr' : NoDigit r')
    (h : a.repr pr ++ r = b.repr pr ++ r') : a = b ∧ r = r' := by
  obtain ⟨c, s, e, hc⟩ := atom_head pr a
  obtain ⟨d, s', e', hd⟩ := atom_head pr b
  have hcd : c = d := by rw [e, e'] at h; injection h
  clear e e'
  cases a with
  | none =>
    cases b with
    | none => exact ⟨rfl, by simpa [LitAtom.repr] using h⟩
    | bool b => cases b <;> (simp only at hc hd; rw [hc] at hcd; rw [hd] at hcd; exact absurd hcd (by decide))
    | int j => simp only at hc hd; subst hc; subst hcd; exact absurd hd (by decide)
    | str x => simp only at hc hd; subst hc; subst hcd; exact absurd hd (by simp [IsQuote])
  | bool p =>
    cases b with
    | none => cases p <;> (simp only at hc hd; rw [hc] at hcd; rw [hd] at hcd; exact absurd hcd (by decide))
    | bool q =>
      cases p <;> cases q
      · exact ⟨rfl, by simpa [LitAtom.repr] using h⟩
      · simp only at hc hd; rw [hc] at hcd; rw [hd] at hcd; exact absurd hcd (by decide)
      · simp only at hc hd; rw [hc] at hcd; rw [hd] at hcd; exact absurd hcd (by decide)
      · exact ⟨rfl, by simpa [LitAtom.repr] using h⟩
    | int j => cases p <;> (simp only at hc hd; subst hc; subst hcd; exact absurd hd (by decide))
    | str x => cases p <;> (simp only at hc hd; subst hc; subst hcd; exact absurd hd (by simp [IsQuote]))
  | int i =>
    cases b with
    | none => simp only at hc hd; subst hd; subst hcd; exact absurd hc (by decide)
    | bool q => cases q <;> (simp only at hc hd; subst hd; subst hcd; exact absurd hc (by decide))
    | int j =>
      obtain ⟨e1, e2⟩ := intStr_cancel hr hr' h
      exact ⟨by rw [e1], e2⟩
    | str x =>
      simp only at hc hd
      subst hcd
      rcases hd with rfl | rfl <;> exact absurd hc (by decide)
  | str x =>
    cases b with
    | none => simp only at hc hd; subst hd; subst hcd; exact absurd hc (by simp [IsQuote])
    | bool q => cases q <;> (simp only at hc hd; subst hd; subst hcd; exact absurd hc (by simp [IsQuote]))
    | int j =>
      simp only at hc hd
      subst hcd
      rcases hc with rfl | rfl <;> exact absurd hd (by decide)
    | str y =>
      obtain ⟨e1, e2⟩ := reprStr_cancel pr h
      exact ⟨by rw [e1], e2⟩

theorem atom_not_angle (pr : Char → Bool) (a : LitAtom) (r r' : Str) : a.repr pr ++ r ≠ '<' :: r' := by
  obtain ⟨c, s, e, hc⟩ := atom_head pr a
  rw [e]
  intro h
  injection h with h1 h2
  subst h1
  cases a with
  | none => exact absurd hc (by decide)
  | bool b => cases b <;> exact absurd hc (by decide)
  | int i => simp only at hc; exact absurd hc (by decide)
  | str x => exact absurd hc (by simp [IsQuote])

theorem noDigit_cons {c : Char} (h : isDig c = false) (r : Str) : NoDigit (c :: r) := by
  intro d hd; simp at hd; subst hd; exact h

/-- Name characters proper. -/
def isNameChar (c : Char) : Bool := !(notInNames.contains c)

theorem isNameChar_of {n : Str} (h : IsName n) : ∀ c ∈ n, isNameChar c = true := by
  intro c hc
  have := h.2 c hc
  simp [isNameChar, this]

theorem lit_cancel (pr : Char → Bool) {a b : LitVal} {r r' : Str} (ha : a.Ok) (hb : b.Ok) (hr : NoDigit r) (hr' : NoDigit r')
    (h : a.repr pr ++ r = b.repr pr ++ r') : a = b ∧ r = r' := by
  cases a with
  | atom x =>
    cases b with
    | atom y =>
      obtain ⟨e1, e2⟩ := atom_cancel pr hr hr' h
      exact ⟨by rw [e1], e2⟩
    | enum c n v => exact absurd h (atom_not_angle pr x _ _)
  | enum c n v =>
    cases b with
    | atom y => exact absurd h.symm (atom_not_angle pr y _ _)
    | enum c' n' v' =>
      simp only [LitVal.repr, List.cons_append, List.nil_append, List.append_assoc, List.cons.injEq, true_and] at h
      have nd : ∀ (x : Char) (t : Str), isNameChar x = false → ∀ c, (x :: t).head? = some c → isNameChar c = false := by
        intro x t hx c hc; simp at hc; subst hc; exact hx
      obtain ⟨e1, h1⟩ := word_cancel (p := isNameChar) (isNameChar_of ha.1) (isNameChar_of hb.1) (nd _ _ (by decide))
        (nd _ _ (by decide)) h
      injection h1 with _ h1
      obtain ⟨e2, h2⟩ := word_cancel (p := isNameChar) (isNameChar_of ha.2) (isNameChar_of hb.2) (nd _ _ (by decide))
        (nd _ _ (by decide)) h1
      injection h2 with _ h2
      injection h2 with _ h2
      obtain ⟨e3, h3⟩ := atom_cancel pr (noDigit_cons (by decide) _) (noDigit_cons (by decide) _) h2
      injection h3 with _ h3
      exact ⟨by rw [e1, e2, e3], h3⟩

theorem lit_not_close (pr : Char → Bool) (a : LitVal) (r r' : Str) : a.repr pr ++ r ≠ ']' :: r' := by
  cases a with
  | enum c n v =>
    intro e
    simp only [LitVal.repr, List.cons_append] at e
    injection e with e1 e2
    exact absurd e1 (by decide)
  | atom a =>
    obtain ⟨c, s, e, hc⟩ := atom_head pr a
    simp only [LitVal.repr]
    rw [e]
    intro h
    injection h with h1 h2
    subst h1
    cases a with
    | none => exact absurd hc (by decide)
    | bool b => cases b <;> exact absurd hc (by decide)
    | int i => simp only at hc; exact absurd hc (by decide)
    | str x => exact absurd hc (by simp [IsQuote])

/-! ### Lists with separators -/

theorem joinStr_cons (sep p : Str) (ps : List Str) :
    joinStr sep (p :: ps) = p ++ (if ps = [] then [] else sep ++ joinStr sep ps) := by
  cases ps with
  | nil => simp [joinStr]
  | cons q ps => simp [joinStr]

theorem lits_cancel (pr : Char → Bool) : ∀ (vs ws : List LitVal) (r r' : Str), (∀ v ∈ vs, v.Ok) → (∀ v ∈ ws, v.Ok) →
    joinStr c!", " (vs.map (LitVal.repr pr)) ++ ']' :: r = joinStr c!", " (ws.map (LitVal.repr pr)) ++ ']' :: r' →
    vs = ws ∧ r = r'
  | [], [], r, r', _, _, h => by simpa [joinStr] using h
  | [], w :: ws, r, r', _, _, h => by
    simp only [List.map_cons, List.map_nil, joinStr_cons, joinStr, List.nil_append, List.append_assoc] at h
    exact absurd h.symm (lit_not_close pr w _ _)
  | v :: vs, [], r, r', _, _, h => by
    simp only [List.map_cons, List.map_nil, joinStr_cons, joinStr, List.nil_append, List.append_assoc] at h
    exact absurd h (lit_not_close pr v _ _)
  | v :: vs, w :: ws, r, r', hv, hw, h => by
    simp only [List.map_cons, joinStr_cons, List.append_assoc, List.map_eq_nil_iff] at h
    have nd : ∀ (us : List LitVal) (x : Str), NoDigit ((if us = [] then [] else c!", " ++ joinStr c!", " (us.map (LitVal.repr pr))) ++ ']' :: x) := by
      intro us x
      by_cases hu : us = []
      · simp only [hu, if_true]; exact noDigit_cons (by decide) _
      · simp only [hu, if_false]; exact noDigit_cons (by decide) _
    obtain ⟨e1, h1⟩ := lit_cancel pr (hv v (by simp)) (hw w (by simp)) (nd vs r) (nd ws r') h
    cases vs with
    | nil =>
      cases ws with
      | nil => simp only [if_true, List.nil_append, List.cons.injEq, true_and] at h1; exact ⟨by rw [e1], h1⟩
      | cons w' ws =>
        simp at h1
    | cons v' vs =>
      cases ws with
      | nil =>
        simp at h1
      | cons w' ws =>
        rw [if_neg (by simp), if_neg (by simp)] at h1
        simp only [List.append_assoc, List.cons_append, List.nil_append, List.cons.injEq, true_and] at h1
        have ih := lits_cancel pr (v' :: vs) (w' :: ws) r r' (fun x hx => hv x (by simp [List.mem_cons.1 hx]))
          (fun x hx => hw x (by simp [List.mem_cons.1 hx])) h1
        exact ⟨by rw [e1, ih.1], ih.2⟩

/-! ### Annotations -/

theorem atom_not_paren (pr : Char → Bool) (a : LitAtom) (r r' : Str) : a.repr pr ++ r ≠ ')' :: r' := by
  obtain ⟨c, s, e, hc⟩ := atom_head pr a
  rw [e]
  intro h
  injection h with h1 h2
  subst h1
  cases a with
  | none => exact absurd hc (by decide)
  | bool b => cases b <;> exact absurd hc (by decide)
  | int i => simp only at hc; exact absurd hc (by decide)
  | str x => exact absurd hc (by simp [IsQuote])

theorem atoms_cancel (pr : Char → Bool) : ∀ (vs ws : List LitAtom) (r r' : Str),
    joinStr c!", " (vs.map (LitAtom.repr pr)) ++ ')' :: r = joinStr c!", " (ws.map (LitAtom.repr pr)) ++ ')' :: r' →
    vs = ws ∧ r = r'
  | [], [], r, r', h => by simpa [joinStr] using h
  | [], w :: ws, r, r', h => by
    simp only [List.map_cons, List.map_nil, joinStr_cons, joinStr, List.nil_append, List.append_assoc] at h
    exact absurd h.symm (atom_not_paren pr w _ _)
  | v :: vs, [], r, r', h => by
    simp only [List.map_cons, List.map_nil, joinStr_cons, joinStr, List.nil_append, List.append_assoc] at h
    exact absurd h (atom_not_paren pr v _ _)
  | v :: vs, w :: ws, r, r', h => by
    simp only [List.map_cons, joinStr_cons, List.append_assoc, List.map_eq_nil_iff] at h
    have nd : ∀ (us : List LitAtom) (x : Str), NoDigit ((if us = [] then [] else c!", " ++ joinStr c!", " (us.map (LitAtom.repr pr))) ++ ')' :: x) := by
      intro us x
      by_cases hu : us = []
      · simp only [hu, if_true]; exact noDigit_cons (by decide) _
      · simp only [hu, if_false]; exact noDigit_cons (by decide) _
    obtain ⟨e1, h1⟩ := atom_cancel pr (nd vs r) (nd ws r') h
    cases vs with
    | nil =>
      cases ws with
      | nil => simp only [if_true, List.nil_append, List.cons.injEq, true_and] at h1; exact ⟨by rw [e1], h1⟩
      | cons w' ws => simp at h1
    | cons v' vs =>
      cases ws with
      | nil => simp at h1
      | cons w' ws =>
        rw [if_neg (by simp), if_neg (by simp)] at h1
        simp only [List.append_assoc, List.cons_append, List.nil_append, List.cons.injEq, true_and] at h1
        have ih := atoms_cancel pr (v' :: vs) (w' :: ws) r r' h1
        exact ⟨by rw [e1, ih.1], ih.2⟩

theorem annotation_cancel (pr : Char → Bool) {a b : Annotation} {r r' : Str} (ha : IsName a.name) (hb : IsName b.name)
    (h : a.repr pr ++ r = b.repr pr ++ r') : a = b ∧ r = r' := by
  simp only [Annotation.repr, List.append_assoc, List.cons_append, List.nil_append] at h
  have nd : ∀ (t : Str), ∀ c, ('(' :: t).head? = some c → isNameChar c = false := by
    intro t c hc; simp at hc; subst hc; decide
  obtain ⟨e1, h1⟩ := word_cancel (p := isNameChar) (isNameChar_of ha) (isNameChar_of hb) (nd _) (nd _) h
  injection h1 with _ h1
  obtain ⟨e2, h2⟩ := atoms_cancel pr _ _ _ _ h1
  cases a; cases b
  simp only at e1 e2
  subst e1; subst e2
  exact ⟨rfl, h2⟩

theorem annotation_not_close (pr : Char → Bool) {a : Annotation} (ha : IsName a.name) (r r' : Str) : a.repr pr ++ r ≠ ']' :: r' := by
  intro h
  simp only [Annotation.repr, List.append_assoc] at h
  cases hn : a.name with
  | nil => exact ha.1 hn
  | cons c n =>
    rw [hn] at h
    injection h with h1 h2
    have := ha.2 c (by rw [hn]; simp)
    rw [h1] at this
    exact absurd this (by decide)

theorem annotations_cancel (pr : Char → Bool) : ∀ (vs ws : List Annotation) (r r' : Str), (∀ v ∈ vs, IsName v.name) →
    (∀ v ∈ ws, IsName v.name) →
    joinStr c!", " (vs.map (Annotation.repr pr)) ++ ']' :: r = joinStr c!", " (ws.map (Annotation.repr pr)) ++ ']' :: r' →
    vs = ws ∧ r = r'
  | [], [], r, r', _, _, h => by simpa [joinStr] using h
  | [], w :: ws, r, r', _, hw, h => by
    simp only [List.map_cons, List.map_nil, joinStr_cons, joinStr, List.nil_append, List.append_assoc] at h
    exact absurd h.symm (annotation_not_close pr (hw w (by simp)) _ _)
  | v :: vs, [], r, r', hv, _, h => by
    simp only [List.map_cons, List.map_nil, joinStr_cons, joinStr, List.nil_append, List.append_assoc] at h
    exact absurd h (annotation_not_close pr (hv v (by simp)) _ _)
  | v :: vs, w :: ws, r, r', hv, hw, h => by
    simp only [List.map_cons, joinStr_cons, List.append_assoc, List.map_eq_nil_iff] at h
    obtain ⟨e1, h1⟩ := annotation_cancel pr (hv v (by simp)) (hw w (by simp)) h
    cases vs with
    | nil =>
      cases ws with
      | nil => simp only [if_true, List.nil_append, List.cons.injEq, true_and] at h1; exact ⟨by rw [e1], h1⟩
      | cons w' ws => simp at h1
    | cons v' vs =>
      cases ws with
      | nil => simp at h1
      | cons w' ws =>
        rw [if_neg (by simp), if_neg (by simp)] at h1
        simp only [List.append_assoc, List.cons_append, List.nil_append, List.cons.injEq, true_and] at h1
        have ih := annotations_cancel pr (v' :: vs) (w' :: ws) r r' (fun x hx => hv x (by simp [List.mem_cons.1 hx]))
          (fun x hx => hw x (by simp [List.mem_cons.1 hx])) h1
        exact ⟨by rw [e1, ih.1], ih.2⟩

/-! ### Auxiliary types -/

theorem auxTypes_name_inj : ∀ a ∈ auxTypes, ∀ b ∈ auxTypes, a.name = b.name → a = b := by decide +kernel

theorem auxTypes_reserved : ∀ a ∈ auxTypes, a.name ∈ reservedNames ∧ a.base ∉ reservedNames := by decide +kernel

theorem auxTypes_isName : ∀ a ∈ auxTypes, a.name ≠ [] ∧ a.base ≠ [] ∧ (∀ c ∈ a.name, c ∉ notInNames) ∧ (∀ c ∈ a.base, c ∉ notInNames) := by
  decide +kernel

theorem auxName_isName {a : AuxType} (h : a ∈ auxTypes) : IsName a.name :=
  ⟨(auxTypes_isName a h).1, (auxTypes_isName a h).2.2.1⟩

theorem isClass_iff {base : Str} {t : TypeExpr} : t.isClass base = true ↔ t = .named base := by
  cases t <;> simp [TypeExpr.isClass]

theorem LitAtom.eq_refl (a : LitAtom) : a.eq a = true := by cases a <;> simp [LitAtom.eq]

theorem atomsEq_refl : ∀ (as : List LitAtom), atomsEq as as = true
  | [] => rfl
  | a :: as => by simp [atomsEq, LitAtom.eq_refl, atomsEq_refl as]

theorem Annotation.eq_refl (a : Annotation) : a.eq a = true := by simp [Annotation.eq, atomsEq_refl]

theorem LitAtom.eq_comm (a b : LitAtom) : a.eq b = b.eq a := by
  cases a <;> cases b <;> simp only [LitAtom.eq] <;> exact BEq.comm

theorem atomsEq_comm : ∀ (as bs : List LitAtom), atomsEq as bs = atomsEq bs as
  | [], [] => rfl
  | [], _ :: _ => rfl
  | _ :: _, [] => rfl
  | a :: as, b :: bs => by simp only [atomsEq, atomsEq_comm as bs, LitAtom.eq_comm a b]

theorem Annotation.eq_comm (a b : Annotation) : a.eq b = b.eq a := by
  simp only [Annotation.eq, atomsEq_comm a.args b.args]
  rw [BEq.comm]

theorem annotationsEq_refl : ∀ (as : List Annotation), annotationsEq as as = true
  | [] => rfl
  | a :: as => by simp [annotationsEq, Annotation.eq_refl, annotationsEq_refl as]

/-- Membership for Python is membership. -/
theorem isIn_iff {ns : List Annotation} {m : Annotation} (h : ∀ n ∈ ns, m.eq n = true → m = n) : m.isIn ns = true ↔ m ∈ ns := by
  simp only [Annotation.isIn, List.any_eq_true]
  constructor
  · rintro ⟨n, hn, e⟩; rw [h n hn e]; exact hn
  · intro hm; exact ⟨m, hm, m.eq_refl⟩

theorem annotationsEq_eq : ∀ {ns ms : List Annotation}, (∀ m ∈ ms, ∀ n ∈ ns, m.eq n = true → m = n) → annotationsEq ns ms = true → ns = ms
  | [], [], _, _ => rfl
  | [], _ :: _, _, h => by simp [annotationsEq] at h
  | _ :: _, [], _, h => by simp [annotationsEq] at h
  | n :: ns, m :: ms, ht, h => by
    simp only [annotationsEq, Bool.and_eq_true] at h
    rw [n.eq_comm] at h
    have e1 := ht m (by simp) n (by simp) h.1
    have e2 := annotationsEq_eq (fun m hm n hn => ht m (by simp [hm]) n (by simp [hn])) h.2
    rw [e1, e2]

theorem auxExact_some {t : TypeExpr} {ms : List Annotation} {a : AuxType} (ht : TypedAnnotations ms) (h : auxExact t ms = some a) :
    a ∈ auxTypes ∧ t = .named a.base ∧ ms = a.metas := by
  have hm := List.mem_of_find?_eq_some h
  have hp := List.find?_some h
  simp only [Bool.and_eq_true, isClass_iff] at hp
  exact ⟨hm, hp.1, (annotationsEq_eq (fun m hm' n hn => ht m hm' a hm n hn) hp.2).symm⟩

theorem auxExact_none {t : TypeExpr} {ms : List Annotation} (h : auxExact t ms = none) :
    ∀ a ∈ auxTypes, t = .named a.base → ms ≠ a.metas := by
  intro a ha e1 e2
  have := List.find?_eq_none.1 h a ha
  simp [e1, e2, TypeExpr.isClass, annotationsEq_refl] at this

theorem auxWithin_some {t : TypeExpr} {ms : List Annotation} {a : AuxType} (ht : TypedAnnotations ms) (h : auxWithin t ms = some a) :
    a ∈ auxTypes ∧ t = .named a.base ∧ ∀ m ∈ a.metas, m ∈ ms := by
  have hm := List.mem_of_find?_eq_some h
  have hp := List.find?_some h
  simp only [Bool.and_eq_true, isClass_iff, List.all_eq_true] at hp
  refine ⟨hm, hp.1, fun m h' => ?_⟩
  have := hp.2 m h'
  simp only [Annotation.isIn, List.any_eq_true] at this
  obtain ⟨n, hn, e⟩ := this
  rw [m.eq_comm] at e
  rw [← ht n hn a hm m h' e]
  exact hn

theorem auxWithin_none {t : TypeExpr} {ms : List Annotation} (h : auxWithin t ms = none) :
    ∀ a ∈ auxTypes, t = .named a.base → ¬ ∀ m ∈ a.metas, m ∈ ms := by
  intro a ha e1 e2
  have := List.find?_eq_none.1 h a ha
  simp only [e1, TypeExpr.isClass, beq_self_eq_true, Bool.true_and, List.all_eq_true] at this
  refine this fun m hm => ?_
  simp only [Annotation.isIn, List.any_eq_true]
  exact ⟨m, e2 m hm, m.eq_refl⟩

/-- The annotations that are written after the name of the auxiliary type. -/
theorem aux_rest {a : AuxType} (ha : a ∈ auxTypes) {rest : List Annotation} (ht : TypedAnnotations (a.metas ++ rest))
    (hr : ∀ m ∈ rest, m ∉ a.metas) : (a.metas ++ rest).filter (fun m => !m.isIn a.metas) = rest := by
  have hi : ∀ m ∈ a.metas ++ rest, (m.isIn a.metas = true ↔ m ∈ a.metas) := fun m hm =>
    isIn_iff (fun n hn e => ht m hm a ha n hn e)
  rw [List.filter_append]
  have h1 : a.metas.filter (fun m => !m.isIn a.metas) = [] := by
    rw [List.filter_eq_nil_iff]
    intro m hm
    simp [(hi m (by simp [hm])).2 hm]
  have h2 : rest.filter (fun m => !m.isIn a.metas) = rest := by
    rw [List.filter_eq_self]
    intro m hm
    cases e : m.isIn a.metas with
    | false => rfl
    | true => exact absurd ((hi m (by simp [hm])).1 e) (hr m hm)
  rw [h1, h2, List.nil_append]

/-- The type that `Annotated[T, …]` shows: `type(None)` is called `NoneType` there. -/
def TypeExpr.head (t : TypeExpr) : TypeExpr := if t.isNone then .named c!"NoneType" else t

/-- The three forms of an annotated type. -/
theorem annotated_cases (pr : Char → Bool) (op : Bool) {t : TypeExpr} {ms : List Annotation} (ht : TypedAnnotations ms)
    (ho : OrderlyAnnotations t ms) :
    (∃ a ∈ auxTypes, auxExact t ms = some a ∧ t = .named a.base ∧ ms = a.metas ∧ (TypeExpr.annotated t ms).fmt pr op = a.name) ∨
    (∃ a ∈ auxTypes, ∃ rest, auxExact t ms = none ∧ t = .named a.base ∧ ms = a.metas ++ rest ∧ (TypeExpr.annotated t ms).fmt pr op =
      c!"Annotated[" ++ (a.name ++ (c!", " ++ (joinStr c!", " (rest.map (Annotation.repr pr)) ++ c!"]")))) ∨
    (auxExact t ms = none ∧ auxWithin t ms = none ∧ (TypeExpr.annotated t ms).fmt pr op =
      c!"Annotated[" ++ (t.head.fmt pr op ++ (c!", " ++ (joinStr c!", " (ms.map (Annotation.repr pr)) ++ c!"]")))) := by
  cases he : auxExact t ms with
  | some a =>
    obtain ⟨h1, h2, h3⟩ := auxExact_some ht he
    exact Or.inl ⟨a, h1, rfl, h2, h3, by simp only [TypeExpr.fmt, annotatedStr, he]⟩
  | none =>
    cases hw : auxWithin t ms with
    | some a =>
      obtain ⟨h1, h2, h3⟩ := auxWithin_some ht hw
      obtain ⟨rest, h4, h5⟩ := ho a h1 h2 h3
      refine Or.inr (Or.inl ⟨a, h1, rest, rfl, h2, h4, ?_⟩)
      simp only [TypeExpr.fmt, annotatedStr, he, hw]
      have : ms.filter (fun m => !m.isIn a.metas) = rest := by rw [h4]; rw [h4] at ht; exact aux_rest h1 ht h5
      rw [this]
    | none =>
      refine Or.inr (Or.inr ⟨rfl, rfl, ?_⟩)
      simp only [TypeExpr.fmt, annotatedStr, he, hw, TypeExpr.head]
      cases t.isNone <;> simp [TypeExpr.fmt]

/-! ### Shape of the text -/

/-- The leading word of the text. -/
def TypeExpr.word : TypeExpr → Str
  | .none => c!"None"
  | .ellipsis => c!"..."
  | .any => c!"Any"
  | .named n => n
  | .generic o _ => o
  | .union ts => if optionalArgs ts then c!"Optional" else c!"Union"
  | .literal _ => c!"Literal"
  | .argList _ => []
  | .annotated t ms => match auxExact t ms with | some a => a.name | Option.none => c!"Annotated"

/-- The text between the brackets after the leading word. -/
def TypeExpr.inner (pr : Char → Bool) (op : Bool) : TypeExpr → Option Str
  | .generic _ ts => some (joinStr c!", " (TypeExpr.fmtL pr op ts))
  | .union ts =>
    some (if optionalArgs ts then joinStr c!", " (TypeExpr.fmtSome pr op ts) else joinStr c!", " (TypeExpr.fmtL pr op ts))
  | .literal vs => some (joinStr c!", " (vs.map (LitVal.repr pr)))
  | .argList ts => some (joinStr c!", " (TypeExpr.fmtL pr op ts))
  | .annotated t ms =>
    match auxExact t ms, auxWithin t ms with
    | some _, _ => Option.none
    | Option.none, some a =>
      some (a.name ++ (c!", " ++ joinStr c!", " ((ms.filter fun m => !m.isIn a.metas).map (Annotation.repr pr))))
    | Option.none, Option.none => some (t.head.fmt pr op ++ (c!", " ++ joinStr c!", " (ms.map (Annotation.repr pr))))
  | _ => Option.none

/-- Not printed as a sequence of members separated by bars. -/
def NonU (op : Bool) (e : TypeExpr) : Prop := op = true → e.isUnion = false

theorem fmt_shape (pr : Char → Bool) (op : Bool) (e : TypeExpr) (h : NonU op e) :
    e.fmt pr op = e.word ++ (match e.inner pr op with | Option.none => [] | some i => '[' :: (i ++ c!"]")) := by
  cases e with
  | none => rfl
  | ellipsis => rfl
  | any => rfl
  | named n => simp [TypeExpr.fmt, TypeExpr.word, TypeExpr.inner]
  | generic o ts => simp [TypeExpr.fmt, TypeExpr.word, TypeExpr.inner]
  | literal vs => simp [TypeExpr.fmt, TypeExpr.word, TypeExpr.inner]
  | argList ts => simp [TypeExpr.fmt, TypeExpr.word, TypeExpr.inner]
  | annotated t ms =>
    have hh : (if t.isNone = true then c!"NoneType" else t.fmt pr op) = t.head.fmt pr op := by
      simp only [TypeExpr.head]; cases t.isNone <;> simp [TypeExpr.fmt]
    simp only [TypeExpr.fmt, TypeExpr.word, TypeExpr.inner, annotatedStr, hh]
    cases auxExact t ms with
    | some a => simp
    | none => cases auxWithin t ms <;> simp
  | union ts =>
    have : op = false := by
      cases op with
      | false => rfl
      | true => exact absurd (h rfl) (by simp [TypeExpr.isUnion])
    subst this
    by_cases ho : optionalArgs ts = true <;> simp [TypeExpr.fmt, TypeExpr.word, TypeExpr.inner, ho]

theorem word_isWord {e : TypeExpr} (h : e.Ok) : ∀ c ∈ e.word, isWord c = true := by
  cases h with
  | none => simp only [TypeExpr.word]; decide
  | ellipsis => simp only [TypeExpr.word]; decide
  | any => simp only [TypeExpr.word]; decide
  | named hn => exact isWord_of_name hn
  | generic ho => exact isWord_of_name ho
  | @union ts =>
    by_cases ho : optionalArgs ts = true
    · simp only [TypeExpr.word, ho, if_true]; decide
    · simp only [TypeExpr.word, ho, if_false]; decide
  | literal => simp only [TypeExpr.word]; decide
  | argList => intro c hc; simp [TypeExpr.word] at hc
  | @annotated t ms _ _ _ _ _ ht =>
    simp only [TypeExpr.word]
    cases he : auxExact t ms with
    | some a => exact isWord_of_name (auxName_isName (auxExact_some ht he).1)
    | none => decide

/-- What can follow an expression that is not a bar-separated union. -/
def Follow (r : Str) : Prop := ∀ c, r.head? = some c → c = ',' ∨ c = ']' ∨ c = ' '

/-- What can follow any expression. -/
def TermEnd (r : Str) : Prop := ∀ c, r.head? = some c → c = ',' ∨ c = ']'

theorem TermEnd.follow {r : Str} (h : TermEnd r) : Follow r := fun c hc => by
  rcases h c hc with h | h
  · exact Or.inl h
  · exact Or.inr (Or.inl h)

theorem shape_cancel (pr : Char → Bool) (op : Bool) {a b : TypeExpr} {r r' : Str} (ha : a.Ok) (hb : b.Ok) (na : NonU op a)
    (nb : NonU op b) (hr : Follow r) (hr' : Follow r') (h : a.fmt pr op ++ r = b.fmt pr op ++ r') :
    a.word = b.word ∧
      ((a.inner pr op = Option.none ∧ b.inner pr op = Option.none ∧ r = r') ∨
       ∃ i j, a.inner pr op = some i ∧ b.inner pr op = some j ∧ i ++ ']' :: r = j ++ ']' :: r') := by
  rw [fmt_shape pr op a na, fmt_shape pr op b nb, List.append_assoc, List.append_assoc] at h
  have nd : ∀ (o : Option Str) (x : Str), Follow x →
      ∀ c, ((match o with | Option.none => [] | some i => '[' :: (i ++ c!"]")) ++ x).head? = some c → isWord c = false := by
    intro o x hx c hc
    cases o with
    | none =>
      rcases hx c (by simpa using hc) with rfl | rfl | rfl <;> decide
    | some i => simp at hc; subst hc; decide
  obtain ⟨e1, h1⟩ := word_cancel (word_isWord ha) (word_isWord hb) (nd _ r hr) (nd _ r' hr') h
  refine ⟨e1, ?_⟩
  cases hi : a.inner pr op with
  | none =>
    cases hj : b.inner pr op with
    | none => rw [hi, hj] at h1; exact Or.inl ⟨rfl, rfl, by simpa using h1⟩
    | some j =>
      rw [hi, hj] at h1
      simp only [List.nil_append, List.cons_append] at h1
      rcases hr '[' (by rw [h1]; rfl) with h | h | h <;> exact absurd h (by decide)
  | some i =>
    cases hj : b.inner pr op with
    | none =>
      rw [hi, hj] at h1
      simp only [List.nil_append, List.cons_append] at h1
      rcases hr' '[' (by rw [← h1]; rfl) with h | h | h <;> exact absurd h (by decide)
    | some j =>
      rw [hi, hj] at h1
      simp only [List.cons_append, List.append_assoc, List.nil_append, List.cons.injEq, true_and] at h1
      exact Or.inr ⟨i, j, rfl, rfl, h1⟩

theorem fmtL_eq_map (pr : Char → Bool) (op : Bool) (ts : List TypeExpr) : TypeExpr.fmtL pr op ts = ts.map (TypeExpr.fmt pr op) := by
  induction ts with
  | nil => rfl
  | cons t ts ih => simp [TypeExpr.fmtL, ih]

theorem fmtSome_eq (pr : Char → Bool) (op : Bool) (ts : List TypeExpr) :
    TypeExpr.fmtSome pr op ts = (ts.filter (fun t => !t.isNone)).map (TypeExpr.fmt pr op) := by
  induction ts with
  | nil => rfl
  | cons t ts ih =>
    cases h : t.isNone <;> simp [TypeExpr.fmtSome, ih, h]

/-- No expression starts with a closing bracket. -/
theorem fmt_not_close (pr : Char → Bool) (op : Bool) {e : TypeExpr} (h : e.Ok) (r r' : Str) : e.fmt pr op ++ r ≠ ']' :: r' := by
  have base : ∀ {e : TypeExpr}, e.Ok → NonU op e → ∀ x y, e.fmt pr op ++ x ≠ ']' :: y := by
    intro e he hn x y
    rw [fmt_shape pr op e hn]
    cases hw : e.word with
    | cons c w =>
      intro e2
      injection e2 with e1 e2
      have := word_isWord he c (by rw [hw]; simp)
      rw [e1] at this
      exact absurd this (by decide)
    | nil =>
      cases he with
      | none => simp [TypeExpr.word] at hw
      | ellipsis => simp [TypeExpr.word] at hw
      | any => simp [TypeExpr.word] at hw
      | named h => exact absurd hw h.1
      | generic h => exact absurd hw h.1
      | @union ts => simp only [TypeExpr.word] at hw; split at hw <;> simp at hw
      | literal => simp [TypeExpr.word] at hw
      | argList => intro e2; simp [TypeExpr.inner] at e2
      | @annotated t ms _ _ _ _ _ ht =>
        simp only [TypeExpr.word] at hw
        cases he : auxExact t ms with
        | some a => rw [he] at hw; exact absurd hw (auxName_isName (auxExact_some ht he).1).1
        | none => rw [he] at hw; simp at hw
  cases hu : e.isUnion with
  | false => exact base h (fun _ => hu) r r'
  | true =>
    cases op with
    | false => exact base h (by intro h; simp at h) r r'
    | true =>
      cases h with
      | @union ts h2 h3 h4 h5 =>
        cases ts with
        | nil => simp at h2
        | cons t ts =>
          simp only [TypeExpr.fmt, if_true, TypeExpr.fmtL, joinStr_cons, List.append_assoc]
          exact base (h5 t (by simp)) (fun _ => h4 t (by simp)) _ _
      | _ => simp [TypeExpr.isUnion] at hu

/-! ### Cancellation -/

/-- Equal up to the order of `Optional`; with bars, equal. -/
def Same (op : Bool) (a b : TypeExpr) : Prop := a.SameOpt b ∧ (op = true → a = b)

def SameL (op : Bool) (ts us : List TypeExpr) : Prop :=
  ts.length = us.length ∧ (∀ p ∈ ts.zip us, p.1.SameOpt p.2) ∧ (op = true → ts = us)

theorem SameL.cons {op : Bool} {t u : TypeExpr} {ts us : List TypeExpr} (h : Same op t u) (h' : SameL op ts us) :
    SameL op (t :: ts) (u :: us) := by
  refine ⟨by simp [h'.1], ?_, fun e => by rw [h.2 e, h'.2.2 e]⟩
  intro p hp
  rcases List.mem_cons.1 hp with rfl | hp
  · exact h.1
  · exact h'.2.1 p hp

theorem SameL.nil {op : Bool} : SameL op [] [] := ⟨rfl, by simp, fun _ => rfl⟩

/-- The two statements proved by induction on the first expression. -/
structure Cancels (pr : Char → Bool) (op : Bool) (a : TypeExpr) : Prop where
  plain : NonU op a → ∀ b r r', b.Ok → NonU op b → Follow r → Follow r' → a.fmt pr op ++ r = b.fmt pr op ++ r' →
    Same op a b ∧ r = r'
  full : ∀ b r r', b.Ok → TermEnd r → TermEnd r' → a.fmt pr op ++ r = b.fmt pr op ++ r' → Same op a b ∧ r = r'

theorem items_cancel (pr : Char → Bool) (op : Bool) : ∀ (ts us : List TypeExpr) (r r' : Str), (∀ t ∈ ts, t.Ok) → (∀ t ∈ us, t.Ok) →
    (∀ t ∈ ts, Cancels pr op t) →
    joinStr c!", " (ts.map (TypeExpr.fmt pr op)) ++ ']' :: r = joinStr c!", " (us.map (TypeExpr.fmt pr op)) ++ ']' :: r' →
    SameL op ts us ∧ r = r'
  | [], [], r, r', _, _, _, h => ⟨SameL.nil, by simpa [joinStr] using h⟩
  | [], u :: us, r, r', _, hu, _, h => by
    simp only [List.map_cons, List.map_nil, joinStr_cons, joinStr, List.nil_append, List.append_assoc] at h
    exact absurd h.symm (fmt_not_close pr op (hu u (by simp)) _ _)
  | t :: ts, [], r, r', ht, _, _, h => by
    simp only [List.map_cons, List.map_nil, joinStr_cons, joinStr, List.nil_append, List.append_assoc] at h
    exact absurd h (fmt_not_close pr op (ht t (by simp)) _ _)
  | t :: ts, u :: us, r, r', ht, hu, hc, h => by
    simp only [List.map_cons, joinStr_cons, List.append_assoc, List.map_eq_nil_iff] at h
    have nd : ∀ (us : List TypeExpr) (x : Str),
        TermEnd ((if us = [] then [] else c!", " ++ joinStr c!", " (us.map (TypeExpr.fmt pr op))) ++ ']' :: x) := by
      intro us x c hc
      by_cases hu : us = []
      · simp [hu] at hc; exact Or.inr hc.symm
      · simp [hu] at hc; exact Or.inl hc.symm
    obtain ⟨e1, h1⟩ := (hc t (by simp)).full u _ _ (hu u (by simp)) (nd ts r) (nd us r') h
    cases ts with
    | nil =>
      cases us with
      | nil => simp only [if_true, List.nil_append, List.cons.injEq, true_and] at h1; exact ⟨SameL.nil.cons e1, h1⟩
      | cons w' ws => simp at h1
    | cons t' ts =>
      cases us with
      | nil => simp at h1
      | cons u' us =>
        rw [if_neg (by simp), if_neg (by simp)] at h1
        simp only [List.append_assoc, List.cons_append, List.nil_append, List.cons.injEq, true_and] at h1
        have ih := items_cancel pr op (t' :: ts) (u' :: us) r r' (fun x hx => ht x (by simp [List.mem_cons.1 hx]))
          (fun x hx => hu x (by simp [List.mem_cons.1 hx])) (fun x hx => hc x (by simp [List.mem_cons.1 hx])) h1
        exact ⟨ih.1.cons e1, ih.2⟩

theorem bars_cancel (pr : Char → Bool) : ∀ (ts us : List TypeExpr) (r r' : Str), ts ≠ [] → us ≠ [] → (∀ t ∈ us, t.Ok) →
    (∀ t ∈ ts, t.isUnion = false) → (∀ t ∈ us, t.isUnion = false) →
    (∀ t ∈ ts, NonU true t → ∀ b r r', b.Ok → NonU true b → Follow r → Follow r' → t.fmt pr true ++ r = b.fmt pr true ++ r' →
      Same true t b ∧ r = r') → TermEnd r → TermEnd r' →
    joinStr c!" | " (ts.map (TypeExpr.fmt pr true)) ++ r = joinStr c!" | " (us.map (TypeExpr.fmt pr true)) ++ r' →
    SameL true ts us ∧ r = r'
  | [], _, _, _, h, _, _, _, _, _, _, _, _ => absurd rfl h
  | _ :: _, [], _, _, _, h, _, _, _, _, _, _, _ => absurd rfl h
  | t :: ts, u :: us, r, r', _, _, hu, nt, nu, hc, hr, hr', h => by
    simp only [List.map_cons, joinStr_cons, List.append_assoc, List.map_eq_nil_iff] at h
    have nd : ∀ (us : List TypeExpr) (x : Str), TermEnd x →
        Follow ((if us = [] then [] else c!" | " ++ joinStr c!" | " (us.map (TypeExpr.fmt pr true))) ++ x) := by
      intro us x hx c hc
      by_cases hu : us = []
      · simp only [hu, if_true, List.nil_append] at hc; exact hx.follow c hc
      · simp [hu] at hc; exact Or.inr (Or.inr hc.symm)
    obtain ⟨e1, h1⟩ := hc t (by simp) (fun _ => nt t (by simp)) u _ _ (hu u (by simp)) (fun _ => nu u (by simp))
      (nd ts r hr) (nd us r' hr') h
    have sp : ∀ x y : Str, TermEnd x → x ≠ ' ' :: y := by
      intro x y hx e
      rcases hx ' ' (by rw [e]; rfl) with h | h <;> exact absurd h (by decide)
    cases ts with
    | nil =>
      cases us with
      | nil => simp only [if_true, List.nil_append] at h1; exact ⟨SameL.nil.cons e1, h1⟩
      | cons w' ws =>
        simp only [if_true, List.nil_append] at h1
        rw [if_neg (by simp)] at h1
        exact absurd h1 (sp _ _ hr)
    | cons t' ts =>
      cases us with
      | nil =>
        simp only [if_true, List.nil_append] at h1
        rw [if_neg (by simp)] at h1
        exact absurd h1.symm (sp _ _ hr')
      | cons u' us =>
        rw [if_neg (by simp), if_neg (by simp)] at h1
        simp only [List.append_assoc, List.cons_append, List.nil_append, List.cons.injEq, true_and] at h1
        have ih := bars_cancel pr (t' :: ts) (u' :: us) r r' (by simp) (by simp) (fun x hx => hu x (by simp [List.mem_cons.1 hx]))
          (fun x hx => nt x (by simp [List.mem_cons.1 hx])) (fun x hx => nu x (by simp [List.mem_cons.1 hx]))
          (fun x hx => hc x (by simp [List.mem_cons.1 hx])) hr hr' h1
        exact ⟨ih.1.cons e1, ih.2⟩

theorem isNone_eq {t : TypeExpr} (h : t.isNone = true) : t = .none := by
  cases t <;> simp [TypeExpr.isNone] at h ⊢

/-- The members of `Optional[T]`. -/
theorem optionalArgs_cases {ts : List TypeExpr} (h : optionalArgs ts = true) (hn : ts ≠ [.none, .none]) :
    ∃ t, t.isNone = false ∧ (ts = [.none, t] ∨ ts = [t, .none]) := by
  match ts, h, hn with
  | [a, b], h, hn =>
    simp only [optionalArgs, List.any_cons, List.any_nil, Bool.or_false, Bool.and_eq_true, Bool.or_eq_true] at h
    cases ha : a.isNone with
    | true =>
      have := isNone_eq ha
      subst this
      refine ⟨b, ?_, Or.inl rfl⟩
      cases hb : b.isNone with
      | false => rfl
      | true => rw [isNone_eq hb] at hn; exact absurd rfl hn
    | false =>
      rw [ha] at h
      rcases h.2 with h | h
      · simp at h
      · rw [isNone_eq h]; exact ⟨a, ha, Or.inr rfl⟩
  | [], h, _ => simp [optionalArgs] at h
  | [a], h, _ => simp [optionalArgs] at h
  | a :: b :: c :: ts, h, _ => simp [optionalArgs] at h

theorem optional_some {t : TypeExpr} {ts : List TypeExpr} (ht : t.isNone = false) (h : ts = [.none, t] ∨ ts = [t, .none]) :
    ts.filter (fun t => !t.isNone) = [t] := by
  have hn : TypeExpr.none.isNone = true := rfl
  rcases h with rfl | rfl <;> simp [ht, hn]

theorem sameOpt_optional {t u : TypeExpr} {ts us : List TypeExpr} (h : t.SameOpt u) (ht : ts = [.none, t] ∨ ts = [t, .none])
    (hu : us = [.none, u] ∨ us = [u, .none]) : (TypeExpr.union ts).SameOpt (.union us) := by
  rcases ht with rfl | rfl <;> rcases hu with rfl | rfl
  · refine .union rfl ?_
    intro p hp
    simp only [List.zip_cons_cons, List.zip_nil_left, List.mem_cons, List.not_mem_nil, or_false] at hp
    rcases hp with rfl | rfl
    · exact .none
    · exact h
  · exact .swapL h
  · exact .swapR h
  · refine .union rfl ?_
    intro p hp
    simp only [List.zip_cons_cons, List.zip_nil_left, List.mem_cons, List.not_mem_nil, or_false] at hp
    rcases hp with rfl | rfl
    · exact h
    · exact .none

/-- The statement about expressions with a word follows from the one about their parts; no annotations. -/
theorem plain_of_parts' (pr : Char → Bool) (op : Bool) {a : TypeExpr} (ha : a.Ok) (xa : a.isAnnotated = false)
    (parts : ∀ ts, (a = .generic a.word ts ∨ a = .union ts ∨ a = .argList ts) → ∀ t ∈ ts, Cancels pr op t) :
    NonU op a → ∀ b r r', b.Ok → b.isAnnotated = false → NonU op b → Follow r → Follow r' → a.fmt pr op ++ r = b.fmt pr op ++ r' →
    Same op a b ∧ r = r' := by
  intro na b r r' hb xb nb hr hr' h
  obtain ⟨hw, hcase⟩ := shape_cancel pr op ha hb na nb hr hr' h
  rcases hcase with ⟨i1, i2, e⟩ | ⟨i, j, i1, i2, e⟩
  · cases ha with
    | none =>
      cases hb with
      | none => exact ⟨⟨.none, fun _ => rfl⟩, e⟩
      | ellipsis => simp [TypeExpr.word] at hw
      | any => simp [TypeExpr.word] at hw
      | named h1 h2 => simp only [TypeExpr.word] at hw; rw [← hw] at h2; exact absurd h2 (by decide)
      | annotated => simp [TypeExpr.isAnnotated] at xb
      | _ => simp [TypeExpr.inner] at i2
    | ellipsis =>
      cases hb with
      | none => simp [TypeExpr.word] at hw
      | ellipsis => exact ⟨⟨.ellipsis, fun _ => rfl⟩, e⟩
      | any => simp [TypeExpr.word] at hw
      | named h1 h2 => simp only [TypeExpr.word] at hw; rw [← hw] at h1; exact absurd h1.2 (by decide)
      | annotated => simp [TypeExpr.isAnnotated] at xb
      | _ => simp [TypeExpr.inner] at i2
    | any =>
      cases hb with
      | none => simp [TypeExpr.word] at hw
      | ellipsis => simp [TypeExpr.word] at hw
      | any => exact ⟨⟨.any, fun _ => rfl⟩, e⟩
      | named h1 h2 => simp only [TypeExpr.word] at hw; rw [← hw] at h2; exact absurd h2 (by decide)
      | annotated => simp [TypeExpr.isAnnotated] at xb
      | _ => simp [TypeExpr.inner] at i2
    | named h1 h2 =>
      cases hb with
      | none => simp only [TypeExpr.word] at hw; rw [hw] at h2; exact absurd h2 (by decide)
      | ellipsis => simp only [TypeExpr.word] at hw; rw [hw] at h1; exact absurd h1.2 (by decide)
      | any => simp only [TypeExpr.word] at hw; rw [hw] at h2; exact absurd h2 (by decide)
      | named h1 h2 => simp only [TypeExpr.word] at hw; subst hw; exact ⟨⟨.named, fun _ => rfl⟩, e⟩
      | annotated => simp [TypeExpr.isAnnotated] at xb
      | _ => simp [TypeExpr.inner] at i2
    | annotated => simp [TypeExpr.isAnnotated] at xa
    | _ => simp [TypeExpr.inner] at i1
  · cases ha with
    | none => simp [TypeExpr.inner] at i1
    | ellipsis => simp [TypeExpr.inner] at i1
    | any => simp [TypeExpr.inner] at i1
    | named => simp [TypeExpr.inner] at i1
    | @generic o ts h1 h2 h3 =>
      cases hb with
      | @generic o' us h1' h2' h3' =>
        simp only [TypeExpr.inner, Option.some.injEq, fmtL_eq_map] at i1 i2
        simp only [TypeExpr.word] at hw
        subst hw; subst i1; subst i2
        obtain ⟨hs, er⟩ := items_cancel pr op ts us r r' h3 h3' (parts ts (Or.inl rfl)) e
        exact ⟨⟨.generic hs.1 hs.2.1, fun e => by rw [hs.2.2 e]⟩, er⟩
      | @union us =>
        simp only [TypeExpr.word] at hw
        rw [hw] at h2
        split at h2 <;> exact absurd h2 (by decide)
      | literal => simp only [TypeExpr.word] at hw; rw [hw] at h2; exact absurd h2 (by decide)
      | argList => simp only [TypeExpr.word] at hw; exact absurd hw h1.1
      | annotated => simp [TypeExpr.isAnnotated] at xb
      | _ => simp [TypeExpr.inner] at i2
    | @union ts h1 h2 h3 h4 =>
      have hop : op = false := by
        cases op with
        | false => rfl
        | true => exact absurd (na rfl) (by simp [TypeExpr.isUnion])
      cases hb with
      | @generic o' us h1' h2' h3' =>
        simp only [TypeExpr.word] at hw
        rw [← hw] at h2'
        split at h2' <;> exact absurd h2' (by decide)
      | @union us h1' h2' h3' h4' =>
        cases ho : optionalArgs ts with
        | true =>
          cases ho' : optionalArgs us with
          | false => simp [TypeExpr.word, ho, ho'] at hw
          | true =>
            obtain ⟨t, ht, hts⟩ := optionalArgs_cases ho h2
            obtain ⟨u, hu, hus⟩ := optionalArgs_cases ho' h2'
            simp only [TypeExpr.inner, ho, ho', if_true, Option.some.injEq, fmtSome_eq, optional_some ht hts,
              optional_some hu hus] at i1 i2
            subst i1; subst i2
            have mt : t ∈ ts := by rcases hts with rfl | rfl <;> simp
            have mu : u ∈ us := by rcases hus with rfl | rfl <;> simp
            obtain ⟨hs, er⟩ := items_cancel pr op [t] [u] r r' (by simpa using h4 t mt) (by simpa using h4' u mu)
              (by simpa using parts ts (Or.inr (Or.inl rfl)) t mt) e
            refine ⟨⟨sameOpt_optional (hs.2.1 (t, u) (by simp)) hts hus, ?_⟩, er⟩
            intro h'
            rw [hop] at h'
            exact absurd h' (by decide)
        | false =>
          cases ho' : optionalArgs us with
          | true => simp [TypeExpr.word, ho, ho'] at hw
          | false =>
            simp only [TypeExpr.inner, ho, ho', Bool.false_eq_true, if_false, Option.some.injEq, fmtL_eq_map] at i1 i2
            subst i1; subst i2
            obtain ⟨hs, er⟩ := items_cancel pr op ts us r r' h4 h4' (parts ts (Or.inr (Or.inl rfl))) e
            exact ⟨⟨.union hs.1 hs.2.1, fun e => by rw [hs.2.2 e]⟩, er⟩
      | literal => simp only [TypeExpr.word] at hw; split at hw <;> exact absurd hw (by decide)
      | argList => simp only [TypeExpr.word] at hw; split at hw <;> exact absurd hw (by decide)
      | annotated => simp [TypeExpr.isAnnotated] at xb
      | _ => simp [TypeExpr.inner] at i2
    | annotated => simp [TypeExpr.isAnnotated] at xa
    | @literal vs h1 =>
      cases hb with
      | @generic o' us h1' h2' h3' => simp only [TypeExpr.word] at hw; rw [← hw] at h2'; exact absurd h2' (by decide)
      | union => simp only [TypeExpr.word] at hw; split at hw <;> exact absurd hw (by decide)
      | @literal ws h1' =>
        simp only [TypeExpr.inner, Option.some.injEq] at i1 i2
        subst i1; subst i2
        obtain ⟨e1, e2⟩ := lits_cancel pr vs ws r r' h1 h1' e
        subst e1
        exact ⟨⟨.literal, fun _ => rfl⟩, e2⟩
      | argList => simp [TypeExpr.word] at hw
      | annotated => simp [TypeExpr.isAnnotated] at xb
      | _ => simp [TypeExpr.inner] at i2
    | @argList ts h1 =>
      cases hb with
      | @generic o' us h1' h2' h3' => simp only [TypeExpr.word] at hw; exact absurd hw.symm h1'.1
      | union => simp only [TypeExpr.word] at hw; split at hw <;> exact absurd hw (by decide)
      | literal => simp [TypeExpr.word] at hw
      | @argList us h1' =>
        simp only [TypeExpr.inner, Option.some.injEq, fmtL_eq_map] at i1 i2
        subst i1; subst i2
        obtain ⟨hs, er⟩ := items_cancel pr op ts us r r' h1 h1' (parts ts (Or.inr (Or.inr rfl))) e
        exact ⟨⟨.argList hs.1 hs.2.1, fun e => by rw [hs.2.2 e]⟩, er⟩
      | annotated => simp [TypeExpr.isAnnotated] at xb
      | _ => simp [TypeExpr.inner] at i2

theorem ann_inner_none (pr : Char → Bool) (op : Bool) {t : TypeExpr} {ms : List Annotation} (ht : TypedAnnotations ms)
    (h : (TypeExpr.annotated t ms).inner pr op = Option.none) :
    ∃ a ∈ auxTypes, t = .named a.base ∧ ms = a.metas ∧ (TypeExpr.annotated t ms).word = a.name := by
  simp only [TypeExpr.inner] at h
  cases he : auxExact t ms with
  | some a =>
    obtain ⟨h1, h2, h3⟩ := auxExact_some ht he
    exact ⟨a, h1, h2, h3, by simp only [TypeExpr.word, he]⟩
  | none => rw [he] at h; cases hw : auxWithin t ms <;> rw [hw] at h <;> simp at h

theorem ann_inner_some (pr : Char → Bool) (op : Bool) {t : TypeExpr} {ms : List Annotation} (ht : TypedAnnotations ms)
    (ho : OrderlyAnnotations t ms) {i : Str} (h : (TypeExpr.annotated t ms).inner pr op = some i) :
    (TypeExpr.annotated t ms).word = c!"Annotated" ∧
    ((∃ a ∈ auxTypes, ∃ rest, t = .named a.base ∧ ms = a.metas ++ rest ∧
        i = a.name ++ (c!", " ++ joinStr c!", " (rest.map (Annotation.repr pr)))) ∨
      i = t.head.fmt pr op ++ (c!", " ++ joinStr c!", " (ms.map (Annotation.repr pr)))) := by
  simp only [TypeExpr.inner] at h
  cases he : auxExact t ms with
  | some a => rw [he] at h; simp at h
  | none =>
    refine ⟨by simp only [TypeExpr.word, he], ?_⟩
    cases hw : auxWithin t ms with
    | some a =>
      obtain ⟨h1, h2, h3⟩ := auxWithin_some ht hw
      obtain ⟨rest, h4, h5⟩ := ho a h1 h2 h3
      have hf : ms.filter (fun m => !m.isIn a.metas) = rest := by rw [h4]; rw [h4] at ht; exact aux_rest h1 ht h5
      rw [he, hw] at h
      simp only [Option.some.injEq, hf] at h
      exact Or.inl ⟨a, h1, rest, h2, h4, h.symm⟩
    | none =>
      rw [he, hw] at h
      simp only [Option.some.injEq] at h
      exact Or.inr h.symm

theorem word_not_aux (pr : Char → Bool) (op : Bool) {b : TypeExpr} (hb : b.Ok) (xb : b.isAnnotated = false)
    (hi : b.inner pr op = Option.none) {a : AuxType} (ha : a ∈ auxTypes) : b.word ≠ a.name := by
  have h1 := auxTypes_reserved a ha
  have h2 := auxName_isName ha
  have h3 : ∀ a ∈ auxTypes, c!"None" ≠ a.name ∧ c!"Any" ≠ a.name := by decide +kernel
  intro e
  cases hb with
  | none => exact (h3 a ha).1 e
  | any => exact (h3 a ha).2 e
  | ellipsis => simp only [TypeExpr.word] at e; rw [← e] at h2; exact absurd h2.2 (by decide)
  | named _ hn => simp only [TypeExpr.word] at e; rw [e] at hn; exact hn h1.1
  | annotated => simp [TypeExpr.isAnnotated] at xb
  | _ => simp [TypeExpr.inner] at hi

theorem word_not_annotated {b : TypeExpr} (hb : b.Ok) (xb : b.isAnnotated = false) (pr : Char → Bool) (op : Bool) {i : Str}
    (hi : b.inner pr op = some i) : b.word ≠ c!"Annotated" := by
  intro e
  cases hb with
  | generic _ h2 => simp only [TypeExpr.word] at e; rw [e] at h2; exact absurd h2 (by decide)
  | union => simp only [TypeExpr.word] at e; split at e <;> exact absurd e (by decide)
  | literal => simp only [TypeExpr.word] at e; exact absurd e (by decide)
  | argList => simp only [TypeExpr.word] at e; exact absurd e (by decide)
  | annotated => simp [TypeExpr.isAnnotated] at xb
  | _ => simp [TypeExpr.inner] at hi

/-- No type without annotations is written like an auxiliary type. -/
theorem fmt_not_aux (pr : Char → Bool) (op : Bool) {b : TypeExpr} (hb : b.Ok) (xb : b.isAnnotated = false) {a : AuxType}
    (ha : a ∈ auxTypes) {r r' : Str} (hr : TermEnd r) (hr' : TermEnd r') : b.fmt pr op ++ r ≠ a.name ++ r' := by
  have plain : ∀ {e : TypeExpr}, e.Ok → NonU op e → ∀ x, Follow x → e.fmt pr op ++ x = a.name ++ r' →
      e.word = a.name ∧ e.inner pr op = Option.none ∧ x = r' := by
    intro e he hn x hx h
    rw [fmt_shape pr op e hn, List.append_assoc] at h
    have nd : ∀ (o : Option Str) (x : Str), Follow x →
        ∀ c, ((match o with | Option.none => [] | some i => '[' :: (i ++ c!"]")) ++ x).head? = some c → isWord c = false := by
      intro o x hx c hc
      cases o with
      | none => rcases hx c (by simpa using hc) with rfl | rfl | rfl <;> decide
      | some i => simp at hc; subst hc; decide
    obtain ⟨e1, h1⟩ := word_cancel (word_isWord he) (isWord_of_name (auxName_isName ha)) (nd _ x hx) (nd none r' hr'.follow) h
    cases hi : e.inner pr op with
    | none => rw [hi] at h1; exact ⟨e1, rfl, by simpa using h1⟩
    | some i =>
      rw [hi] at h1
      simp only [List.nil_append] at h1
      rcases hr' '[' (by rw [← h1]; rfl) with h | h <;> exact absurd h (by decide)
  intro h
  cases hu : b.isUnion with
  | false =>
    obtain ⟨h1, h2, _⟩ := plain hb (fun _ => hu) r hr.follow h
    exact word_not_aux pr op hb xb h2 ha h1
  | true =>
    cases op with
    | false =>
      obtain ⟨h1, h2, _⟩ := plain hb (by intro h; simp at h) r hr.follow h
      exact word_not_aux pr false hb xb h2 ha h1
    | true =>
      cases hb with
      | @union ts h2 h3 h4 h5 =>
        match ts, h2 with
        | t :: u :: ts, _ =>
          simp only [TypeExpr.fmt, if_true, TypeExpr.fmtL, joinStr, List.append_assoc] at h
          obtain ⟨_, _, e⟩ := plain (h5 t (by simp)) (fun _ => h4 t (by simp)) _ (by
            intro c hc; simp at hc; exact Or.inr (Or.inr hc.symm)) h
          rcases hr' ' ' (by rw [← e]; rfl) with h | h <;> exact absurd h (by decide)
        | [], h2 => simp at h2
        | [_], h2 => simp at h2
      | _ => simp [TypeExpr.isUnion] at hu

theorem head_ok {t : TypeExpr} (h : t.Ok) : t.head.Ok := by
  simp only [TypeExpr.head]
  cases t.isNone with
  | true => exact .named ⟨by decide, by decide⟩ (by decide)
  | false => exact h

theorem head_annotated {t : TypeExpr} (h : t.isAnnotated = false) : t.head.isAnnotated = false := by
  simp only [TypeExpr.head]
  cases t.isNone with
  | true => rfl
  | false => exact h

theorem head_same {op : Bool} {t u : TypeExpr} (ht : t ≠ .named c!"NoneType") (hu : u ≠ .named c!"NoneType")
    (h : Same op t.head u.head) : Same op t u := by
  have one : ∀ {x : TypeExpr}, (TypeExpr.named c!"NoneType").SameOpt x → x = .named c!"NoneType" := by
    intro x hx; cases hx; rfl
  have two : ∀ {x : TypeExpr}, x.SameOpt (TypeExpr.named c!"NoneType") → x = .named c!"NoneType" := by
    intro x hx; cases hx; rfl
  simp only [TypeExpr.head] at h
  cases e1 : t.isNone with
  | true =>
    cases e2 : u.isNone with
    | true => rw [isNone_eq e1, isNone_eq e2]; exact ⟨.none, fun _ => rfl⟩
    | false => rw [e1, e2] at h; exact absurd (one h.1) hu
  | false =>
    cases e2 : u.isNone with
    | true => rw [e1, e2] at h; exact absurd (two h.1) ht
    | false => rw [e1, e2] at h; exact h

/-- The statement about expressions with a word follows from the one about their parts. -/
theorem plain_of_parts (pr : Char → Bool) (op : Bool) {a : TypeExpr} (ha : a.Ok)
    (parts : ∀ ts, (a = .generic a.word ts ∨ a = .union ts ∨ a = .argList ts) → ∀ t ∈ ts, Cancels pr op t)
    (head : ∀ t ms, a = .annotated t ms → Cancels pr op t.head) :
    NonU op a → ∀ b r r', b.Ok → NonU op b → Follow r → Follow r' → a.fmt pr op ++ r = b.fmt pr op ++ r' →
    Same op a b ∧ r = r' := by
  intro na b r r' hb nb hr hr' h
  cases xa : a.isAnnotated with
  | false =>
    cases xb : b.isAnnotated with
    | false => exact plain_of_parts' pr op ha xa parts na b r r' hb xb nb hr hr' h
    | true =>
      obtain ⟨hw, hcase⟩ := shape_cancel pr op ha hb na nb hr hr' h
      have hb' := hb
      cases hb with
      | @annotated u ns _ _ _ _ _ ht ho =>
        rcases hcase with ⟨i1, i2, e⟩ | ⟨i, j, i1, i2, e⟩
        · obtain ⟨x, hx, _, _, e'⟩ := ann_inner_none pr op ht i2
          exact absurd (hw.trans e') (word_not_aux pr op ha xa i1 hx)
        · exact absurd (hw.trans (ann_inner_some pr op ht ho i2).1) (word_not_annotated ha xa pr op i1)
      | _ => simp [TypeExpr.isAnnotated] at xb
  | true =>
    obtain ⟨hw, hcase⟩ := shape_cancel pr op ha hb na nb hr hr' h
    cases ha with
    | @annotated t ms ht1 ht2 _ ht4 ht5 ht6 ht7 =>
      cases xb : b.isAnnotated with
      | false =>
        rcases hcase with ⟨i1, i2, e⟩ | ⟨i, j, i1, i2, e⟩
        · obtain ⟨x, hx, _, _, e'⟩ := ann_inner_none pr op ht6 i1
          exact absurd (hw.symm.trans e') (word_not_aux pr op hb xb i2 hx)
        · exact absurd (hw.symm.trans (ann_inner_some pr op ht6 ht7 i1).1) (word_not_annotated hb xb pr op i2)
      | true =>
        cases hb with
        | @annotated u ns hu1 hu2 _ hu4 hu5 hu6 hu7 =>
          rcases hcase with ⟨i1, i2, e⟩ | ⟨i, j, i1, i2, e⟩
          · obtain ⟨x, hx, e1, e2, e3⟩ := ann_inner_none pr op ht6 i1
            obtain ⟨y, hy, e1', e2', e3'⟩ := ann_inner_none pr op hu6 i2
            have := auxTypes_name_inj x hx y hy (by rw [← e3, ← e3', hw])
            subst this
            rw [e1, e1', e2, e2']
            exact ⟨⟨.annotated .named, fun _ => rfl⟩, e⟩
          · have te : ∀ x : Str, TermEnd (c!", " ++ x) := by intro x c hc; simp at hc; exact Or.inl hc.symm
            have sub : ∀ {m : Annotation} {xs ys : List Annotation}, m ∈ ys → m ∈ xs ++ ys := fun h => by simp [h]
            rcases (ann_inner_some pr op ht6 ht7 i1).2 with ⟨x, hx, rest, e1, e2, rfl⟩ | rfl <;>
              rcases (ann_inner_some pr op hu6 hu7 i2).2 with ⟨y, hy, rest', e1', e2', rfl⟩ | rfl <;>
              simp only [List.append_assoc] at e
            · have nc : ∀ x : Str, ∀ c, (c!", " ++ x).head? = some c → isWord c = false := by
                intro x c hc; simp at hc; subst hc; decide
              obtain ⟨f1, f2⟩ := word_cancel (isWord_of_name (auxName_isName hx)) (isWord_of_name (auxName_isName hy))
                (nc _) (nc _) e
              have := auxTypes_name_inj x hx y hy f1
              subst this
              obtain ⟨g1, g2⟩ := annotations_cancel pr rest rest' r r' (fun v hv => ht5 v (by rw [e2]; exact sub hv))
                (fun v hv => hu5 v (by rw [e2']; exact sub hv)) (by simpa using f2)
              rw [e1, e1', e2, e2', g1]
              exact ⟨⟨.annotated .named, fun _ => rfl⟩, g2⟩
            · exact absurd e.symm (fmt_not_aux pr op (head_ok hu1) (head_annotated hu2) hx (te _) (te _))
            · exact absurd e (fmt_not_aux pr op (head_ok ht1) (head_annotated ht2) hy (te _) (te _))
            · obtain ⟨f1, f2⟩ := (head t ms rfl).full u.head _ _ (head_ok hu1) (te _) (te _) e
              obtain ⟨g1, g2⟩ := annotations_cancel pr ms ns r r' ht5 hu5 (by simpa using f2)
              have hs := head_same ht4 hu4 f1
              subst g1
              exact ⟨⟨.annotated hs.1, fun e => by rw [hs.2 e]⟩, g2⟩
        | _ => simp [TypeExpr.isAnnotated] at xb
    | _ => simp [TypeExpr.isAnnotated] at xa

/-- The members of a bar-separated text. -/
def barMembers : TypeExpr → List TypeExpr
  | .union ts => ts
  | e => [e]

theorem fmt_bars (pr : Char → Bool) (e : TypeExpr) : e.fmt pr true = joinStr c!" | " ((barMembers e).map (TypeExpr.fmt pr true)) := by
  cases e with
  | union ts => simp [TypeExpr.fmt, barMembers, fmtL_eq_map]
  | _ => simp [barMembers, joinStr]

theorem barMembers_ne {e : TypeExpr} (h : e.Ok) : barMembers e ≠ [] := by
  cases h with
  | @union ts h1 => intro e; simp only [barMembers] at e; rw [e] at h1; simp at h1
  | _ => simp [barMembers]

theorem barMembers_plain {e : TypeExpr} (h : e.Ok) : ∀ t ∈ barMembers e, t.isUnion = false ∧ t.Ok := by
  cases h with
  | union h1 h2 h3 h4 => intro t ht; exact ⟨h3 t ht, h4 t ht⟩
  | none => intro t ht; simp only [barMembers, List.mem_singleton] at ht; subst ht; exact ⟨rfl, .none⟩
  | ellipsis => intro t ht; simp only [barMembers, List.mem_singleton] at ht; subst ht; exact ⟨rfl, .ellipsis⟩
  | any => intro t ht; simp only [barMembers, List.mem_singleton] at ht; subst ht; exact ⟨rfl, .any⟩
  | named h1 h2 => intro t ht; simp only [barMembers, List.mem_singleton] at ht; subst ht; exact ⟨rfl, .named h1 h2⟩
  | generic h1 h2 h3 => intro t ht; simp only [barMembers, List.mem_singleton] at ht; subst ht; exact ⟨rfl, .generic h1 h2 h3⟩
  | literal h1 => intro t ht; simp only [barMembers, List.mem_singleton] at ht; subst ht; exact ⟨rfl, .literal h1⟩
  | argList h1 => intro t ht; simp only [barMembers, List.mem_singleton] at ht; subst ht; exact ⟨rfl, .argList h1⟩
  | annotated h1 h2 h3 h4 h5 h6 h7 =>
    intro t ht; simp only [barMembers, List.mem_singleton] at ht; subst ht; exact ⟨rfl, .annotated h1 h2 h3 h4 h5 h6 h7⟩

theorem barMembers_inj {a b : TypeExpr} (ha : a.Ok) (hb : b.Ok) (h : barMembers a = barMembers b) : a = b := by
  have one : ∀ {a b : TypeExpr}, a.Ok → a.isUnion = true → b.isUnion = false → barMembers a ≠ barMembers b := by
    intro a b ha h1 h2 e
    cases ha with
    | @union ts hl =>
      have : barMembers b = [b] := by cases b <;> simp [TypeExpr.isUnion] at h2 <;> rfl
      rw [this] at e
      simp only [barMembers] at e
      rw [e] at hl
      simp at hl
    | _ => simp [TypeExpr.isUnion] at h1
  cases h1 : a.isUnion with
  | true =>
    cases h2 : b.isUnion with
    | true =>
      cases a <;> simp [TypeExpr.isUnion] at h1
      cases b <;> simp [TypeExpr.isUnion] at h2
      simp only [barMembers] at h
      rw [h]
    | false => exact absurd h (one ha h1 h2)
  | false =>
    cases h2 : b.isUnion with
    | true => exact absurd h.symm (one hb h2 h1)
    | false =>
      have e1 : barMembers a = [a] := by cases a <;> simp [TypeExpr.isUnion] at h1 <;> rfl
      have e2 : barMembers b = [b] := by cases b <;> simp [TypeExpr.isUnion] at h2 <;> rfl
      rw [e1, e2] at h
      simpa using h

mutual

theorem sameOpt_refl : ∀ (a : TypeExpr), a.SameOpt a
  | .none => .none
  | .ellipsis => .ellipsis
  | .any => .any
  | .named _ => .named
  | .literal _ => .literal
  | .generic _ ts => .generic rfl (sameOpt_reflL ts)
  | .union ts => .union rfl (sameOpt_reflL ts)
  | .argList ts => .argList rfl (sameOpt_reflL ts)
  | .annotated t _ => .annotated (sameOpt_refl t)

theorem sameOpt_reflL : ∀ (ts : List TypeExpr), ∀ p ∈ ts.zip ts, p.1.SameOpt p.2
  | [], p, h => absurd h (by simp)
  | t :: ts, p, h => by
    have ih1 := sameOpt_refl t
    have ih2 := sameOpt_reflL ts
    rcases List.mem_cons.1 h with rfl | h
    · exact ih1
    · exact ih2 p h

end

theorem cancels_of_parts (pr : Char → Bool) (op : Bool) {a : TypeExpr} (ha : a.Ok)
    (parts : ∀ ts, (a = .generic a.word ts ∨ a = .union ts ∨ a = .argList ts) → ∀ t ∈ ts, Cancels pr op t)
    (head : ∀ t ms, a = .annotated t ms → Cancels pr op t.head) :
    Cancels pr op a := by
  have hp := plain_of_parts pr op ha parts head
  refine ⟨hp, ?_⟩
  intro b r r' hb hr hr' h
  cases op with
  | false => exact hp (by intro h; simp at h) b r r' hb (by intro h; simp at h) hr.follow hr'.follow h
  | true =>
    have hmem : ∀ t ∈ barMembers a, Cancels pr true t ∨ (t = a ∧ a.isUnion = false) := by
      cases a with
      | union ts => intro t ht; exact Or.inl (parts ts (Or.inr (Or.inl rfl)) t ht)
      | _ => intro t ht; simp only [barMembers, List.mem_singleton] at ht; exact Or.inr ⟨ht, rfl⟩
    have hc : ∀ t ∈ barMembers a, (NonU true t → ∀ b r r', b.Ok → NonU true b → Follow r → Follow r' →
        t.fmt pr true ++ r = b.fmt pr true ++ r' → Same true t b ∧ r = r') := by
      intro t ht
      rcases hmem t ht with h | ⟨rfl, _⟩
      · exact h.plain
      · exact hp
    rw [fmt_bars pr a, fmt_bars pr b] at h
    obtain ⟨hs, er⟩ := bars_cancel pr (barMembers a) (barMembers b) r r' (barMembers_ne ha) (barMembers_ne hb)
      (fun t ht => (barMembers_plain hb t ht).2) (fun t ht => (barMembers_plain ha t ht).1)
      (fun t ht => (barMembers_plain hb t ht).1) hc hr hr' h
    have := barMembers_inj ha hb (hs.2.2 rfl)
    subst this
    exact ⟨⟨sameOpt_refl a, fun _ => rfl⟩, er⟩

mutual

theorem fmt_cancels (pr : Char → Bool) (op : Bool) : ∀ (a : TypeExpr), a.Ok → Cancels pr op a
  | .none, h => cancels_of_parts pr op h (by rintro ts (e | e | e) <;> simp at e) (by intro t ms e; simp at e)
  | .ellipsis, h => cancels_of_parts pr op h (by rintro ts (e | e | e) <;> simp at e) (by intro t ms e; simp at e)
  | .any, h => cancels_of_parts pr op h (by rintro ts (e | e | e) <;> simp at e) (by intro t ms e; simp at e)
  | .named _, h => cancels_of_parts pr op h (by rintro ts (e | e | e) <;> simp at e) (by intro t ms e; simp at e)
  | .literal _, h => cancels_of_parts pr op h (by rintro ts (e | e | e) <;> simp at e) (by intro t ms e; simp at e)
  | .generic o us, h => by
    have ih := fmt_cancelsL pr op us
    refine cancels_of_parts pr op h ?_ (by intro t ms e; simp at e)
    cases h with
    | generic _ _ h =>
    rintro ts (e | e | e)
    · simp only [TypeExpr.generic.injEq] at e
      rw [← e.2]
      exact ih h
    · simp at e
    · simp at e
  | .union us, h => by
    have ih := fmt_cancelsL pr op us
    refine cancels_of_parts pr op h ?_ (by intro t ms e; simp at e)
    cases h with
    | union _ _ _ h =>
    rintro ts (e | e | e)
    · simp at e
    · simp only [TypeExpr.union.injEq] at e
      rw [← e]
      exact ih h
    · simp at e
  | .argList us, h => by
    have ih := fmt_cancelsL pr op us
    refine cancels_of_parts pr op h ?_ (by intro t ms e; simp at e)
    cases h with
    | argList h =>
    rintro ts (e | e | e)
    · simp at e
    · simp at e
    · simp only [TypeExpr.argList.injEq] at e
      rw [← e]
      exact ih h
  | .annotated t ms, h => by
    have ih := fmt_cancels pr op t
    refine cancels_of_parts pr op h (by rintro ts (e | e | e) <;> simp at e) ?_
    intro t' ms' e
    simp only [TypeExpr.annotated.injEq] at e
    rw [← e.1]
    cases h with
    | annotated h =>
    simp only [TypeExpr.head]
    cases t.isNone with
    | true =>
      exact cancels_of_parts pr op (.named ⟨by decide, by decide⟩ (by decide)) (by rintro ts (e | e | e) <;> simp at e)
        (by intro t ms e; simp at e)
    | false => exact ih h

theorem fmt_cancelsL (pr : Char → Bool) (op : Bool) : ∀ (ts : List TypeExpr), (∀ t ∈ ts, t.Ok) → ∀ t ∈ ts, Cancels pr op t
  | [], _, t, h => absurd h (by simp)
  | u :: us, hok, t, h => by
    have ih1 := fmt_cancels pr op u
    have ih2 := fmt_cancelsL pr op us
    rcases List.mem_cons.1 h with rfl | h
    · exact ih1 (hok _ (by simp))
    · exact ih2 (fun t ht => hok t (by simp [ht])) t h

end

/-! ### The text does not depend on the order of `Optional` -/

theorem TypeExpr.SameOpt.isNone_eq {a b : TypeExpr} (h : a.SameOpt b) : a.isNone = b.isNone := by cases h <;> rfl

theorem TypeExpr.SameOpt.isClass_eq {a b : TypeExpr} (h : a.SameOpt b) (base : Str) : a.isClass base = b.isClass base := by
  cases h <;> rfl

theorem zip_map_eq {f g : TypeExpr → β} : ∀ {ts us : List TypeExpr}, ts.length = us.length →
    (∀ p ∈ ts.zip us, f p.1 = g p.2) → ts.map f = us.map g
  | [], [], _, _ => rfl
  | [], _ :: _, h, _ => by simp at h
  | _ :: _, [], h, _ => by simp at h
  | t :: ts, u :: us, h, hp => by
    simp only [List.map_cons, List.cons.injEq]
    exact ⟨hp (t, u) (by simp), zip_map_eq (by simpa using h) (fun p hq => hp p (by simp [hq]))⟩

theorem zip_filter_map_eq {f : TypeExpr → β} {g : TypeExpr → Bool} : ∀ {ts us : List TypeExpr}, ts.length = us.length →
    (∀ p ∈ ts.zip us, f p.1 = f p.2) → (∀ p ∈ ts.zip us, g p.1 = g p.2) → (ts.filter g).map f = (us.filter g).map f
  | [], [], _, _, _ => rfl
  | [], _ :: _, h, _, _ => by simp at h
  | _ :: _, [], h, _, _ => by simp at h
  | t :: ts, u :: us, h, hp, hg => by
    have ih := zip_filter_map_eq (f := f) (g := g) (ts := ts) (us := us) (by simpa using h) (fun p hq => hp p (by simp [hq]))
      (fun p hq => hg p (by simp [hq]))
    have h1 := hp (t, u) (by simp)
    have h2 := hg (t, u) (by simp)
    simp only at h1 h2
    cases hgu : g u <;> simp [List.filter_cons, h2, hgu, h1, ih]

theorem zip_any_eq {g : TypeExpr → Bool} : ∀ {ts us : List TypeExpr}, ts.length = us.length →
    (∀ p ∈ ts.zip us, g p.1 = g p.2) → ts.any g = us.any g
  | [], [], _, _ => rfl
  | [], _ :: _, h, _ => by simp at h
  | _ :: _, [], h, _ => by simp at h
  | t :: ts, u :: us, h, hp => by
    have h1 := hp (t, u) (by simp)
    simp only at h1
    simp only [List.any_cons, h1, zip_any_eq (g := g) (ts := ts) (us := us) (by simpa using h) (fun p hq => hp p (by simp [hq]))]

theorem fmt_sameOpt (pr : Char → Bool) {a b : TypeExpr} (h : a.SameOpt b) : a.fmt pr false = b.fmt pr false := by
  have hn : TypeExpr.none.isNone = true := rfl
  induction h with
  | none => rfl
  | ellipsis => rfl
  | any => rfl
  | named => rfl
  | literal => rfl
  | generic hl _ ih => simp only [TypeExpr.fmt, fmtL_eq_map, zip_map_eq hl ih]
  | argList hl _ ih => simp only [TypeExpr.fmt, fmtL_eq_map, zip_map_eq hl ih]
  | annotated hs ih =>
    simp only [TypeExpr.fmt, annotatedStr, auxExact, auxWithin, hs.isClass_eq, hs.isNone_eq, ih]
  | @union ts us hl hs ih =>
    have hnone : ∀ p ∈ ts.zip us, p.1.isNone = p.2.isNone := fun p hp => (hs p hp).isNone_eq
    have ho : optionalArgs ts = optionalArgs us := by
      simp only [optionalArgs, hl, zip_any_eq hl hnone]
    simp only [TypeExpr.fmt, fmtL_eq_map, fmtSome_eq, zip_map_eq hl ih, ho]
    rw [zip_filter_map_eq (g := fun t => !t.isNone) hl ih (fun p hp => by simp only [hnone p hp])]
  | @swapL t u hs ih =>
    have := hs.isNone_eq
    cases h : t.isNone <;> rw [h] at this <;>
      simp [TypeExpr.fmt, fmtSome_eq, optionalArgs, List.filter_cons, hn, h, ← this, ih]
  | @swapR t u hs ih =>
    have := hs.isNone_eq
    cases h : t.isNone <;> rw [h] at this <;>
      simp [TypeExpr.fmt, fmtSome_eq, optionalArgs, List.filter_cons, hn, h, ← this, ih]

end Verif
