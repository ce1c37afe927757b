import Verif.Spec.ShortName
import Verif.Lemmas.TypeName
/-!
# Lemmas about short names of types
-/
namespace Verif

/-! ### Words joined by two underscores -/

theorem PlainName.ne_dunder {c d : Char} {w : Str} (h : PlainName (c :: d :: w)) : ¬ (c = '_' ∧ d = '_') := by
  rintro ⟨rfl, rfl⟩
  exact h.2.1 ⟨[], w, rfl⟩

theorem PlainName.tail {c d : Char} {w : Str} (h : PlainName (c :: d :: w)) : PlainName (d :: w) := by
  refine ⟨by simp, ?_, ?_⟩
  · rintro ⟨x, y, e⟩
    exact h.2.1 ⟨c :: x, y, by rw [← e]; simp⟩
  · have := h.2.2
    rwa [List.getLast?_cons_cons] at this

theorem not_dunder_prefix {w r r' : Str} (hw : PlainName w) : w ++ r ≠ '_' :: '_' :: r' := by
  intro e
  match w, hw with
  | [], hw => exact hw.1 rfl
  | [c], hw =>
    injection e with e1 e2
    subst e1
    exact hw.2.2 rfl
  | c :: d :: w, hw =>
    injection e with e1 e2
    injection e2 with e2 e3
    exact hw.ne_dunder ⟨e1, e2⟩

theorem dunder_cancel : ∀ {w w' r r' : Str}, PlainName w → PlainName w' → w ++ '_' :: '_' :: r = w' ++ '_' :: '_' :: r' → w = w' ∧ r = r'
  | [], _, _, _, h, _, _ => absurd rfl h.1
  | _ :: _, [], _, _, _, h, _ => absurd rfl h.1
  | [c], [d], r, r', _, _, e => by
    simp only [List.cons_append, List.nil_append, List.cons.injEq, true_and] at e
    exact ⟨by rw [e.1], e.2⟩
  | [c], d :: d' :: w', r, r', _, h, e => by
    injection e with e1 e2
    exact absurd e2.symm (not_dunder_prefix h.tail)
  | c :: c' :: w, [d], r, r', h, _, e => by
    injection e with e1 e2
    exact absurd e2 (not_dunder_prefix h.tail)
  | c :: c' :: w, d :: d' :: w', r, r', h, h', e => by
    injection e with e1 e2
    obtain ⟨k1, k2⟩ := dunder_cancel h.tail h'.tail e2
    exact ⟨by rw [e1, k1], k2⟩

theorem plain_ne_join {w w' r : Str} (h : PlainName w) : w ≠ w' ++ '_' :: '_' :: r := by
  intro e
  exact h.2.1 ⟨w', r, by rw [e]; simp⟩

theorem joinWords_inj : ∀ {ws ws' : List Str}, ws ≠ [] → ws' ≠ [] → (∀ w ∈ ws, PlainName w) → (∀ w ∈ ws', PlainName w) →
    joinStr c!"__" ws = joinStr c!"__" ws' → ws = ws'
  | [], _, h, _, _, _, _ => absurd rfl h
  | _ :: _, [], _, h, _, _, _ => absurd rfl h
  | [w], [w'], _, _, _, _, e => by simpa [joinStr] using e
  | [w], w' :: x :: xs, _, _, h, _, e => absurd e (plain_ne_join (h w (by simp)))
  | w :: x :: xs, [w'], _, _, _, h, e => absurd e.symm (plain_ne_join (h w' (by simp)))
  | w :: x :: xs, w' :: x' :: xs', _, _, h, h', e => by
    obtain ⟨e1, e2⟩ := dunder_cancel (h w (by simp)) (h' w' (by simp)) e
    have := joinWords_inj (ws := x :: xs) (ws' := x' :: xs') (by simp) (by simp) (fun y hy => h y (by simp [List.mem_cons.1 hy]))
      (fun y hy => h' y (by simp [List.mem_cons.1 hy])) e2
    rw [e1, this]

/-- A decidable form of `PlainName`. -/
def plainNameB : Str → Bool
  | [] => false
  | [c] => c != '_'
  | c :: d :: w => !(c == '_' && d == '_') && plainNameB (d :: w)

theorem plainNameB_plain : ∀ {n : Str}, plainNameB n = true → PlainName n
  | [], h => by simp [plainNameB] at h
  | [c], h => by
    simp only [plainNameB, bne_iff_ne] at h
    refine ⟨by simp, ?_, by simpa using h⟩
    rintro ⟨x, y, e⟩
    have := congrArg List.length e
    simp only [List.length_append, List.length_cons, List.length_nil] at this
    omega
  | c :: d :: w, h => by
    simp only [plainNameB, Bool.and_eq_true, Bool.not_eq_true', Bool.and_eq_false_iff, beq_eq_false_iff_ne] at h
    have ih := plainNameB_plain h.2
    refine ⟨by simp, ?_, by rw [List.getLast?_cons_cons]; exact ih.2.2⟩
    rintro ⟨x, y, e⟩
    cases x with
    | nil =>
      injection e with e1 e2
      injection e2 with e2 e3
      rcases h.1 with h | h
      · exact h e1.symm
      · exact h e2.symm
    | cons a x =>
      injection e with e1 e2
      exact ih.2.1 ⟨x, y, e2⟩

theorem auxTypes_plain : ∀ a ∈ auxTypes, plainNameB a.name = true ∧ a.name ≠ c!"NoneType" ∧ a.name ≠ c!"Any" := by decide +kernel

/-! ### Names of simple types -/

theorem isAux_iff {t : TypeExpr} {ms : List Annotation} : isAux t ms = true ↔ ∃ a ∈ auxTypes, t = .named a.base ∧ ms = a.metas := by
  simp [isAux, isClass_iff]

/-- What a short name says about the type. -/
inductive NameOf : TypeExpr → Str → Prop
  | aux {a} : a ∈ auxTypes → NameOf (.annotated (.named a.base) a.metas) a.name
  | none : NameOf .none c!"NoneType"
  | any : NameOf .any c!"Any"
  | named {n} : PlainName n → n ∉ reservedNames → n ≠ c!"NoneType" → NameOf (.named n) n

theorem NameOf.plain {t : TypeExpr} {n : Str} (h : NameOf t n) : PlainName n := by
  cases h with
  | aux ha => exact plainNameB_plain (auxTypes_plain _ ha).1
  | none => exact plainNameB_plain (by decide)
  | any => exact plainNameB_plain (by decide)
  | named h => exact h

theorem NameOf.inj {t u : TypeExpr} {n : Str} (ht : NameOf t n) (hu : NameOf u n) : t = u := by
  cases ht with
  | aux ha =>
    rename_i a
    generalize hn : a.name = n at hu
    cases hu with
    | aux hb => rw [auxTypes_name_inj _ ha _ hb hn]
    | none => exact absurd hn (auxTypes_plain _ ha).2.1
    | any => exact absurd hn (auxTypes_plain _ ha).2.2
    | named _ h => rw [← hn] at h; exact absurd (auxTypes_reserved _ ha).1 h
  | none =>
    generalize hn : c!"NoneType" = n at hu
    cases hu with
    | aux hb => exact absurd hn.symm (auxTypes_plain _ hb).2.1
    | none => rfl
    | any => exact absurd hn (by decide)
    | named _ _ h => exact absurd hn.symm h
  | any =>
    generalize hn : c!"Any" = n at hu
    cases hu with
    | aux hb => exact absurd hn.symm (auxTypes_plain _ hb).2.2
    | none => exact absurd hn (by decide)
    | any => rfl
    | named _ h => rw [← hn] at h; exact absurd h (by decide)
  | named h1 h2 h3 =>
    cases hu with
    | aux hb => exact absurd (auxTypes_reserved _ hb).1 h2
    | none => exact absurd rfl h3
    | any => exact absurd h2 (by decide)
    | named => rfl

theorem shortName_plain {t : TypeExpr} (h : t.PlainNames) (hx : t.isAnnotated = false) {n : Str} (e : t.shortName = .ok n) :
    NameOf t n := by
  cases h with
  | none => simp only [TypeExpr.shortName] at e; injection e with e; subst e; exact .none
  | any => simp only [TypeExpr.shortName] at e; injection e with e; subst e; exact .any
  | named h1 h2 h3 => simp only [TypeExpr.shortName] at e; injection e with e; subst e; exact .named h1 h2 h3
  | generic h1 => simp only [TypeExpr.shortName, List.isEmpty_iff, h1, if_false] at e; cases e
  | annotated => simp [TypeExpr.isAnnotated] at hx
  | _ => simp only [TypeExpr.shortName] at e; cases e

theorem shortName_nameOf {t : TypeExpr} (h : t.PlainNames) {n : Str} (e : t.shortName = .ok n) : NameOf t.bare n := by
  cases hx : t.isAnnotated with
  | false =>
    have : t.bare = t := by cases t <;> first | rfl | simp [TypeExpr.isAnnotated] at hx
    rw [this]
    exact shortName_plain h hx e
  | true =>
    cases h with
    | @annotated t ms h1 h2 h3 =>
      simp only [TypeExpr.shortName] at e
      cases he : auxExact t ms with
      | some a =>
        rw [he] at e
        injection e with e
        subst e
        obtain ⟨k1, k2, k3⟩ := auxExact_some h3 he
        have : isAux t ms = true := isAux_iff.2 ⟨a, k1, k2, k3⟩
        simp only [TypeExpr.bare, this, if_true]
        rw [k2, k3]
        exact .aux k1
      | none =>
        rw [he] at e
        have : isAux t ms = false := by
          cases hi : isAux t ms with
          | false => rfl
          | true =>
            obtain ⟨a, k1, k2, k3⟩ := isAux_iff.1 hi
            exact absurd k3 (auxExact_none he a k1 k2)
        simp only [TypeExpr.bare, this]
        exact shortName_plain h1 h2 e
    | _ => simp [TypeExpr.isAnnotated] at hx

/-- Names of several types. -/
inductive NamesOf : List TypeExpr → List Str → Prop
  | nil : NamesOf [] []
  | cons {t n ts ns} : NameOf t n → NamesOf ts ns → NamesOf (t :: ts) (n :: ns)

theorem NamesOf.plain {ts : List TypeExpr} {ns : List Str} (h : NamesOf ts ns) : ∀ n ∈ ns, PlainName n := by
  induction h with
  | nil => simp
  | cons h _ ih =>
    intro n hn
    rcases List.mem_cons.1 hn with rfl | hn
    · exact h.plain
    · exact ih n hn

theorem NamesOf.inj {ts : List TypeExpr} {ns : List Str} (h : NamesOf ts ns) : ∀ {us}, NamesOf us ns → ts = us := by
  induction h with
  | nil => intro us hu; cases hu; rfl
  | cons h _ ih =>
    intro us hu
    cases hu with
    | cons h' hu => rw [h.inj h', ih hu]

theorem res_bind_ok {α β : Type} {x : Res α} {f : α → Res β} {b : β} (h : (x >>= f) = .ok b) : ∃ a, x = .ok a ∧ f a = .ok b := by
  cases x with
  | error e => cases h
  | ok a => exact ⟨a, rfl, h⟩

theorem shortNames_ok : ∀ {ts : List TypeExpr} {ns : List Str}, (∀ t ∈ ts, t.PlainNames) → shortNames ts = .ok ns →
    NamesOf (ts.map TypeExpr.bare) ns
  | [], ns, _, e => by simp only [shortNames] at e; injection e with e; subst e; exact .nil
  | t :: ts, ns, h, e => by
    simp only [shortNames] at e
    obtain ⟨n, e1, e⟩ := res_bind_ok e
    obtain ⟨ns', e2, e⟩ := res_bind_ok e
    injection e with e
    subst e
    exact .cons (shortName_nameOf (h t (by simp)) e1) (shortNames_ok (fun t ht => h t (by simp [ht])) e2)

/-! ### Names of collections and unions -/

/-- The words for collections. -/
def collectionWords : List (Str × Str) :=
  [(c!"dict", c!"Dict"), (c!"list", c!"List"), (c!"set", c!"Set"), (c!"frozenset", c!"FrozenSet"), (c!"tuple", c!"Tuple"), (c!"type", c!"Type")]

/-- What a name with `force` says about the type. -/
inductive WordsOf : TypeExpr → List Str → Prop
  | simple {t n} : NameOf t n → WordsOf t [n]
  | generic {o w ts ns} : (o, w) ∈ collectionWords → ts ≠ [] → NamesOf ts ns → WordsOf (.generic o ts) (w :: ns)
  | optional {t ts n} : (ts = [.none, t] ∨ ts = [t, .none]) → NameOf t n → WordsOf (.union ts) [c!"Optional", n]
  | union {ts ns} : ts ≠ [] → NamesOf ts ns → WordsOf (.union ts) (c!"Union" :: ns)

theorem collectionWords_plain : ∀ p ∈ collectionWords, plainNameB p.2 = true ∧ p.2 ≠ c!"Optional" ∧ p.2 ≠ c!"Union" := by decide

theorem WordsOf.ne_nil {t : TypeExpr} {ws : List Str} (h : WordsOf t ws) : ws ≠ [] := by cases h <;> simp

theorem WordsOf.plain {t : TypeExpr} {ws : List Str} (h : WordsOf t ws) : ∀ w ∈ ws, PlainName w := by
  cases h with
  | simple h => intro w hw; simp only [List.mem_singleton] at hw; subst hw; exact h.plain
  | generic h1 _ h2 =>
    intro w hw
    rcases List.mem_cons.1 hw with rfl | hw
    · exact plainNameB_plain (collectionWords_plain _ h1).1
    · exact h2.plain w hw
  | optional _ h =>
    intro w hw
    simp only [List.mem_cons, List.not_mem_nil, or_false] at hw
    rcases hw with rfl | rfl
    · exact plainNameB_plain (by decide)
    · exact h.plain
  | union _ h =>
    intro w hw
    rcases List.mem_cons.1 hw with rfl | hw
    · exact plainNameB_plain (by decide)
    · exact h.plain w hw

theorem NamesOf.ne {ts : List TypeExpr} {ns : List Str} (h : NamesOf ts ns) (hn : ts ≠ []) : ns ≠ [] := by
  cases h with
  | nil => exact absurd rfl hn
  | cons => simp

theorem collectionWords_inj : ∀ p ∈ collectionWords, ∀ q ∈ collectionWords, p.2 = q.2 → p = q := by decide

theorem WordsOf.inj {t u : TypeExpr} {ws : List Str} (ht : WordsOf t ws) (hu : WordsOf u ws) : t.SameOpt u := by
  cases ht with
  | simple h =>
    generalize hw : [_] = ws at hu
    cases hu with
    | simple h' =>
      simp only [List.cons.injEq, and_true] at hw
      subst hw
      rw [h.inj h']; exact sameOpt_refl _
    | generic _ h2 h3 => exact absurd (by simp only [List.cons.injEq] at hw; exact hw.2.symm) (h3.ne h2)
    | optional => simp at hw
    | union h2 h3 => exact absurd (by simp only [List.cons.injEq] at hw; exact hw.2.symm) (h3.ne h2)
  | @generic o w ts ns h1 h2 h3 =>
    generalize hw : w :: ns = ws at hu
    cases hu with
    | simple h' => exact absurd (by simp only [List.cons.injEq] at hw; exact hw.2) (h3.ne h2)
    | generic k1 k2 k3 =>
      simp only [List.cons.injEq] at hw
      obtain ⟨rfl, rfl⟩ := hw
      have := collectionWords_inj _ h1 _ k1 rfl
      simp only [Prod.mk.injEq, and_true] at this
      rw [this, h3.inj k3]
      exact sameOpt_refl _
    | optional => simp only [List.cons.injEq] at hw; exact absurd hw.1 (collectionWords_plain _ h1).2.1
    | union => simp only [List.cons.injEq] at hw; exact absurd hw.1 (collectionWords_plain _ h1).2.2
  | @optional t ts n h2 h3 =>
    generalize hw : [_, _] = ws at hu
    cases hu with
    | simple h' => simp at hw
    | generic k1 k2 k3 => simp only [List.cons.injEq] at hw; exact absurd hw.1.symm (collectionWords_plain _ k1).2.1
    | optional k2 k3 =>
      simp only [List.cons.injEq, true_and, and_true] at hw
      subst hw
      exact sameOpt_optional (by rw [h3.inj k3]; exact sameOpt_refl _) h2 k2
    | union => simp only [List.cons.injEq] at hw; exact absurd hw.1 (by decide)
  | @union ts ns h1 h2 =>
    generalize hw : _ :: ns = ws at hu
    cases hu with
    | simple h' => exact absurd (by simp only [List.cons.injEq] at hw; exact hw.2) (h2.ne h1)
    | generic k1 k2 k3 => simp only [List.cons.injEq] at hw; exact absurd hw.1.symm (collectionWords_plain _ k1).2.2
    | optional => simp only [List.cons.injEq] at hw; exact absurd hw.1 (by decide)
    | union k1 k2 =>
      simp only [List.cons.injEq, true_and] at hw
      subst hw
      rw [h2.inj k2]
      exact sameOpt_refl _

theorem joinStr_words (w : Str) {ns : List Str} (h : ns ≠ []) : w ++ c!"__" ++ joinStr c!"__" ns = joinStr c!"__" (w :: ns) := by
  cases ns with
  | nil => exact absurd rfl h
  | cons n ns => simp [joinStr]

theorem prefixed1_ok {w : Str} {ts : List TypeExpr} {s : Str} (hp : ∀ t ∈ ts, t.PlainNames) (h : prefixed1 (w ++ c!"__") ts = .ok s) :
    ∃ ns, NamesOf (ts.map TypeExpr.bare) ns ∧ ns ≠ [] ∧ s = joinStr c!"__" (w :: ns) := by
  match ts, h with
  | [t], h =>
    simp only [prefixed1] at h
    obtain ⟨n, e, h⟩ := res_bind_ok h
    injection h with h
    exact ⟨[n], .cons (shortName_nameOf (hp t (by simp)) e) .nil, by simp, by rw [← h]; simp [joinStr]⟩
  | [], h => cases h
  | _ :: _ :: _, h => cases h

theorem pyName_words {a : TypeExpr} (ha : a.PlainNames) {s : Str} (h : a.pyName true = .ok s) :
    ∃ ws, WordsOf a.bareArgs ws ∧ s = joinStr c!"__" ws := by
  have easy : a.bareArgs = a.bare → a.shortName = .ok s → ∃ ws, WordsOf a.bareArgs ws ∧ s = joinStr c!"__" ws := by
    intro e h
    exact ⟨[s], by rw [e]; exact .simple (shortName_nameOf ha h), by simp [joinStr]⟩
  simp only [TypeExpr.pyName, if_true] at h
  cases a with
  | generic o ts =>
    cases ha with
    | generic hne hts =>
    have hm : ts.map TypeExpr.bare ≠ [] := by simpa using hne
    have fin : ∀ {w}, (o, w) ∈ collectionWords → prefixed1 (w ++ c!"__") ts = .ok s →
        ∃ ws, WordsOf (TypeExpr.generic o ts).bareArgs ws ∧ s = joinStr c!"__" ws := by
      intro w hw h
      obtain ⟨ns, h1, h2, h3⟩ := prefixed1_ok hts h
      exact ⟨w :: ns, .generic hw hm h1, h3⟩
    simp only [genericName] at h
    by_cases c1 : o = c!"dict"
    · rw [if_pos c1] at h
      match ts, h with
      | [k, v], h =>
        simp only at h
        obtain ⟨n, e1, h⟩ := res_bind_ok h
        obtain ⟨n', e2, h⟩ := res_bind_ok h
        injection h with h
        refine ⟨[c!"Dict", n, n'], ?_, by rw [← h]; simp [joinStr]⟩
        exact .generic (by rw [c1]; decide) hm (.cons (shortName_nameOf (hts k (by simp)) e1)
          (.cons (shortName_nameOf (hts v (by simp)) e2) .nil))
      | [], h => cases h
      | [_], h => cases h
      | _ :: _ :: _ :: _, h => cases h
    rw [if_neg c1] at h
    by_cases c2 : o = c!"list"
    · rw [if_pos c2] at h; exact fin (w := c!"List") (by rw [c2]; decide) h
    rw [if_neg c2] at h
    by_cases c3 : o = c!"set"
    · rw [if_pos c3] at h; exact fin (w := c!"Set") (by rw [c3]; decide) h
    rw [if_neg c3] at h
    by_cases c4 : o = c!"frozenset"
    · rw [if_pos c4] at h; exact fin (w := c!"FrozenSet") (by rw [c4]; decide) h
    rw [if_neg c4] at h
    by_cases c5 : o = c!"tuple"
    · rw [if_pos c5] at h
      obtain ⟨ns, e1, h⟩ := res_bind_ok h
      injection h with h
      have hn := shortNames_ok hts e1
      refine ⟨c!"Tuple" :: ns, .generic (by rw [c5]; decide) hm hn, ?_⟩
      rw [← h, ← joinStr_words _ (hn.ne hm)]
      simp
    rw [if_neg c5] at h
    by_cases c6 : o = c!"type"
    · rw [if_pos c6] at h; exact fin (w := c!"Type") (by rw [c6]; decide) h
    rw [if_neg c6] at h
    simp only [List.isEmpty_iff, hne, if_false] at h
    cases h
  | union ts =>
    cases ha with
    | union h2 hnn hts =>
    simp only [unionName] at h
    have hm : ts.map TypeExpr.bare ≠ [] := by intro e; simp at e; rw [e] at h2; simp at h2
    cases ho : optionalArgs ts with
    | true =>
      rw [ho, if_pos rfl] at h
      obtain ⟨t, ht, hor⟩ := optionalArgs_cases ho hnn
      rw [optional_some ht hor] at h
      have mt : t ∈ ts := by rcases hor with rfl | rfl <;> simp
      obtain ⟨n, e, h⟩ := res_bind_ok (h : (t.shortName >>= fun n => .ok (c!"Optional__" ++ n)) = .ok s)
      injection h with h
      have hn := shortName_nameOf (hts t mt) e
      refine ⟨[c!"Optional", n], .optional (t := t.bare) ?_ hn, by rw [← h]; simp [joinStr]⟩
      rcases hor with rfl | rfl
      · exact Or.inl rfl
      · exact Or.inr rfl
    | false =>
      rw [ho, if_neg (by simp)] at h
      obtain ⟨ns, e1, h⟩ := res_bind_ok h
      injection h with h
      have hn := shortNames_ok hts e1
      refine ⟨c!"Union" :: ns, .union hm hn, ?_⟩
      rw [← h, ← joinStr_words _ (hn.ne hm)]
      simp
  | _ => exact easy rfl h

/-! ### Which types have names -/

theorem isEmpty_tuple {o : Str} {ts : List TypeExpr} (h : Arity o ts.length) (he : ts = []) : o = c!"tuple" := by
  by_cases c : o = c!"tuple"
  · exact c
  · exact absurd (by rw [he]; rfl) (h.2.2 c)

theorem shortName_total : ∀ {t : TypeExpr}, t.Applied → (t.Simple ∧ ∃ s, t.shortName = .ok s) ∨ (¬ t.Simple ∧ t.shortName = .error .typeError)
  | .none, _ => Or.inl ⟨.none, _, rfl⟩
  | .any, _ => Or.inl ⟨.any, _, rfl⟩
  | .named _, _ => Or.inl ⟨.named, _, rfl⟩
  | .ellipsis, _ => Or.inr ⟨(by intro h; cases h), rfl⟩
  | .union _, _ => Or.inr ⟨(by intro h; cases h), rfl⟩
  | .literal _, _ => Or.inr ⟨(by intro h; cases h), rfl⟩
  | .argList _, _ => Or.inr ⟨(by intro h; cases h), rfl⟩
  | .generic o ts, h => by
    cases h with
    | generic ha _ =>
    by_cases he : ts = []
    · left
      have := isEmpty_tuple ha he
      subst this; subst he
      exact ⟨.emptyTuple, _, rfl⟩
    · right
      refine ⟨?_, by simp [TypeExpr.shortName, he]⟩
      intro h; cases h; exact he rfl
  | .annotated t ms, h => by
    have ih := shortName_total (t := t)
    cases h with
    | annotated ha =>
    simp only [TypeExpr.shortName]
    cases he : auxExact t ms with
    | some a =>
      left
      refine ⟨.annotated ?_, _, rfl⟩
      have hp := List.find?_some he
      simp only [Bool.and_eq_true, isClass_iff] at hp
      rw [hp.1]; exact .named
    | none =>
      rcases ih ha with ⟨h1, h2⟩ | ⟨h1, h2⟩
      · exact Or.inl ⟨.annotated h1, h2⟩
      · refine Or.inr ⟨?_, h2⟩
        intro h; cases h with | annotated h => exact h1 h

theorem shortNames_total : ∀ {ts : List TypeExpr}, (∀ t ∈ ts, t.Applied) →
    ((∀ t ∈ ts, t.Simple) ∧ ∃ ns, shortNames ts = .ok ns) ∨ (¬ (∀ t ∈ ts, t.Simple) ∧ shortNames ts = .error .typeError)
  | [], _ => Or.inl ⟨by simp, [], rfl⟩
  | t :: ts, h => by
    rcases shortName_total (h t (by simp)) with ⟨h1, s, h2⟩ | ⟨h1, h2⟩
    · rcases shortNames_total (ts := ts) (fun u hu => h u (by simp [hu])) with ⟨k1, ns, k2⟩ | ⟨k1, k2⟩
      · refine Or.inl ⟨?_, s :: ns, by simp only [shortNames, h2, k2]; rfl⟩
        intro u hu
        rcases List.mem_cons.1 hu with rfl | hu
        · exact h1
        · exact k1 u hu
      · exact Or.inr ⟨fun hall => k1 fun u hu => hall u (by simp [hu]), by simp only [shortNames, h2, k2]; rfl⟩
    · exact Or.inr ⟨fun hall => h1 (hall t (by simp)), by simp only [shortNames, h2]; rfl⟩

theorem prefixed1_total {w : Str} {ts : List TypeExpr} (hl : ts.length = 1) (h : ∀ t ∈ ts, t.Applied) :
    ((∀ t ∈ ts, t.Simple) ∧ ∃ s, prefixed1 w ts = .ok s) ∨ (¬ (∀ t ∈ ts, t.Simple) ∧ prefixed1 w ts = .error .typeError) := by
  match ts, hl with
  | [t], _ =>
    rcases shortName_total (h t (by simp)) with ⟨h1, s, h2⟩ | ⟨h1, h2⟩
    · exact Or.inl ⟨by simpa using h1, w ++ s, by simp only [prefixed1, h2]; rfl⟩
    · exact Or.inr ⟨by simpa using h1, by simp only [prefixed1, h2]; rfl⟩

theorem genericName_total {o : Str} {ts : List TypeExpr} (ha : Arity o ts.length) (h : ∀ t ∈ ts, t.Applied) :
    ((TypeExpr.generic o ts).Shallow ∧ ∃ s, genericName o ts = .ok s) ∨
    (¬ (TypeExpr.generic o ts).Shallow ∧ genericName o ts = .error .typeError) := by
  have conv : ∀ {r : Res Str}, o ∈ [c!"dict", c!"list", c!"set", c!"frozenset", c!"tuple", c!"type"] →
      (((∀ t ∈ ts, t.Simple) ∧ ∃ s, r = .ok s) ∨ (¬ (∀ t ∈ ts, t.Simple) ∧ r = .error .typeError)) →
      (((TypeExpr.generic o ts).Shallow ∧ ∃ s, r = .ok s) ∨ (¬ (TypeExpr.generic o ts).Shallow ∧ r = .error .typeError)) := by
    intro r ho hr
    rcases hr with ⟨h1, h2⟩ | ⟨h1, h2⟩
    · exact Or.inl ⟨.generic ho h1, h2⟩
    · refine Or.inr ⟨?_, h2⟩
      intro hs
      cases hs with
      | simple hs => cases hs; exact h1 (by simp)
      | generic _ hs => exact h1 hs
  simp only [genericName]
  by_cases c1 : o = c!"dict"
  · rw [if_pos c1]
    refine conv (by rw [c1]; decide) ?_
    match ts, ha.1 c1 with
    | [k, v], _ =>
      simp only
      rcases shortName_total (h k (by simp)) with ⟨h1, s, h2⟩ | ⟨h1, h2⟩
      · rcases shortName_total (h v (by simp)) with ⟨k1, s', k2⟩ | ⟨k1, k2⟩
        · refine Or.inl ⟨?_, _, by rw [h2, k2]; rfl⟩
          intro u hu
          simp only [List.mem_cons, List.not_mem_nil, or_false] at hu
          rcases hu with rfl | rfl
          · exact h1
          · exact k1
        · exact Or.inr ⟨fun hall => k1 (hall v (by simp)), by rw [h2, k2]; rfl⟩
      · exact Or.inr ⟨fun hall => h1 (hall k (by simp)), by rw [h2]; rfl⟩
  rw [if_neg c1]
  by_cases c2 : o = c!"list"
  · rw [if_pos c2]; exact conv (by rw [c2]; decide) (prefixed1_total (ha.2.1 (by rw [c2]; decide)) h)
  rw [if_neg c2]
  by_cases c3 : o = c!"set"
  · rw [if_pos c3]; exact conv (by rw [c3]; decide) (prefixed1_total (ha.2.1 (by rw [c3]; decide)) h)
  rw [if_neg c3]
  by_cases c4 : o = c!"frozenset"
  · rw [if_pos c4]; exact conv (by rw [c4]; decide) (prefixed1_total (ha.2.1 (by rw [c4]; decide)) h)
  rw [if_neg c4]
  by_cases c5 : o = c!"tuple"
  · rw [if_pos c5]
    refine conv (by rw [c5]; decide) ?_
    rcases shortNames_total h with ⟨h1, ns, h2⟩ | ⟨h1, h2⟩
    · exact Or.inl ⟨h1, _, by rw [h2]; rfl⟩
    · exact Or.inr ⟨h1, by rw [h2]; rfl⟩
  rw [if_neg c5]
  by_cases c6 : o = c!"type"
  · rw [if_pos c6]; exact conv (by rw [c6]; decide) (prefixed1_total (ha.2.1 (by rw [c6]; decide)) h)
  rw [if_neg c6]
  have hne : ts ≠ [] := fun e => c5 (isEmpty_tuple ha e)
  refine Or.inr ⟨?_, by simp [hne]⟩
  intro hs
  cases hs with
  | simple hs => cases hs; exact hne rfl
  | generic ho =>
    simp only [List.mem_cons, List.not_mem_nil, or_false] at ho
    rcases ho with e | e | e | e | e | e
    · exact c1 e
    · exact c2 e
    · exact c3 e
    · exact c4 e
    · exact c5 e
    · exact c6 e

theorem unionName_total {ts : List TypeExpr} (hn : ts ≠ [.none, .none]) (h : ∀ t ∈ ts, t.Applied) :
    ((TypeExpr.union ts).Shallow ∧ ∃ s, unionName ts = .ok s) ∨
    (¬ (TypeExpr.union ts).Shallow ∧ unionName ts = .error .typeError) := by
  have conv : ∀ {r : Res Str},
      (((∀ t ∈ ts, t.Simple) ∧ ∃ s, r = .ok s) ∨ (¬ (∀ t ∈ ts, t.Simple) ∧ r = .error .typeError)) →
      (((TypeExpr.union ts).Shallow ∧ ∃ s, r = .ok s) ∨ (¬ (TypeExpr.union ts).Shallow ∧ r = .error .typeError)) := by
    intro r hr
    rcases hr with ⟨h1, h2⟩ | ⟨h1, h2⟩
    · exact Or.inl ⟨.union h1, h2⟩
    · refine Or.inr ⟨?_, h2⟩
      intro hs
      cases hs with
      | simple hs => cases hs
      | union hs => exact h1 hs
  refine conv ?_
  simp only [unionName]
  cases ho : optionalArgs ts with
  | true =>
    rw [if_pos rfl]
    obtain ⟨t, ht, hor⟩ := optionalArgs_cases ho hn
    rw [optional_some ht hor]
    have mt : t ∈ ts := by rcases hor with rfl | rfl <;> simp
    have all : t.Simple → ∀ u ∈ ts, u.Simple := by
      intro hs u hu
      rcases hor with rfl | rfl <;> simp only [List.mem_cons, List.not_mem_nil, or_false] at hu <;> rcases hu with rfl | rfl <;>
        first | exact hs | exact .none
    rcases shortName_total (h t mt) with ⟨h1, s, h2⟩ | ⟨h1, h2⟩
    · exact Or.inl ⟨all h1, _, by simp only [prefixed1, h2]; rfl⟩
    · exact Or.inr ⟨fun hall => h1 (hall t mt), by simp only [prefixed1, h2]; rfl⟩
  | false =>
    rw [if_neg (by simp)]
    rcases shortNames_total h with ⟨h1, ns, h2⟩ | ⟨h1, h2⟩
    · exact Or.inl ⟨h1, _, by rw [h2]; rfl⟩
    · exact Or.inr ⟨h1, by rw [h2]; rfl⟩

end Verif
