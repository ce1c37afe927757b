import Verif.Spec.Docstring
import Verif.Lemmas.StrOps
import Verif.Lemmas.Core
/-!
# Lemmas about docstrings
-/
namespace Verif

/-! ### White space -/

theorem dropWhile_head {p : Char → Bool} {s : Str} (h : ∀ c, s.head? = some c → p c = false) : s.dropWhile p = s := by
  cases s with
  | nil => rfl
  | cons c r => simp [h c rfl]

theorem dropWhile_append_all {p : Char → Bool} {a b : Str} (h : ∀ c ∈ a, p c = true) : (a ++ b).dropWhile p = b.dropWhile p := by
  induction a with
  | nil => rfl
  | cons c a ih => simp [h c (by simp), ih (fun d hd => h d (by simp [hd]))]

theorem pyStrip_trimmed {a s b : Str} (hs : Trimmed s) (ha : ∀ c ∈ a, pySpace c = true) (hb : ∀ c ∈ b, pySpace c = true) :
    pyStrip (a ++ (s ++ b)) = s := by
  unfold pyStrip stripBy
  rw [dropWhile_append_all ha]
  cases s with
  | nil =>
    have : b.dropWhile pySpace = [] := by
      have := dropWhile_append_all (b := []) hb
      simpa using this
    simp [this]
  | cons c r =>
    rw [dropWhile_head (s := c :: r ++ b) (fun d hd => hs.1 d (by simpa using hd)), List.reverse_append,
      dropWhile_append_all (by simpa using hb), dropWhile_head, List.reverse_reverse]
    intro d hd
    exact hs.2 d (by rw [List.getLast?_eq_head?_reverse]; exact hd)

theorem pyStrip_self {s : Str} (hs : Trimmed s) : pyStrip s = s := by
  simpa using pyStrip_trimmed (a := []) (b := []) hs (by simp) (by simp)

theorem dropWhile_head_not {p : Char → Bool} (s : Str) : ∀ c, (s.dropWhile p).head? = some c → p c = false := by
  induction s with
  | nil => intro c h; simp at h
  | cons d r ih =>
    intro c h
    simp only [List.dropWhile] at h
    cases hp : p d with
    | true => rw [hp] at h; exact ih c h
    | false => rw [hp] at h; simp at h; rw [← h]; exact hp

theorem dropWhile_suffix' {p : Char → Bool} (s : Str) : ∃ a, s = a ++ s.dropWhile p := by
  induction s with
  | nil => exact ⟨[], rfl⟩
  | cons d r ih =>
    obtain ⟨a, ha⟩ := ih
    simp only [List.dropWhile]
    cases hp : p d with
    | true => exact ⟨d :: a, by simp; exact ha⟩
    | false => exact ⟨[], rfl⟩

/-- Stripped text is trimmed. -/
theorem pyStrip_is_trimmed (s : Str) : Trimmed (pyStrip s) := by
  unfold pyStrip stripBy
  have h1 := dropWhile_head_not (p := pySpace) s
  generalize s.dropWhile pySpace = t at h1
  have h2 := dropWhile_head_not (p := pySpace) t.reverse
  obtain ⟨a, ha⟩ := dropWhile_suffix' (p := pySpace) t.reverse
  generalize hu : t.reverse.dropWhile pySpace = u at h2 ha
  refine ⟨?_, ?_⟩
  · intro c hc
    apply h1
    have : t = u.reverse ++ a.reverse := by rw [← List.reverse_append, ← ha, List.reverse_reverse]
    rw [this]
    cases hu' : u.reverse with
    | nil => rw [hu'] at hc; simp at hc
    | cons d r => rw [hu'] at hc; simpa using hc
  · intro c hc
    exact h2 c (by simpa using hc)

/-! ### `cleandoc` -/

theorem expandTabs_no_tab : ∀ (s : Str) (col : Nat), '\t' ∉ s → expandTabs col s = s
  | [], _, _ => rfl
  | c :: r, col, h => by
    simp only [List.mem_cons, not_or] at h
    simp only [expandTabs]
    rw [if_neg (fun e => h.1 e.symm), expandTabs_no_tab r _ h.2]

theorem tab_not_mem_expandTabs : ∀ (s : Str) (col : Nat), '\t' ∉ expandTabs col s
  | [], _ => by simp [expandTabs]
  | c :: r, col => by
    simp only [expandTabs]
    split
    · simp only [List.mem_append, not_or]
      exact ⟨fun h => absurd (List.eq_of_mem_replicate h) (by decide), tab_not_mem_expandTabs r _⟩
    · rename_i hc
      simp only [List.mem_cons, not_or]
      exact ⟨fun e => hc e.symm, tab_not_mem_expandTabs r _⟩

theorem splitOn_append_mid (c : Char) (a b : Str) : splitOn c (a ++ c :: b) = splitOn c a ++ splitOn c b := by
  induction a with
  | nil => simp [splitOn]
  | cons x a ih =>
    simp only [List.cons_append, splitOn]
    split
    · simp [ih]
    · rw [ih]
      cases h : splitOn c a with
      | nil => exact absurd h (splitOn_ne_nil _ _)
      | cons p ps => simp

/-- The first line starts like the text. -/
theorem splitOn_head {c : Char} {x : Char} {s : Str} (h : x ≠ c) : ∃ l ls, splitOn c (x :: s) = (x :: l) :: ls := by
  simp only [splitOn, h, if_false]
  cases h : splitOn c s with
  | nil => exact ⟨[], [], rfl⟩
  | cons p ps => exact ⟨p, ps, rfl⟩

/-- The last line is empty only after a separator. -/
theorem splitOn_last {c : Char} : ∀ {s : Str}, s ≠ [] → s.getLast? ≠ some c → (splitOn c s).getLast? ≠ some []
  | [], h, _ => absurd rfl h
  | [x], _, h => by
    have hx : x ≠ c := fun e => h (by simp [e])
    simp [splitOn, hx]
  | x :: y :: r, _, h => by
    have ih := splitOn_last (c := c) (s := y :: r) (by simp) (by simpa using h)
    unfold splitOn
    split
    · cases h2 : splitOn c (y :: r) with
      | nil => simp [h2] at ih ⊢; exact absurd h2 (splitOn_ne_nil _ _)
      | cons p ps => rw [h2] at ih; simpa using ih
    · cases h2 : splitOn c (y :: r) with
      | nil => simp
      | cons p ps =>
        rw [h2] at ih
        cases ps with
        | nil => simp
        | cons q qs => simpa using ih

theorem lineIndent_zero {l : Str} {c : Char} (h : l.head? = some c) (hc : pySpace c = false) : lineIndent l = some 0 := by
  cases l with
  | nil => simp at h
  | cons d r =>
    simp only [List.head?_cons, Option.some.injEq] at h
    subst h
    simp [lineIndent, hc]

theorem marginOf_zero {ls : List Str} (h : ∃ l ∈ ls, lineIndent l = some 0) : marginOf ls = some 0 := by
  induction ls with
  | nil => obtain ⟨l, hl, _⟩ := h; simp at hl
  | cons x ls ih =>
    obtain ⟨l, hl, hi⟩ := h
    simp only [marginOf]
    rcases List.mem_cons.1 hl with rfl | hl
    · rw [hi]
      cases marginOf ls <;> simp
    · rw [ih ⟨l, hl, hi⟩]
      cases lineIndent x <;> simp

theorem dedent_zero (ls : List Str) : dedent (some 0) ls = ls := by
  have : (List.drop 0 : Str → Str) = id := funext fun _ => rfl
  simp [dedent, this]

theorem dropEmpties_last {ls : List Str} (h : ls.getLast? ≠ some []) : (ls.reverse.dropWhile List.isEmpty).reverse = ls := by
  have : ls.reverse.dropWhile List.isEmpty = ls.reverse := by
    cases hr : ls.reverse with
    | nil => rfl
    | cons x r =>
      have : ls.getLast? = some x := by rw [List.getLast?_eq_head?_reverse, hr]; rfl
      cases x with
      | nil => exact absurd this h
      | cons c x => rfl
  rw [this, List.reverse_reverse]

/-- Text that `cleandoc` leaves as it is. -/
theorem cleandoc_fix {t : Str} {c : Char} {r : Str} (ht : t = c :: r) (htab : '\t' ∉ t) (hc : pySpace c = false)
    (hlast : t.getLast? ≠ some '\n') (hm : '\n' ∉ t ∨ ∃ a d b, t = a ++ '\n' :: d :: b ∧ pySpace d = false) :
    cleandoc t = t := by
  have nl : ∀ {d : Char}, pySpace d = false → d ≠ '\n' := by
    rintro d hd rfl; exact absurd hd (by decide)
  have hls := splitOn_last (c := '\n') (s := t) (by simp [ht]) hlast
  obtain ⟨l, ls, hl⟩ := splitOn_head (s := r) (nl hc)
  rw [← ht] at hl
  have hmargin : marginOf ls = none ∨ marginOf ls = some 0 := by
    rcases hm with hm | ⟨a, d, b, e, hd⟩
    · rw [splitOn_no_sep _ _ hm] at hl
      injection hl with _ hl
      left; rw [← hl]; rfl
    · right
      apply marginOf_zero
      rw [e, splitOn_append_mid] at hl
      obtain ⟨l', ls', hl'⟩ := splitOn_head (s := b) (nl hd)
      rw [hl'] at hl
      cases hx : splitOn '\n' a with
      | nil => exact absurd hx (splitOn_ne_nil _ _)
      | cons y ys =>
        rw [hx] at hl
        simp only [List.cons_append, List.cons.injEq] at hl
        exact ⟨d :: l', by rw [← hl.2]; simp, lineIndent_zero rfl hd⟩
  unfold cleandoc
  rw [expandTabs_no_tab _ _ htab, hl]
  have e1 : (c :: l).dropWhile pySpace = c :: l := by simp [hc]
  have e2 : dedent (marginOf ls) ls = ls := by
    rcases hmargin with h | h <;> rw [h]
    · rfl
    · exact dedent_zero ls
  simp only [e1, e2]
  rw [hl] at hls
  rw [dropEmpties_last hls]
  simp only [List.dropWhile, List.isEmpty_cons]
  rw [← hl, joinWith_splitOn]

/-- Text after a line break loses only the line break. -/
theorem cleandoc_nl {t : Str} {c : Char} {r : Str} (ht : t = c :: r) (htab : '\t' ∉ t) (hc : pySpace c = false)
    (hlast : t.getLast? ≠ some '\n') : cleandoc ('\n' :: t) = t := by
  have nl : ∀ {d : Char}, pySpace d = false → d ≠ '\n' := by
    rintro d hd rfl; exact absurd hd (by decide)
  have hls := splitOn_last (c := '\n') (s := t) (by simp [ht]) hlast
  obtain ⟨l, ls, hl⟩ := splitOn_head (s := r) (nl hc)
  rw [← ht] at hl
  unfold cleandoc
  rw [expandTabs_no_tab _ _ (by simp only [List.mem_cons, not_or]; exact ⟨by decide, htab⟩)]
  have e0 : splitOn '\n' ('\n' :: t) = [] :: splitOn '\n' t := by simp [splitOn]
  have hmargin : marginOf (splitOn '\n' t) = some 0 :=
    marginOf_zero ⟨c :: l, by rw [hl]; simp, lineIndent_zero rfl hc⟩
  rw [e0]
  simp only [hmargin]
  rw [dedent_zero]
  have e3 : ((([] : Str).dropWhile pySpace) :: splitOn '\n' t).getLast? ≠ some [] := by
    rw [hl] at hls ⊢
    simpa using hls
  rw [dropEmpties_last e3]
  rw [hl]
  simp only [List.dropWhile, List.isEmpty_cons, List.isEmpty_nil]
  rw [← hl, joinWith_splitOn]

/-! ### Metadata -/

/-- No line starts with a colon, where the flag tells whether the text starts a line. -/
def NoMetaFrom (b : Bool) (s : Str) : Prop := splitMeta b s = (s, [])

theorem noMetaFrom_iff (b : Bool) (s : Str) :
    NoMetaFrom b s ↔ (b = true → ∀ r, s ≠ ':' :: r) ∧ ∀ a r, s ≠ a ++ '\n' :: ':' :: r := by
  unfold NoMetaFrom
  induction s generalizing b with
  | nil => simp [splitMeta]
  | cons c s ih =>
    simp only [splitMeta]
    split
    · rename_i h
      simp only [Bool.and_eq_true, decide_eq_true_eq] at h
      simp only [Prod.mk.injEq, reduceCtorEq, false_and, false_iff, not_and]
      intro h1
      exact absurd (by rw [h.2]) (h1 h.1 s)
    · rename_i h
      simp only [Bool.and_eq_true, decide_eq_true_eq, not_and] at h
      have ih' := ih (decide (c = '\n'))
      constructor
      · intro e
        simp only [Prod.mk.injEq, List.cons.injEq, true_and] at e
        have := ih'.1 (Prod.ext e.1 e.2)
        refine ⟨fun hb r hr => ?_, fun a r hr => ?_⟩
        · simp only [List.cons.injEq] at hr; exact h hb hr.1
        · cases a with
          | nil =>
            simp only [List.nil_append, List.cons.injEq] at hr
            exact this.1 (by simp [hr.1]) r hr.2
          | cons x a =>
            simp only [List.cons_append, List.cons.injEq] at hr
            exact this.2 a r hr.2
      · intro ⟨h1, h2⟩
        have := ih'.2 ⟨fun hb r hr => ?_, fun a r hr => h2 (c :: a) r (by rw [hr]; rfl)⟩
        · rw [this]
        · simp only [decide_eq_true_eq] at hb
          exact h2 [] r (by rw [hr, hb]; rfl)

theorem noMetaFrom_line {s : Str} (h : NoMetaLine s) : NoMetaFrom true s :=
  (noMetaFrom_iff true s).2 ⟨fun _ => h.first, h.later⟩

theorem noMetaFrom_append {b : Bool} {u w : Str} (hu : NoMetaFrom b u) (hw : NoMetaFrom true w) :
    NoMetaFrom b (u ++ '\n' :: w) := by
  unfold NoMetaFrom at *
  induction u generalizing b with
  | nil => simp [splitMeta, hw]
  | cons c u ih =>
    simp only [List.cons_append, splitMeta] at hu ⊢
    split at hu
    · simp at hu
    · rename_i h
      rw [if_neg h]
      simp only [Prod.mk.injEq, List.cons.injEq, true_and] at hu
      rw [ih (Prod.ext hu.1 hu.2)]

theorem splitMeta_append {b : Bool} {u v : Str} (hu : NoMetaFrom b u) (hv : v.head? = some ':') :
    splitMeta b (u ++ '\n' :: v) = (u ++ ['\n'], v) := by
  unfold NoMetaFrom at *
  induction u generalizing b with
  | nil =>
    cases v with
    | nil => simp at hv
    | cons c v =>
      simp only [List.head?_cons, Option.some.injEq] at hv
      subst hv
      simp [splitMeta]
  | cons c u ih =>
    simp only [List.cons_append, splitMeta] at hu ⊢
    split at hu
    · simp at hu
    · rename_i h
      rw [if_neg h]
      simp only [Prod.mk.injEq, List.cons.injEq, true_and] at hu
      rw [ih (Prod.ext hu.1 hu.2)]

theorem splitPara_none : ∀ {s : Str}, '\n' ∉ s → splitPara s = (s, none)
  | [], _ => rfl
  | [c], _ => rfl
  | c :: d :: r, h => by
    simp only [List.mem_cons, not_or] at h
    have ih := splitPara_none (s := d :: r) (by simp only [List.mem_cons, not_or]; exact ⟨h.2.1, h.2.2⟩)
    simp only [splitPara, ih]
    rw [if_neg]
    simp only [Bool.and_eq_true, decide_eq_true_eq, not_and]
    exact fun e => absurd e.symm h.1

theorem splitPara_some : ∀ {s r : Str}, '\n' ∉ s → splitPara (s ++ '\n' :: '\n' :: r) = (s, some r)
  | [], r, _ => by simp [splitPara]
  | [c], r, h => by
    simp only [List.mem_singleton] at h
    have : ¬ c = '\n' := fun e => h e.symm
    simp [splitPara, this]
  | c :: d :: s, r, h => by
    simp only [List.mem_cons, not_or] at h
    have ih := splitPara_some (s := d :: s) (r := r) (by simp only [List.mem_cons, not_or]; exact ⟨h.2.1, h.2.2⟩)
    simp only [List.cons_append] at ih
    simp only [List.cons_append, splitPara, ih]
    rw [if_neg]
    simp only [Bool.and_eq_true, decide_eq_true_eq, not_and]
    exact fun e => absurd e.symm h.1

/-! ### Entries -/

/-- Lines with their line breaks. -/
def termLines : List Str → List Str
  | [] => []
  | [f] => [f]
  | f :: g :: r => (f ++ ['\n']) :: termLines (g :: r)

theorem splitChunks_line {f : Str} (h : '\n' ∉ f) : splitChunks false f = (f, []) := by
  induction f with
  | nil => rfl
  | cons c f ih =>
    simp only [List.mem_cons, not_or] at h
    have : ¬ c = '\n' := fun e => h.1 e.symm
    simp [splitChunks, this, ih h.2]

theorem splitChunks_line_append {f r : Str} (h : '\n' ∉ f) :
    splitChunks false (f ++ '\n' :: r) = (f ++ '\n' :: (splitChunks true r).1, (splitChunks true r).2) := by
  induction f with
  | nil => simp [splitChunks]
  | cons c f ih =>
    simp only [List.mem_cons, not_or] at h
    have : ¬ c = '\n' := fun e => h.1 e.symm
    simp [splitChunks, this, ih h.2]

theorem splitChunks_join : ∀ {fs : List Str}, (∀ f ∈ fs, '\n' ∉ f ∧ f.head? = some ':') →
    splitChunks true (joinWith '\n' fs) = ([], termLines fs)
  | [], _ => rfl
  | [f], h => by
    obtain ⟨h1, h2⟩ := h f (by simp)
    cases f with
    | nil => simp at h2
    | cons c f =>
      simp only [List.head?_cons, Option.some.injEq] at h2
      subst h2
      simp only [List.mem_cons, not_or] at h1
      simp [joinWith, splitChunks, splitChunks_line h1.2, termLines]
  | f :: g :: fs, h => by
    obtain ⟨h1, h2⟩ := h f (by simp)
    have ih := splitChunks_join (fs := g :: fs) (fun x hx => h x (by simp [List.mem_cons.1 hx]))
    cases f with
    | nil => simp at h2
    | cons c f =>
      simp only [List.head?_cons, Option.some.injEq] at h2
      subst h2
      simp only [List.mem_cons, not_or] at h1
      simp [joinWith, splitChunks, splitChunks_line_append h1.2, termLines, ih]

theorem splitColon_append {a b : Str} (h : ':' ∉ a) : splitColon (a ++ ':' :: b) = some (a, b) := by
  induction a with
  | nil => simp [splitColon]
  | cons c a ih =>
    simp only [List.mem_cons, not_or] at h
    have : ¬ c = ':' := fun e => h.1 e.symm
    simp [splitColon, this, ih h.2]

theorem splitColon_none_iff {s : Str} : splitColon s = none ↔ ':' ∉ s := by
  induction s with
  | nil => simp [splitColon]
  | cons c s ih =>
    simp only [splitColon]
    split
    · rename_i h; simp [h]
    · rename_i h
      have : ¬ ':' = c := fun e => h e.symm
      simp [ih, this]

theorem splitColon_some {s a b : Str} (h : splitColon s = some (a, b)) : s = a ++ ':' :: b ∧ ':' ∉ a := by
  induction s generalizing a with
  | nil => simp [splitColon] at h
  | cons c s ih =>
    simp only [splitColon] at h
    split at h
    · rename_i hc
      simp only [Option.some.injEq, Prod.mk.injEq] at h
      obtain ⟨rfl, rfl⟩ := h
      simp [hc]
    · rename_i hc
      simp only [Option.map_eq_some_iff, Prod.mk.injEq] at h
      obtain ⟨⟨a', b'⟩, h1, rfl, rfl⟩ := h
      obtain ⟨e, hn⟩ := ih h1
      refine ⟨by rw [e]; rfl, ?_⟩
      simp only [List.mem_cons, not_or]
      exact ⟨fun e => hc e.symm, hn⟩

theorem splitBy_word {p : Char → Bool} {w : Str} (h : ∀ c ∈ w, p c = false) : splitBy p w = [w] := by
  induction w with
  | nil => rfl
  | cons c w ih => simp [splitBy, h c (by simp), ih (fun d hd => h d (by simp [hd]))]

theorem splitBy_word_sep {p : Char → Bool} {w r : Str} {x : Char} (h : ∀ c ∈ w, p c = false) (hx : p x = true) :
    splitBy p (w ++ x :: r) = w :: splitBy p r := by
  induction w with
  | nil => simp [splitBy, hx]
  | cons c w ih => simp [splitBy, h c (by simp), ih (fun d hd => h d (by simp [hd]))]

theorem splitBy_parts {p : Char → Bool} : ∀ (s : Str), ∀ w ∈ splitBy p s, ∀ c ∈ w, p c = false ∧ c ∈ s
  | [], w, hw, c, hc => by simp [splitBy] at hw; rw [hw] at hc; simp at hc
  | x :: s, w, hw, c, hc => by
    have ih := splitBy_parts (p := p) s
    simp only [splitBy] at hw
    split at hw
    · rcases List.mem_cons.1 hw with rfl | hw
      · simp at hc
      · exact ⟨(ih w hw c hc).1, by simp [(ih w hw c hc).2]⟩
    · rename_i hx
      cases h : splitBy p s with
      | nil =>
        rw [h] at hw
        simp only [List.mem_singleton] at hw
        rw [hw] at hc
        simp only [List.mem_singleton] at hc
        rw [hc]
        exact ⟨by simpa using hx, by simp⟩
      | cons v vs =>
        rw [h] at hw
        rcases List.mem_cons.1 hw with rfl | hw
        · rcases List.mem_cons.1 hc with rfl | hc
          · exact ⟨by simpa using hx, by simp⟩
          · have := ih v (by rw [h]; simp) c hc
            exact ⟨this.1, by simp [this.2]⟩
        · have := ih w (by rw [h]; simp [hw]) c hc
          exact ⟨this.1, by simp [this.2]⟩

theorem pyWords_spec {s w : Str} (h : w ∈ pyWords s) : w ≠ [] ∧ ∀ c ∈ w, pySpace c = false ∧ c ∈ s := by
  simp only [pyWords, List.mem_filter, Bool.not_eq_true', List.isEmpty_eq_false_iff] at h
  exact ⟨h.2, splitBy_parts s w h.1⟩

/-! ### Collapsing white space -/

theorem collapse_oneLine : ∀ {s : Str} (b : Bool), (∀ c ∈ s, pySpace c = true → c = ' ') → (∀ a r, s ≠ a ++ ' ' :: ' ' :: r) →
    (b = true → ∀ c, s.head? = some c → pySpace c = false) → collapseSpace b s = s
  | [], _, _, _, _ => rfl
  | c :: s, b, h1, h2, h3 => by
    simp only [collapseSpace]
    have h2' : ∀ a r, s ≠ a ++ ' ' :: ' ' :: r := fun a r e => h2 (c :: a) r (by rw [e]; rfl)
    split
    · rename_i hc
      have e := h1 c (by simp) hc
      subst e
      cases b with
      | true => exact absurd hc (by rw [h3 rfl ' ' rfl]; simp)
      | false =>
        rw [if_neg (by decide), collapse_oneLine true (fun d hd => h1 d (by simp [hd])) h2']
        intro _ d hd
        cases hsp : pySpace d with
        | false => rfl
        | true =>
          cases s with
          | nil => simp at hd
          | cons x s =>
            simp only [List.head?_cons, Option.some.injEq] at hd
            subst hd
            have := h1 x (by simp) hsp
            subst this
            exact absurd rfl (h2 [] s)
    · rw [collapse_oneLine false (fun d hd => h1 d (by simp [hd])) h2' (by simp)]

theorem collapse_props : ∀ (s : Str) (b : Bool),
    (∀ c ∈ collapseSpace b s, pySpace c = true → c = ' ') ∧ (∀ a r, collapseSpace b s ≠ a ++ ' ' :: ' ' :: r) ∧
      (b = true → ∀ r, collapseSpace b s ≠ ' ' :: r)
  | [], b => by simp [collapseSpace]
  | c :: s, b => by
    obtain ⟨t1, t2, t3⟩ := collapse_props s true
    obtain ⟨f1, f2, f3⟩ := collapse_props s false
    simp only [collapseSpace]
    split
    · cases b with
      | true =>
        rw [if_pos rfl]
        exact ⟨t1, t2, t3⟩
      | false =>
        simp only [Bool.false_eq_true, if_false, false_implies, and_true]
        refine ⟨?_, ?_⟩
        · intro d hd hs
          rcases List.mem_cons.1 hd with rfl | hd
          · rfl
          · exact t1 d hd hs
        · intro a r e
          cases a with
          | nil =>
            simp only [List.nil_append, List.cons.injEq, true_and] at e
            exact t3 rfl r e
          | cons x a =>
            simp only [List.cons_append, List.cons.injEq] at e
            exact t2 a r e.2
    · rename_i hc
      refine ⟨?_, ?_, ?_⟩
      · intro d hd hs
        rcases List.mem_cons.1 hd with rfl | hd
        · exact absurd hs hc
        · exact f1 d hd hs
      · intro a r e
        cases a with
        | nil =>
          simp only [List.nil_append, List.cons.injEq] at e
          exact hc (by rw [e.1]; decide)
        | cons x a =>
          simp only [List.cons_append, List.cons.injEq] at e
          exact f2 a r e.2
      · intro _ r e
        simp only [List.cons.injEq] at e
        exact hc (by rw [e.1]; decide)

theorem collapse_head {s : Str} (h : ∀ c, s.head? = some c → pySpace c = false) : ∀ c, (collapseSpace false s).head? = some c →
    pySpace c = false := by
  cases s with
  | nil => intro c hc; simp [collapseSpace] at hc
  | cons d s =>
    have := h d rfl
    intro c hc
    simp only [collapseSpace, this, Bool.false_eq_true, if_false, List.head?_cons, Option.some.injEq] at hc
    rw [← hc]
    exact this

theorem collapse_last : ∀ {s : Str} (b : Bool), (∀ c, s.getLast? = some c → pySpace c = false) →
    ∀ c, (collapseSpace b s).getLast? = some c → pySpace c = false
  | [], b, _, c, hc => by simp [collapseSpace] at hc
  | [d], b, h, c, hc => by
    have := h d rfl
    simp [collapseSpace, this] at hc
    rw [← hc]; exact this
  | d :: e :: s, b, h, c, hc => by
    have hl : ∀ x, (e :: s).getLast? = some x → pySpace x = false := fun x hx => h x (by simpa using hx)
    have ne : ∀ b, collapseSpace b (e :: s) ≠ [] := by
      -- the last character is kept
      intro b
      have key : ∀ (u : Str) (b : Bool), u ≠ [] → (∀ x, u.getLast? = some x → pySpace x = false) → collapseSpace b u ≠ [] := by
        intro u
        induction u with
        | nil => intro _ h; exact absurd rfl h
        | cons y u ihu =>
          intro b _ hy
          simp only [collapseSpace]
          split
          · rename_i hsp
            cases u with
            | nil => exact absurd (hy y rfl) (by simp [hsp])
            | cons z u =>
              split
              · exact ihu true (by simp) (fun x hx => hy x (by simpa using hx))
              · simp
          · simp
      exact key _ b (by simp) hl
    have step : ∀ (x : Char) (b' : Bool), (x :: collapseSpace b' (e :: s)).getLast? = some c → pySpace c = false := by
      intro x b' hx
      rw [List.getLast?_cons_of_ne_nil (ne b')] at hx
      exact collapse_last b' hl c hx
    rw [collapseSpace] at hc
    split at hc
    · split at hc
      · exact collapse_last true hl c hc
      · exact step _ _ hc
    · exact step _ _ hc

/-- A parsed description is one line of text. -/
theorem collapse_strip_oneLine (s : Str) : OneLine (collapseSpace false (pyStrip s)) := by
  have ht := pyStrip_is_trimmed s
  obtain ⟨h1, h2, _⟩ := collapse_props (pyStrip s) false
  exact ⟨⟨collapse_head ht.1, collapse_last false ht.2⟩, h1, h2⟩

end Verif
