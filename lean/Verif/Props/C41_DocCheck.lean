import Verif.Props.C40_Docstring
/-!
# C41: which texts are parsed, and what the checks of docstrings reject
-/
namespace Verif

/-! ### Entries of a text -/

/-- The entry starts at the start of a line; `b` tells whether the text starts a line. -/
def StartsAt (b : Bool) (a : Str) : Prop := (a = [] ∧ b = true) ∨ ∃ a', a = a' ++ ['\n']

/-- The text that follows an entry. -/
def EndsAt (e r : Str) : Prop := r = [] ∨ (∃ r', r = ':' :: r') ∧ ∃ e', e = e' ++ ['\n']

theorem splitMeta_chunks (b : Bool) (t : Str) : (splitChunks true (splitMeta b t).2).2 = (splitChunks b t).2 := by
  induction t generalizing b with
  | nil => rfl
  | cons c t ih =>
    simp only [splitMeta]
    split
    · rename_i h
      simp only [Bool.and_eq_true, decide_eq_true_eq] at h
      rw [h.1]
    · rename_i h
      simp only [splitChunks, h]
      exact ih _

/-- The text before the first entry is the longest part without a line that starts with a colon. -/
theorem splitChunks_first (b : Bool) (t : Str) :
    NoMetaFrom b (splitChunks b t).1 ∧ t = (splitChunks b t).1 ++ (splitMeta b t).2 ∧
      ((splitMeta b t).2 = [] ∨ (∃ r, (splitMeta b t).2 = ':' :: r) ∧ StartsAt b (splitChunks b t).1) := by
  induction t generalizing b with
  | nil => exact ⟨rfl, rfl, Or.inl rfl⟩
  | cons c t ih =>
    simp only [splitMeta, splitChunks]
    split
    · rename_i h
      simp only [Bool.and_eq_true, decide_eq_true_eq] at h
      exact ⟨rfl, rfl, Or.inr ⟨⟨t, by rw [h.2]⟩, Or.inl ⟨rfl, h.1⟩⟩⟩
    · rename_i h
      obtain ⟨h1, h2, h3⟩ := ih (decide (c = '\n'))
      refine ⟨?_, ?_, ?_⟩
      · unfold NoMetaFrom at h1 ⊢
        simp only [splitMeta, h, h1]
        rfl
      · rw [List.cons_append]
        exact congrArg (List.cons c) h2
      · rcases h3 with h3 | ⟨h3, h4⟩
        · exact Or.inl h3
        · refine Or.inr ⟨h3, Or.inr ?_⟩
          rcases h4 with ⟨h4, h5⟩ | ⟨a', h4⟩
          · simp only [decide_eq_true_eq] at h5
            exact ⟨[], by rw [h4, h5]; rfl⟩
          · exact ⟨c :: a', by rw [h4]; rfl⟩

/-- Entries are where the text says they are. -/
theorem splitChunks_mem (b : Bool) (t e : Str) : e ∈ (splitChunks b t).2 ↔
    (∃ e', e = ':' :: e' ∧ NoMetaFrom false e') ∧ ∃ a r, t = a ++ e ++ r ∧ StartsAt b a ∧ EndsAt e r := by
  induction t generalizing b with
  | nil =>
    simp only [splitChunks, List.not_mem_nil, false_iff]
    rintro ⟨⟨e', rfl, _⟩, a, r, h, _⟩
    simp at h
  | cons c t ih =>
    have ih' := ih (decide (c = '\n'))
    obtain ⟨f1, f2, f3⟩ := splitChunks_first (decide (c = '\n')) t
    -- entries that start later
    have later : (∃ e', e = ':' :: e' ∧ NoMetaFrom false e') → ((∃ a r, t = a ++ e ++ r ∧ StartsAt (decide (c = '\n')) a ∧ EndsAt e r) ↔
        ∃ x a r, c :: t = (x :: a) ++ e ++ r ∧ StartsAt b (x :: a) ∧ EndsAt e r) := by
      intro _
      constructor
      · rintro ⟨a, r, h1, h2, h3⟩
        refine ⟨c, a, r, by rw [h1]; rfl, Or.inr ?_, h3⟩
        rcases h2 with ⟨rfl, h2⟩ | ⟨a', h2⟩
        · simp only [decide_eq_true_eq] at h2
          exact ⟨[], by rw [h2]; rfl⟩
        · exact ⟨c :: a', by rw [h2]; rfl⟩
      · rintro ⟨x, a, r, h1, h2, h3⟩
        simp only [List.cons_append, List.cons.injEq] at h1
        refine ⟨a, r, h1.2, ?_, h3⟩
        rcases h2 with ⟨h2, _⟩ | ⟨a', h2⟩
        · simp at h2
        · cases a' with
          | nil =>
            simp only [List.nil_append, List.cons.injEq] at h2
            exact Or.inl ⟨h2.2, by simp [h1.1, h2.1]⟩
          | cons y a' =>
            simp only [List.cons_append, List.cons.injEq] at h2
            exact Or.inr ⟨a', h2.2⟩
    simp only [splitChunks]
    split
    · rename_i hb
      simp only [Bool.and_eq_true, decide_eq_true_eq] at hb
      obtain ⟨hb, rfl⟩ := hb
      have hc0 : decide (':' = '\n') = false := by decide
      rw [hc0] at ih' f1 f2 f3 later ⊢
      rw [List.mem_cons, ih']
      constructor
      · rintro (rfl | ⟨h1, h2⟩)
        · refine ⟨⟨_, rfl, f1⟩, [], (splitMeta false t).2, ?_, Or.inl ⟨rfl, hb⟩, ?_⟩
          · rw [List.nil_append, List.cons_append]
            exact congrArg (List.cons ':') f2
          · rcases f3 with f3 | ⟨f3, f4⟩
            · exact Or.inl f3
            · refine Or.inr ⟨f3, ?_⟩
              rcases f4 with ⟨_, f4⟩ | ⟨a', f4⟩
              · exact absurd f4 (by decide)
              · exact ⟨':' :: a', by rw [f4]; rfl⟩
        · obtain ⟨x, a, r, h3⟩ := (later h1).1 h2
          exact ⟨h1, x :: a, r, h3⟩
      · rintro ⟨h1, a, r, h2, h3, h4⟩
        cases a with
        | cons x a => exact Or.inr ⟨h1, (later h1).2 ⟨x, a, r, h2, h3, h4⟩⟩
        | nil =>
          left
          obtain ⟨e', rfl, he⟩ := h1
          simp only [List.nil_append, List.cons_append, List.cons.injEq, true_and] at h2
          -- the entry extends as far as the first part of the rest
          have key : ∀ (b : Bool) (e' r : Str), NoMetaFrom b e' → (r = [] ∨ (∃ r', r = ':' :: r') ∧ StartsAt b e') →
              (splitChunks b (e' ++ r)).1 = e' := by
            intro b e'
            induction e' generalizing b with
            | nil =>
              intro r _ h
              rcases h with rfl | ⟨⟨r', rfl⟩, h⟩
              · rfl
              · rcases h with ⟨_, rfl⟩ | ⟨a', h⟩
                · simp [splitChunks]
                · simp at h
            | cons y e' ihe =>
              intro r hn h
              unfold NoMetaFrom at hn
              simp only [splitMeta] at hn
              split at hn
              · simp at hn
              · rename_i hy
                simp only [Prod.mk.injEq, List.cons.injEq, true_and] at hn
                simp only [List.cons_append, splitChunks, hy]
                refine congrArg (List.cons y) (ihe _ r (Prod.ext hn.1 hn.2) ?_)
                rcases h with h | ⟨h1, h2⟩
                · exact Or.inl h
                · refine Or.inr ⟨h1, ?_⟩
                  rcases h2 with ⟨h2, _⟩ | ⟨a', h2⟩
                  · simp at h2
                  · cases a' with
                    | nil =>
                      simp only [List.nil_append, List.cons.injEq] at h2
                      exact Or.inl ⟨h2.2, by simp [h2.1]⟩
                    | cons z a' =>
                      simp only [List.cons_append, List.cons.injEq] at h2
                      exact Or.inr ⟨a', h2.2⟩
          have := key false e' r he (by
            rcases h4 with h4 | ⟨h4, ⟨e'', h5⟩⟩
            · exact Or.inl h4
            · refine Or.inr ⟨h4, Or.inr ?_⟩
              cases e'' with
              | nil => simp at h5
              | cons z e'' =>
                simp only [List.cons_append, List.cons.injEq] at h5
                exact ⟨e'', h5.2⟩)
          rw [h2, this]
    · rename_i hb
      simp only [Bool.and_eq_true, decide_eq_true_eq, not_and] at hb
      simp only
      rw [ih']
      constructor
      · rintro ⟨h1, h2⟩
        obtain ⟨x, a, r, h3⟩ := (later h1).1 h2
        exact ⟨h1, x :: a, r, h3⟩
      · rintro ⟨h1, a, r, h2, h3, h4⟩
        cases a with
        | cons x a => exact ⟨h1, (later h1).2 ⟨x, a, r, h2, h3, h4⟩⟩
        | nil =>
          obtain ⟨e', rfl, he⟩ := h1
          simp only [List.nil_append, List.cons_append, List.cons.injEq] at h2
          rcases h3 with ⟨_, h3⟩ | ⟨a', h3⟩
          · exact absurd h2.1 (hb h3)
          · simp at h3

theorem metaEntry_iff (t e : Str) : e ∈ (splitChunks true (splitMeta true t).2).2 ↔ MetaEntry t e := by
  rw [splitMeta_chunks, splitChunks_mem]
  constructor
  · rintro ⟨⟨e', rfl, he⟩, a, r, h1, h2, h3⟩
    have he' := (noMetaFrom_iff _ _).1 he
    refine ⟨⟨e', rfl⟩, ?_, a, r, h1, ?_, h3⟩
    · intro x y h
      cases x with
      | nil => simp at h
      | cons z x =>
        simp only [List.cons_append, List.cons.injEq] at h
        exact he'.2 x y h.2
    · rcases h2 with ⟨h2, _⟩ | h2
      · exact Or.inl h2
      · exact Or.inr h2
  · rintro ⟨⟨e', rfl⟩, h1, a, r, h2, h3, h4⟩
    refine ⟨⟨e', rfl, (noMetaFrom_iff _ _).2 ⟨by simp, fun x y h => h1 (':' :: x) y (by rw [h]; rfl)⟩⟩, a, r, h2, ?_, h4⟩
    rcases h3 with h3 | h3
    · exact Or.inl ⟨h3, rfl⟩
    · exact Or.inr h3

theorem noSecondColon_iff (e : Str) : NoSecondColon e ↔ ':' ∉ e.dropWhile (· = ':') := by
  constructor
  · rintro ⟨n, r, rfl, hr⟩
    rw [dropWhile_append_all (by intro c hc; simpa using List.eq_of_mem_replicate hc)]
    intro h
    exact hr ((List.dropWhile_sublist _).subset h)
  · intro h
    induction e with
    | nil => exact ⟨0, [], rfl, by simp⟩
    | cons c e ih =>
      by_cases hc : c = ':'
      · subst hc
        obtain ⟨n, r, he, hr⟩ := ih (by simpa using h)
        exact ⟨n + 1, r, by rw [he]; rfl, hr⟩
      · refine ⟨0, c :: e, rfl, ?_⟩
        simpa [hc] using h

theorem parseDocField_error_iff (e : Str) (er : Err) : parseDocField e = .error er ↔ er = .valueError ∧ NoSecondColon e := by
  rw [noSecondColon_iff, ← splitColon_none_iff]
  unfold parseDocField
  split
  · rename_i h
    simp only [Except.error.injEq, h, and_true]
    exact ⟨Eq.symm, Eq.symm⟩
  · rename_i a b h
    simp [h]

theorem parseDocFields_error_iff (cs : List Str) (d : Docstring) (er : Err) :
    parseDocFields cs d = .error er ↔ er = .valueError ∧ ∃ e ∈ cs, NoSecondColon e := by
  induction cs generalizing d with
  | nil => simp [parseDocFields]
  | cons c cs ih =>
    simp only [parseDocFields]
    cases hf : parseDocField c with
    | error x =>
      have h1 := (parseDocField_error_iff c x).1 hf
      simp only [Except.bind, Except.error.injEq]
      constructor
      · rintro rfl
        exact ⟨h1.1, c, by simp, h1.2⟩
      · rintro ⟨rfl, _⟩
        exact h1.1
    | ok f =>
      simp only [Except.bind]
      rw [ih]
      have hno : ¬ NoSecondColon c := fun hn => by
        rw [(parseDocField_error_iff c .valueError).2 ⟨rfl, hn⟩] at hf
        exact absurd hf (by simp)
      constructor
      · rintro ⟨h1, e, he, hn⟩
        exact ⟨h1, e, by simp [he], hn⟩
      · rintro ⟨h1, e, he, hn⟩
        rcases List.mem_cons.1 he with rfl | he
        · exact absurd hn hno
        · exact ⟨h1, e, he, hn⟩

/-- C41: parsing raises exactly if an entry of the metadata has no colon after its leading colons, and the exception is always
`ValueError`. -/
theorem C41_parse_error_iff (t : Str) (er : Err) :
    parseText t = .error er ↔ er = .valueError ∧ ∃ e, MetaEntry (cleandoc t) e ∧ NoSecondColon e := by
  unfold parseText
  split
  · rename_i h
    have ht : t = [] := by simpa using h
    subst ht
    simp only [reduceCtorEq, false_iff, not_and, not_exists]
    rintro _ e ⟨⟨e', rfl⟩, _, a, r, h, _⟩
    have : cleandoc [] = [] := by decide
    rw [this] at h
    simp at h
  · rw [parseDocFields_error_iff]
    simp only [metaEntry_iff]

/-- C41: a text whose metadata entries all have their second colon is parsed. -/
theorem C41_parse_partial (t : Str) (h : ∀ e, MetaEntry (cleandoc t) e → ¬ NoSecondColon e) : ∃ d, parseText t = .ok d := by
  cases hp : parseText t with
  | ok d => exact ⟨d, rfl⟩
  | error er =>
    obtain ⟨_, e, h1, h2⟩ := (C41_parse_error_iff t er).1 hp
    exact absurd h2 (h e h1)

/-- Parsing is not total: a line that starts with a colon and has no other colon raises `ValueError`. -/
theorem C41_parse_total_fails : parseText c!"Text.\n\n:nothing" = .error .valueError := by decide +kernel

/-! ### Checks -/

/-- C41: the check of a data class raises `TypeError` exactly if a documented parameter is not a member that the class itself
declares, or, in strict mode, such a member is not documented. -/
theorem C41_dataclass_iff (k : DocClass) (d : Docstring) (strict : Bool) (er : Err) :
    checkDataclassDoc k d strict = .error er ↔ er = .typeError ∧
      ((∃ p ∈ d.params, ¬ (p.1 ∈ k.props ∧ ∀ b ∈ k.bases, p.1 ∉ b)) ∨
       (strict = true ∧ ∃ n ∈ k.props, (∀ b ∈ k.bases, n ∉ b) ∧ ∀ p ∈ d.params, p.1 ≠ n)) := by
  have hown : ∀ n, n ∈ k.own ↔ n ∈ k.props ∧ ∀ b ∈ k.bases, n ∉ b := by
    intro n
    simp [DocClass.own]
  have h1 : (d.params.any (fun p => !k.own.contains p.1)) = true ↔
      ∃ p ∈ d.params, ¬ (p.1 ∈ k.props ∧ ∀ b ∈ k.bases, p.1 ∉ b) := by
    simp only [List.any_eq_true, Bool.not_eq_true', List.contains_eq_mem, decide_eq_false_iff_not, hown]
  have h2 : (k.own.any (fun n => !(d.params.map (·.1)).contains n)) = true ↔
      ∃ n ∈ k.props, (∀ b ∈ k.bases, n ∉ b) ∧ ∀ p ∈ d.params, p.1 ≠ n := by
    simp only [List.any_eq_true, Bool.not_eq_true', List.contains_eq_mem, decide_eq_false_iff_not, hown, List.mem_map,
      not_exists, not_and]
    constructor
    · rintro ⟨n, ⟨hn, hb⟩, h⟩; exact ⟨n, hn, hb, h⟩
    · rintro ⟨n, hn, hb, h⟩; exact ⟨n, ⟨hn, hb⟩, h⟩
  unfold checkDataclassDoc
  by_cases c1 : (d.params.any (fun p => !k.own.contains p.1)) = true
  · rw [if_pos c1]
    simp only [Except.error.injEq, h1.1 c1, true_or, and_true]
    exact ⟨Eq.symm, Eq.symm⟩
  · rw [if_neg c1]
    have c1' := fun h => c1 (h1.2 h)
    cases strict with
    | false =>
      simp only [Bool.not_false, if_true, reduceCtorEq, false_iff]
      rintro ⟨_, h | ⟨h, _⟩⟩
      · exact c1' h
      · exact absurd h (by decide)
    | true =>
      simp only [Bool.not_true, Bool.false_eq_true, if_false]
      by_cases c2 : (k.own.any (fun n => !(d.params.map (·.1)).contains n)) = true
      · rw [if_pos c2]
        simp only [Except.error.injEq, h2.1 c2, and_self, or_true, and_true]
        exact ⟨Eq.symm, Eq.symm⟩
      · rw [if_neg c2]
        have c2' := fun h => c2 (h2.2 h)
        simp only [reduceCtorEq, false_iff]
        rintro ⟨_, h | ⟨_, h⟩⟩
        · exact c1' h
        · exact c2' h

/-- C41: for a class without base classes that have annotated members, the check is exactly the comparison of names. -/
theorem C41_dataclass_nobase_iff (props : List Str) (bases : List (List Str)) (hb : ∀ b ∈ bases, b = []) (d : Docstring)
    (strict : Bool) (er : Err) :
    checkDataclassDoc ⟨props, bases⟩ d strict = .error er ↔ er = .typeError ∧
      ((∃ p ∈ d.params, p.1 ∉ props) ∨ (strict = true ∧ ∃ n ∈ props, ∀ p ∈ d.params, p.1 ≠ n)) := by
  have hb' : ∀ n, (∀ b ∈ bases, n ∉ b) ↔ True := by
    intro n
    simp only [iff_true]
    intro b hbb
    rw [hb b hbb]
    simp
  rw [C41_dataclass_iff]
  simp only [hb', and_true, true_and]

/-- C41: the check of a function raises `TypeError` exactly if a documented parameter is not in the signature, a return value is
documented without return annotation, or, in strict mode, a parameter other than `self` or an annotated return value is not
documented. -/
theorem C41_function_iff (g : DocSig) (d : Docstring) (strict : Bool) (er : Err) :
    checkFunctionDoc g d strict = .error er ↔ er = .typeError ∧
      ((∃ p ∈ d.params, ∀ q ∈ g.params, q.1 ≠ p.1) ∨ (d.returns.isSome ∧ g.hasReturn = false) ∨
       (strict = true ∧ ((∃ q ∈ g.params, (q.1 = c!"self" → q.2 ≠ .positionalOnly ∧ q.2 ≠ .positionalOrKeyword) ∧
          ∀ p ∈ d.params, p.1 ≠ q.1) ∨ (g.hasReturn = true ∧ d.returns = none)))) := by
  have h1 : (d.params.any (fun p => !(g.params.map (·.1)).contains p.1)) = true ↔ ∃ p ∈ d.params, ∀ q ∈ g.params, q.1 ≠ p.1 := by
    simp only [List.any_eq_true, Bool.not_eq_true', List.contains_eq_mem, decide_eq_false_iff_not, List.mem_map, not_exists, not_and]
  have hself : ∀ q : Str × ParamKind, isSelfParam q = false ↔
      (q.1 = c!"self" → q.2 ≠ .positionalOnly ∧ q.2 ≠ .positionalOrKeyword) := by
    intro q
    simp only [isSelfParam, Bool.and_eq_false_iff, decide_eq_false_iff_not, Bool.or_eq_false_iff]
    constructor
    · rintro (h | h) hq
      · exact absurd hq h
      · exact h
    · intro h
      by_cases hq : q.1 = c!"self"
      · exact Or.inr (h hq)
      · exact Or.inl hq
  have h3 : (g.params.any (fun p => !isSelfParam p && !(d.params.map (·.1)).contains p.1)) = true ↔
      ∃ q ∈ g.params, (q.1 = c!"self" → q.2 ≠ .positionalOnly ∧ q.2 ≠ .positionalOrKeyword) ∧ ∀ p ∈ d.params, p.1 ≠ q.1 := by
    simp only [List.any_eq_true, Bool.and_eq_true, Bool.not_eq_true', hself, List.contains_eq_mem, decide_eq_false_iff_not, List.mem_map,
      not_exists, not_and]
  have mk : ∀ {P : Prop}, P → ((Except.error Err.typeError : Res Unit) = .error er ↔ er = .typeError ∧ P) := by
    intro P hP
    simp only [Except.error.injEq, hP, and_true]
    exact ⟨Eq.symm, Eq.symm⟩
  unfold checkFunctionDoc
  by_cases c1 : (d.params.any (fun p => !(g.params.map (·.1)).contains p.1)) = true
  · rw [if_pos c1]
    exact mk (Or.inl (h1.1 c1))
  · rw [if_neg c1]
    have c1' := fun h => c1 (h1.2 h)
    by_cases c2 : (d.returns.isSome && !g.hasReturn) = true
    · rw [if_pos c2]
      exact mk (Or.inr (Or.inl (by simpa using c2)))
    · rw [if_neg c2]
      have c2' : ¬ (d.returns.isSome ∧ g.hasReturn = false) := fun h => c2 (by simp [h.1, h.2])
      cases strict with
      | false =>
        simp only [Bool.not_false, if_true, reduceCtorEq, false_iff, not_and]
        rintro _ (h | h | ⟨h, _⟩)
        · exact c1' h
        · exact c2' h
        · exact absurd h (by decide)
      | true =>
        rw [if_neg (by decide)]
        by_cases c3 : (g.params.any (fun p => !isSelfParam p && !(d.params.map (·.1)).contains p.1)) = true
        · rw [if_pos c3]
          exact mk (Or.inr (Or.inr ⟨rfl, Or.inl (h3.1 c3)⟩))
        · rw [if_neg c3]
          have c3' := fun h => c3 (h3.2 h)
          by_cases c4 : (g.hasReturn && d.returns.isNone) = true
          · rw [if_pos c4]
            exact mk (Or.inr (Or.inr ⟨rfl, Or.inr (by simpa using c4)⟩))
          · rw [if_neg c4]
            have c4' : ¬ (g.hasReturn = true ∧ d.returns = none) := fun h => c4 (by simp [h.1, h.2])
            simp only [reduceCtorEq, false_iff, not_and]
            rintro _ (h | h | ⟨_, h | h⟩)
            · exact c1' h
            · exact c2' h
            · exact c3' h
            · exact c4' h

/-- The check rejects a documented parameter that the data class inherits, although the class has a member of that name. -/
theorem C41_inherited_fails :
    checkDataclassDoc ⟨[c!"x", c!"y"], [[c!"x"], []]⟩ { params := [(c!"x", c!"inherited")] } false = .error .typeError ∧
      c!"x" ∈ (DocClass.mk [c!"x", c!"y"] [[c!"x"], []]).props := by decide

/-- Strict mode accepts an undocumented member that the data class inherits or redeclares. -/
theorem C41_inherited_strict_fails :
    checkDataclassDoc ⟨[c!"x", c!"y"], [[c!"x"], []]⟩ { params := [(c!"y", c!"own")] } true = .ok () := by decide

/-! ### Examples -/

/-- The hypothesis of `C41_parse_partial` holds for a text with several entries. -/
example : ∀ e, MetaEntry (cleandoc c!"Text.\n\n    :param a: b\n      c\n    :returns: d\n") e → ¬ NoSecondColon e := by
  intro e he
  rw [← metaEntry_iff] at he
  have : (splitChunks true (splitMeta true (cleandoc c!"Text.\n\n    :param a: b\n      c\n    :returns: d\n")).2).2 =
      [c!":param a: b\n  c\n", c!":returns: d"] := by decide +kernel
  rw [this] at he
  simp only [List.mem_cons, List.not_mem_nil, or_false] at he
  rcases he with rfl | rfl <;> rw [noSecondColon_iff] <;> decide

example : parseText c!"Text\n    more.\n\n    :param a: b\n      c\n    :returns: d\n" =
    .ok { short := some c!"Text more.", params := [(c!"a", c!"b c")], returns := some c!"d" } := by decide +kernel

example : checkFunctionDoc ⟨[(c!"self", .positionalOrKeyword), (c!"a", .keywordOnly)], true⟩
    { params := [(c!"a", c!"x")], returns := some c!"y" } true = .ok () := by decide

/-- `self` must be documented if it is keyword-only. -/
example : checkFunctionDoc ⟨[(c!"self", .keywordOnly)], false⟩ {} true = .error .typeError := by decide

end Verif
