import Verif.Lemmas.Docstring
/-!
# Lemmas about parsing of docstring entries
-/
namespace Verif

/-! ### Written entries are parsed -/

theorem pyWords_two {kw n : Str} (hk : ∀ c ∈ kw, pySpace c = false) (hk0 : kw ≠ []) (hn : DocName n) :
    pyWords (kw ++ ' ' :: n) = [kw, n] := by
  have h0 : n ≠ [] := hn.nonempty
  unfold pyWords
  rw [splitBy_word_sep hk (by decide), splitBy_word (fun c hc => (hn.chars c hc).1)]
  simp [hk0, h0]

theorem pyWords_one {kw : Str} (hk : ∀ c ∈ kw, pySpace c = false) (hk0 : kw ≠ []) : pyWords kw = [kw] := by
  unfold pyWords
  rw [splitBy_word hk]
  simp [hk0]

theorem desc_parsed {s t : Str} (hs : OneLine s) (ht : ∀ c ∈ t, pySpace c = true) :
    collapseSpace false (pyStrip (' ' :: (s ++ t))) = s := by
  have := pyStrip_trimmed (a := [' ']) hs.trimmed (by simp; decide) ht
  rw [List.singleton_append] at this
  rw [this]
  exact collapse_oneLine false hs.blanks hs.single (by simp)

/-- An entry: colon, words, colon, description. -/
theorem parseDocField_eq {c : Char} {w s t : Str} (hc : ':' ∉ c :: w) (hs : OneLine s) (ht : ∀ x ∈ t, pySpace x = true) :
    parseDocField (':' :: (c :: w ++ ':' :: ' ' :: (s ++ t))) = .ok (fieldOf (pyWords (c :: w)) s) := by
  have hne : ¬ c = ':' := fun h => hc (by simp [h])
  have e : (':' :: (c :: w ++ ':' :: ' ' :: (s ++ t))).dropWhile (· = ':') = c :: w ++ ':' :: ' ' :: (s ++ t) := by
    simp [hne]
  unfold parseDocField
  rw [e, splitColon_append hc]
  simp only [desc_parsed hs ht]

theorem parse_paramStr {n s t : Str} (hn : DocName n) (hs : OneLine s) (ht : ∀ c ∈ t, pySpace c = true) :
    parseDocField (paramStr (n, s) ++ t) = .ok (.param n s) := by
  have hc : ':' ∉ 'p' :: c!"aram" ++ ' ' :: n := by
    intro h
    rcases List.mem_append.1 h with h | h
    · exact absurd h (by decide)
    · rcases List.mem_cons.1 h with h | h
      · exact absurd h (by decide)
      · exact (hn.chars _ h).2 rfl
  have := parseDocField_eq (c := 'p') (w := c!"aram" ++ ' ' :: n) hc hs ht
  have e : paramStr (n, s) ++ t = ':' :: ('p' :: (c!"aram" ++ ' ' :: n) ++ ':' :: ' ' :: (s ++ t)) := by simp [paramStr]
  rw [e, this]
  have e2 : ('p' :: (c!"aram" ++ ' ' :: n)) = c!"param" ++ ' ' :: n := rfl
  rw [e2, pyWords_two (by decide) (by decide) hn]
  rfl

theorem parse_raisesStr {n s t : Str} (hn : DocName n) (hs : OneLine s) (ht : ∀ c ∈ t, pySpace c = true) :
    parseDocField (raisesStr (n, s) ++ t) = .ok (.raises n s) := by
  have hc : ':' ∉ 'r' :: c!"aises" ++ ' ' :: n := by
    intro h
    rcases List.mem_append.1 h with h | h
    · exact absurd h (by decide)
    · rcases List.mem_cons.1 h with h | h
      · exact absurd h (by decide)
      · exact (hn.chars _ h).2 rfl
  have := parseDocField_eq (c := 'r') (w := c!"aises" ++ ' ' :: n) hc hs ht
  have e : raisesStr (n, s) ++ t = ':' :: ('r' :: (c!"aises" ++ ' ' :: n) ++ ':' :: ' ' :: (s ++ t)) := by simp [raisesStr]
  rw [e, this]
  have e2 : ('r' :: (c!"aises" ++ ' ' :: n)) = c!"raises" ++ ' ' :: n := rfl
  rw [e2, pyWords_two (by decide) (by decide) hn]
  rfl

theorem parse_returnsStr {s t : Str} (hs : OneLine s) (ht : ∀ c ∈ t, pySpace c = true) :
    parseDocField (returnsStr s ++ t) = .ok (.returns s) := by
  have := parseDocField_eq (c := 'r') (w := c!"eturns") (by decide) hs ht
  have e : returnsStr s ++ t = ':' :: ('r' :: c!"eturns" ++ ':' :: ' ' :: (s ++ t)) := by simp [returnsStr]
  rw [e, this, pyWords_one (by decide) (by decide)]
  rfl

theorem parse_seeStr {s t : Str} (hs : OneLine s) (ht : ∀ c ∈ t, pySpace c = true) :
    parseDocField (seeStr s ++ t) = .ok (.see s) := by
  have := parseDocField_eq (c := 's') (w := c!"ee") (by decide) hs ht
  have e : seeStr s ++ t = ':' :: ('s' :: c!"ee" ++ ':' :: ' ' :: (s ++ t)) := by simp [seeStr]
  rw [e, this, pyWords_one (by decide) (by decide)]
  rfl

/-- A line and what it is parsed as. -/
structure LineOf (f : Str) (x : DocField) : Prop where
  head : f.head? = some ':'
  line : ∀ c ∈ f, pySpace c = true → c = ' '
  parsed : ∀ t : Str, (∀ c ∈ t, pySpace c = true) → parseDocField (f ++ t) = .ok x

/-- The entries of a docstring. -/
def Docstring.entries (d : Docstring) : List DocField :=
  d.params.map (fun p => .param p.1 p.2) ++ d.returns.toList.map .returns ++ d.raises.map (fun p => .raises p.1 p.2) ++
    d.seeAlso.map .see

theorem blanks_append {a b : Str} (ha : ∀ c ∈ a, pySpace c = true → c = ' ') (hb : ∀ c ∈ b, pySpace c = true → c = ' ') :
    ∀ c ∈ a ++ b, pySpace c = true → c = ' ' := by
  intro c hc
  rcases List.mem_append.1 hc with h | h
  · exact ha c h
  · exact hb c h

theorem docName_blanks {n : Str} (hn : DocName n) : ∀ c ∈ n, pySpace c = true → c = ' ' := by
  intro c hc hs
  rw [(hn.chars c hc).1] at hs
  exact absurd hs (by decide)

/-- Lines and entries correspond. -/
inductive LinesOf : List Str → List DocField → Prop
  | nil : LinesOf [] []
  | cons {f x fs xs} : LineOf f x → LinesOf fs xs → LinesOf (f :: fs) (x :: xs)

theorem LinesOf.nil_eq {xs : List DocField} (h : LinesOf [] xs) : xs = [] := by cases h; rfl

theorem LinesOf.append {a b : List Str} {x y : List DocField} (h1 : LinesOf a x) (h2 : LinesOf b y) : LinesOf (a ++ b) (x ++ y) := by
  induction h1 with
  | nil => exact h2
  | cons h _ ih => exact .cons h ih

theorem LinesOf.map {α : Type} {f : α → Str} {g : α → DocField} : ∀ {l : List α}, (∀ a ∈ l, LineOf (f a) (g a)) →
    LinesOf (l.map f) (l.map g)
  | [], _ => .nil
  | a :: l, h => .cons (h a (by simp)) (LinesOf.map (fun b hb => h b (by simp [hb])))

theorem fieldLines_linesOf {d : Docstring} (h : d.MetaOk) : LinesOf d.fieldLines d.entries := by
  refine LinesOf.append (LinesOf.append (LinesOf.append (.map ?_) (.map ?_)) (.map ?_)) (.map ?_)
  · intro p hp
    obtain ⟨h1, h2⟩ := h.params p hp
    exact ⟨rfl, blanks_append (blanks_append (blanks_append (by decide) (docName_blanks h1)) (by decide)) h2.blanks,
      fun t ht => parse_paramStr h1 h2 ht⟩
  · intro s hs
    have h2 := h.returns s (by simpa using hs)
    exact ⟨rfl, blanks_append (by decide) h2.blanks, fun t ht => parse_returnsStr h2 ht⟩
  · intro p hp
    obtain ⟨h1, h2⟩ := h.raises p hp
    exact ⟨rfl, blanks_append (blanks_append (blanks_append (by decide) (docName_blanks h1)) (by decide)) h2.blanks,
      fun t ht => parse_raisesStr h1 h2 ht⟩
  · intro s hs
    have h2 := h.seeAlso s hs
    exact ⟨rfl, blanks_append (by decide) h2.blanks, fun t ht => parse_seeStr h2 ht⟩

theorem parseDocFields_termLines : ∀ {fs : List Str} {xs : List DocField}, LinesOf fs xs → ∀ d,
    parseDocFields (termLines fs) d = .ok (xs.foldl addField d)
  | [], _, .nil, d => rfl
  | [f], _, .cons h .nil, d => by
    have := h.parsed [] (by simp)
    rw [List.append_nil] at this
    simp [termLines, parseDocFields, this, Except.bind]
  | f :: g :: fs, _, .cons h h', d => by
    have := h.parsed ['\n'] (by simp; decide)
    simp only [termLines, parseDocFields, this, Except.bind]
    exact parseDocFields_termLines h' _

/-! ### Adding the entries of a docstring -/

theorem fold_params : ∀ (l : List (Str × Str)) (d : Docstring), ((d.params ++ l).map (·.1)).Nodup →
    (l.map (fun p => DocField.param p.1 p.2)).foldl addField d = { d with params := d.params ++ l }
  | [], d, _ => by simp
  | (n, s) :: l, d, h => by
    have hn : n ∉ d.params.map (·.1) := by
      simp only [List.map_append, List.map_cons] at h
      intro hn
      exact (List.nodup_append.1 h).2.2 n hn n (by simp) rfl
    simp only [List.map_cons, List.foldl_cons, addField]
    rw [fold_params l _ (by simp only [upsert_of_not_mem hn]; simpa using h)]
    simp [upsert_of_not_mem hn]

theorem fold_raises : ∀ (l : List (Str × Str)) (d : Docstring), ((d.raises ++ l).map (·.1)).Nodup →
    (l.map (fun p => DocField.raises p.1 p.2)).foldl addField d = { d with raises := d.raises ++ l }
  | [], d, _ => by simp
  | (n, s) :: l, d, h => by
    have hn : n ∉ d.raises.map (·.1) := by
      simp only [List.map_append, List.map_cons] at h
      intro hn
      exact (List.nodup_append.1 h).2.2 n hn n (by simp) rfl
    simp only [List.map_cons, List.foldl_cons, addField]
    rw [fold_raises l _ (by simp only [upsert_of_not_mem hn]; simpa using h)]
    simp [upsert_of_not_mem hn]

theorem fold_see : ∀ (l : List Str) (d : Docstring),
    (l.map DocField.see).foldl addField d = { d with seeAlso := d.seeAlso ++ l }
  | [], d => by simp
  | s :: l, d => by
    simp only [List.map_cons, List.foldl_cons, addField]
    rw [fold_see l]
    simp

theorem fold_entries (d : Docstring) (h : d.MetaOk) :
    d.entries.foldl addField { short := d.short, long := d.long } = d := by
  unfold Docstring.entries
  rw [List.foldl_append, List.foldl_append, List.foldl_append, fold_params _ _ (by simpa using h.paramNames)]
  have hr : ∀ d' : Docstring, (d.returns.toList.map DocField.returns).foldl addField d' =
      { d' with returns := d.returns.or d'.returns } := by
    intro d'
    cases d.returns <;> simp [addField]
  rw [hr, fold_raises _ _ (by simpa using h.raisesNames), fold_see]
  simp

/-! ### The whole text -/

theorem flatMap_nl : ∀ {fs : List Str}, fs ≠ [] → fs.flatMap (fun f => '\n' :: f) = '\n' :: joinWith '\n' fs
  | [], h => absurd rfl h
  | [f], _ => by simp [joinWith]
  | f :: g :: fs, _ => by
    have ih := flatMap_nl (fs := g :: fs) (by simp)
    rw [List.flatMap_cons, ih]
    simp [joinWith]

theorem hasBlocks_iff (d : Docstring) :
    (!d.params.isEmpty || d.returns.isSome || !d.raises.isEmpty || !d.seeAlso.isEmpty) = !d.fieldLines.isEmpty := by
  unfold Docstring.fieldLines
  cases d.params <;> cases d.returns <;> cases d.raises <;> cases d.seeAlso <;> simp

theorem LinesOf.head {fs : List Str} {xs : List DocField} (h : LinesOf fs xs) : ∀ f ∈ fs, '\n' ∉ f ∧ f.head? = some ':' := by
  induction h with
  | nil => simp
  | cons h1 _ ih =>
    intro f hf
    rcases List.mem_cons.1 hf with rfl | hf
    · exact ⟨fun hn => absurd (h1.line _ hn (by decide)) (by decide), h1.head⟩
    · exact ih f hf

theorem LinesOf.blanks {fs : List Str} {xs : List DocField} (h : LinesOf fs xs) : ∀ f ∈ fs, ∀ c ∈ f, pySpace c = true → c = ' ' := by
  induction h with
  | nil => simp
  | cons h1 _ ih =>
    intro f hf
    rcases List.mem_cons.1 hf with rfl | hf
    · exact h1.line
    · exact ih f hf

/-- The block of entries starts with a colon and does not end with a line break. -/
theorem join_block {fs : List Str} {xs : List DocField} (h : LinesOf fs xs) (hne : fs ≠ []) :
    (∃ r, joinWith '\n' fs = ':' :: r) ∧ '\t' ∉ joinWith '\n' fs ∧ (joinWith '\n' fs).getLast? ≠ some '\n' := by
  refine ⟨?_, ?_, ?_⟩
  · cases fs with
    | nil => exact absurd rfl hne
    | cons f fs =>
      have := (h.head f (by simp)).2
      cases f with
      | nil => simp at this
      | cons c f =>
        simp only [List.head?_cons, Option.some.injEq] at this
        subst this
        cases fs with
        | nil => exact ⟨f, rfl⟩
        | cons g fs => exact ⟨_, rfl⟩
  · intro ht
    rcases mem_joinWith _ _ _ ht with e | ⟨f, hf, hc⟩
    · exact absurd e (by decide)
    · exact absurd (h.blanks f hf _ hc (by decide)) (by decide)
  · have hh := h.head
    clear h
    induction fs with
    | nil => exact absurd rfl hne
    | cons f fs ih =>
      cases fs with
      | nil =>
        simp only [joinWith]
        intro e
        exact (hh f (by simp)).1 (List.mem_of_getLast? e)
      | cons g fs =>
        have ih' := ih (by simp) (fun x hx => hh x (by simp [List.mem_cons.1 hx]))
        have hg := (hh g (by simp)).2
        have hne' : joinWith '\n' (g :: fs) ≠ [] := by
          cases g with
          | nil => simp at hg
          | cons c g => cases fs <;> simp [joinWith]
        simp only [joinWith]
        rw [List.getLast?_append, List.getLast?_cons_of_ne_nil hne']
        cases hl : (joinWith '\n' (g :: fs)).getLast? with
        | none => simp at hl; exact absurd hl hne'
        | some c => rw [hl] at ih'; simpa using ih'

theorem pySpace_nl : pySpace '\n' = true := by decide

theorem trimmed_last_ne_nl {s : Str} (h : Trimmed s) : s.getLast? ≠ some '\n' := by
  intro e
  have := h.2 _ e
  rw [pySpace_nl] at this
  exact absurd this (by decide)

end Verif
