import Verif.Lemmas.DocParse
/-!
# C40: docstrings survive formatting and parsing
-/
namespace Verif

theorem map_nl_id {s : Str} (h : '\n' ∉ s) : s.map (fun c => if c = '\n' then ' ' else c) = s := by
  induction s with
  | nil => rfl
  | cons c s ih =>
    simp only [List.mem_cons, not_or] at h
    have : ¬ c = '\n' := fun e => h.1 e.symm
    simp [this, ih h.2]

theorem strOrNone_ne {s : Str} (h : s ≠ []) : strOrNone s = some s := by
  cases s with
  | nil => exact absurd rfl h
  | cons c s => rfl

/-- Parsing of a clean text that starts with the description `D` and continues with the block of entries. -/
theorem parse_desc_block {D J : Str} (t : Str) (ht : t ≠ []) (hJ : ∃ r, J = ':' :: r) (hD : NoMetaFrom true D)
    (hclean : cleandoc t = D ++ '\n' :: '\n' :: J) :
    parseText t = parseDocFields (splitChunks true J).2
      { short := strOrNone ((pyStrip (splitPara (D ++ ['\n', '\n'])).1).map (fun c => if c = '\n' then ' ' else c)),
        long := longOf (splitPara (D ++ ['\n', '\n'])).2 } := by
  obtain ⟨r, rfl⟩ := hJ
  have hm : splitMeta true (cleandoc t) = (D ++ ['\n', '\n'], ':' :: r) := by
    have h1 : NoMetaFrom true (D ++ '\n' :: []) := noMetaFrom_append hD rfl
    have := splitMeta_append (v := ':' :: r) h1 rfl
    rw [hclean]
    simpa using this
  have : t.isEmpty = false := by cases t with | nil => exact absurd rfl ht | cons c t => rfl
  unfold parseText
  simp only [this, Bool.false_eq_true, if_false, hm]

/-- C40: a well-formed docstring is parsed from its text, whatever its descriptions and entries are. -/
theorem C40_roundtrip (d : Docstring) (h : d.WellFormed) : parseText d.str = .ok d := by
  have hl := fieldLines_linesOf h.fields
  have hfold := fold_entries d h.fields
  have hstr : d.str = (if optTrue d.short || optTrue d.long then d.descText else []) ++
      if !d.fieldLines.isEmpty then (if optTrue d.short || optTrue d.long then c!"\n" else []) ++
        d.fieldLines.flatMap (fun f => '\n' :: f) else [] := by
    rw [← hasBlocks_iff]; rfl
  cases hs : d.short with
  | none =>
    have hlong : d.long = none := by
      cases hd : d.long with
      | none => rfl
      | some l => have := (h.texts.long l hd).1; rw [hs] at this; exact absurd this (by decide)
    rw [hs, hlong] at hfold
    simp only [hs, hlong, optTrue, Bool.or_self, Bool.false_eq_true, if_false, List.nil_append] at hstr
    cases hf : d.fieldLines with
    | nil =>
      rw [hf] at hl hstr
      rw [hstr]
      have he : d.entries = [] := hl.nil_eq
      rw [he] at hfold
      simp only [List.foldl_nil] at hfold
      rw [← hfold]
      rfl
    | cons f fs =>
      have hne : d.fieldLines ≠ [] := by rw [hf]; simp
      obtain ⟨⟨r, hr⟩, htab, hlast⟩ := join_block hl hne
      have e : d.str = '\n' :: joinWith '\n' d.fieldLines := by
        rw [hstr, flatMap_nl hne]
        rw [hf]; rfl
      have hclean : cleandoc d.str = joinWith '\n' d.fieldLines := by
        rw [e]; exact cleandoc_nl hr htab (by decide) hlast
      unfold parseText
      have hemp : d.str.isEmpty = false := by rw [e]; rfl
      have hm : splitMeta true (cleandoc d.str) = ([], joinWith '\n' d.fieldLines) := by
        rw [hclean, hr]; rfl
      simp only [hemp, Bool.false_eq_true, if_false, hm, splitChunks_join hl.head]
      rw [parseDocFields_termLines hl]
      simp only [splitPara]
      exact congrArg Except.ok hfold
  | some s =>
    have hS := h.texts.short s hs
    have hs0 : s.isEmpty = false := by cases s with | nil => exact absurd rfl hS.nonempty | cons c s => rfl
    obtain ⟨c, s', hcs⟩ : ∃ c s', s = c :: s' := by
      cases s with
      | nil => exact absurd rfl hS.nonempty
      | cons c s => exact ⟨c, s, rfl⟩
    have hc : pySpace c = false := hS.trimmed.1 c (by rw [hcs]; rfl)
    have hshort : strOrNone ((pyStrip s).map (fun c => if c = '\n' then ' ' else c)) = some s := by
      rw [pyStrip_self hS.trimmed, map_nl_id hS.oneLine, strOrNone_ne hS.nonempty]
    -- the long description, if any
    cases hlong : d.long with
    | none =>
      rw [hs, hlong] at hfold
      simp only [hs, hlong, Docstring.descText, optTrue, hs0, Bool.not_false, Bool.or_false, if_true] at hstr
      cases hf : d.fieldLines with
      | nil =>
        rw [hf] at hl hstr
        simp only [List.isEmpty_nil, Bool.not_true, Bool.false_eq_true, if_false, List.append_nil] at hstr
        have he : d.entries = [] := hl.nil_eq
        rw [he] at hfold
        simp only [List.foldl_nil] at hfold
        have hclean : cleandoc d.str = s := by
          rw [hstr]; exact cleandoc_fix hcs hS.noTab hc (trimmed_last_ne_nl hS.trimmed) (Or.inl hS.oneLine)
        have hemp : d.str.isEmpty = false := by rw [hstr]; exact hs0
        unfold parseText
        have hm : splitMeta true (cleandoc d.str) = (s, []) := by rw [hclean]; exact noMetaFrom_line hS.noMeta
        simp only [hm, hemp, longOf, Bool.false_eq_true, if_false, splitPara_none hS.oneLine, hshort, splitChunks, parseDocFields]
        exact congrArg Except.ok hfold
      | cons f fs =>
        have hne : d.fieldLines ≠ [] := by rw [hf]; simp
        obtain ⟨⟨r, hr⟩, htab, hlast⟩ := join_block hl hne
        have e : d.str = s ++ '\n' :: '\n' :: joinWith '\n' d.fieldLines := by
          rw [hstr, flatMap_nl hne]
          rw [hf]
          simp
        have hclean : cleandoc d.str = s ++ '\n' :: '\n' :: joinWith '\n' d.fieldLines := by
          rw [e]
          refine cleandoc_fix (c := c) (r := s' ++ '\n' :: '\n' :: joinWith '\n' d.fieldLines) (by rw [hcs]; rfl) ?_ hc ?_ (Or.inr ?_)
          · simp only [List.mem_append, List.mem_cons, not_or]
            exact ⟨hS.noTab, by decide, by decide, htab⟩
          · rw [List.getLast?_append]
            simp only [List.getLast?_cons_cons]
            rw [List.getLast?_cons_of_ne_nil (by rw [hr]; simp)]
            cases hg : (joinWith '\n' d.fieldLines).getLast? with
            | none => rw [hr] at hg; simp at hg
            | some x => rw [hg] at hlast; simpa using hlast
          · exact ⟨s ++ ['\n'], ':', r, by rw [hr]; simp, by decide⟩
        rw [parse_desc_block d.str (by rw [e, hcs]; simp) ⟨r, hr⟩ (noMetaFrom_line hS.noMeta) hclean,
          splitPara_some hS.oneLine, splitChunks_join hl.head, parseDocFields_termLines hl]
        simp only [hshort, longOf]
        exact congrArg Except.ok hfold
    | some l =>
      obtain ⟨_, hL⟩ := h.texts.long l hlong
      have hl0 : l.isEmpty = false := by cases l with | nil => exact absurd rfl hL.nonempty | cons c s => rfl
      obtain ⟨x, l', hxl⟩ : ∃ x l', l = x :: l' := by
        cases l with
        | nil => exact absurd rfl hL.nonempty
        | cons x l => exact ⟨x, l, rfl⟩
      have hx : pySpace x = false := hL.trimmed.1 x (by rw [hxl]; rfl)
      rw [hs, hlong] at hfold
      simp only [hs, hlong, Docstring.descText, optTrue, hs0, hl0, Bool.not_false, Bool.or_self, if_true, Bool.false_eq_true, if_false] at hstr
      have hD : NoMetaFrom true (s ++ '\n' :: '\n' :: l) := by
        refine noMetaFrom_append (noMetaFrom_line hS.noMeta) ?_
        exact noMetaFrom_append (u := []) rfl (noMetaFrom_line hL.noMeta)
      have hlast0 : (s ++ '\n' :: '\n' :: l).getLast? ≠ some '\n' := by
        rw [List.getLast?_append]
        simp only [List.getLast?_cons_cons]
        rw [List.getLast?_cons_of_ne_nil (by rw [hxl]; simp)]
        have := trimmed_last_ne_nl hL.trimmed
        cases hg : l.getLast? with
        | none => rw [hxl] at hg; simp at hg
        | some y => rw [hg] at this; simpa using this
      have htab0 : '\t' ∉ s ++ '\n' :: '\n' :: l := by
        simp only [List.mem_append, List.mem_cons, not_or]
        exact ⟨hS.noTab, by decide, by decide, hL.noTab⟩
      cases hf : d.fieldLines with
      | nil =>
        rw [hf] at hl hstr
        simp only [List.isEmpty_nil, Bool.not_true, Bool.false_eq_true, if_false, List.append_nil] at hstr
        have e : d.str = s ++ '\n' :: '\n' :: l := by rw [hstr]; simp
        have he : d.entries = [] := hl.nil_eq
        rw [he] at hfold
        simp only [List.foldl_nil] at hfold
        have hclean : cleandoc d.str = s ++ '\n' :: '\n' :: l := by
          rw [e]
          exact cleandoc_fix (c := c) (r := s' ++ '\n' :: '\n' :: l) (by rw [hcs]; rfl) htab0 hc hlast0
            (Or.inr ⟨s ++ ['\n'], x, l', by rw [hxl]; simp, hx⟩)
        have hemp : d.str.isEmpty = false := by rw [e, hcs]; rfl
        unfold parseText
        have hm : splitMeta true (cleandoc d.str) = (s ++ '\n' :: '\n' :: l, []) := by rw [hclean]; exact hD
        simp only [hm, hemp, Bool.false_eq_true, if_false, splitPara_some hS.oneLine, hshort, splitChunks, parseDocFields, longOf,
          pyStrip_self hL.trimmed, strOrNone_ne hL.nonempty]
        exact congrArg Except.ok hfold
      | cons f fs =>
        have hne : d.fieldLines ≠ [] := by rw [hf]; simp
        obtain ⟨⟨r, hr⟩, htab, hlast⟩ := join_block hl hne
        have e : d.str = (s ++ '\n' :: '\n' :: l) ++ '\n' :: '\n' :: joinWith '\n' d.fieldLines := by
          rw [hstr, flatMap_nl hne]
          rw [hf]
          simp
        have hclean : cleandoc d.str = (s ++ '\n' :: '\n' :: l) ++ '\n' :: '\n' :: joinWith '\n' d.fieldLines := by
          rw [e]
          refine cleandoc_fix (c := c) (r := s' ++ '\n' :: '\n' :: l ++ '\n' :: '\n' :: joinWith '\n' d.fieldLines)
            (by rw [hcs]; rfl) ?_ hc ?_ (Or.inr ?_)
          · intro hmem
            rcases List.mem_append.1 hmem with hmem | hmem
            · exact htab0 hmem
            · simp only [List.mem_cons] at hmem
              rcases hmem with hmem | hmem | hmem
              · exact absurd hmem (by decide)
              · exact absurd hmem (by decide)
              · exact htab hmem
          · rw [List.getLast?_append]
            simp only [List.getLast?_cons_cons]
            rw [List.getLast?_cons_of_ne_nil (by rw [hr]; simp)]
            cases hg : (joinWith '\n' d.fieldLines).getLast? with
            | none => rw [hr] at hg; simp at hg
            | some x => rw [hg] at hlast; simpa using hlast
          · exact ⟨(s ++ '\n' :: '\n' :: l) ++ ['\n'], ':', r, by rw [hr]; simp, by decide⟩
        have hp : splitPara ((s ++ '\n' :: '\n' :: l) ++ ['\n', '\n']) = (s, some (l ++ ['\n', '\n'])) := by
          have := splitPara_some (s := s) (r := l ++ ['\n', '\n']) hS.oneLine
          simpa using this
        have hlstrip : pyStrip (l ++ ['\n', '\n']) = l := by
          have := pyStrip_trimmed (a := []) (b := ['\n', '\n']) hL.trimmed (by simp) (by decide)
          simpa using this
        rw [parse_desc_block d.str (by rw [e, hcs]; simp) ⟨r, hr⟩ hD hclean,
          hp, splitChunks_join hl.head, parseDocFields_termLines hl]
        simp only [hshort, longOf, hlstrip, strOrNone_ne hL.nonempty]
        exact congrArg Except.ok hfold

/-! ### Parsed docstrings -/

/-- The names of an entry are clean and its description is `s`. -/
def FieldOk (s : Str) : DocField → Prop
  | .param n t => DocName n ∧ t = s
  | .raises n t => DocName n ∧ t = s
  | .returns t => t = s
  | .see t => t = s
  | .ignored => True

theorem fieldOf_ok {args : List Str} {s : Str} (ha : ∀ w ∈ args, DocName w) : FieldOk s (fieldOf args s) := by
  unfold fieldOf
  split
  · trivial
  · split
    · exact rfl
    · split
      · exact rfl
      · trivial
  · split
    · exact ⟨ha _ (by simp), rfl⟩
    · split
      · exact ⟨ha _ (by simp), rfl⟩
      · trivial
  · trivial

theorem parseDocField_ok {chunk : Str} {f : DocField} (h : parseDocField chunk = .ok f) (d : Docstring) (hd : d.MetaOk) :
    (addField d f).MetaOk := by
  unfold parseDocField at h
  split at h
  · simp at h
  · rename_i a b hab
    simp only [Except.ok.injEq] at h
    have ha : ∀ w ∈ pyWords a, DocName w := by
      intro w hw
      obtain ⟨h1, h2⟩ := pyWords_spec hw
      refine ⟨h1, fun c hc => ⟨(h2 c hc).1, ?_⟩⟩
      rintro rfl
      exact (splitColon_some hab).2 (h2 _ hc).2
    have hs := collapse_strip_oneLine b
    have := fieldOf_ok (s := collapseSpace false (pyStrip b)) ha
    rw [h] at this
    have key : ∀ (l : List (Str × Str)) (n s : Str), DocName n → OneLine s → (∀ p ∈ l, DocName p.1 ∧ OneLine p.2) →
        ∀ p ∈ upsert n s l, DocName p.1 ∧ OneLine p.2 := by
      intro l n s hn hs hl p hp
      rcases upsert_mem hp with rfl | hp
      · exact ⟨hn, hs⟩
      · exact hl p hp
    cases f with
    | param n t =>
      simp only [FieldOk] at this
      obtain ⟨hn, rfl⟩ := this
      exact ⟨key _ _ _ hn hs hd.params, upsert_nodup hd.paramNames, hd.returns, hd.raises, hd.raisesNames, hd.seeAlso⟩
    | raises n t =>
      simp only [FieldOk] at this
      obtain ⟨hn, rfl⟩ := this
      exact ⟨hd.params, hd.paramNames, hd.returns, key _ _ _ hn hs hd.raises, upsert_nodup hd.raisesNames, hd.seeAlso⟩
    | returns t =>
      simp only [FieldOk] at this
      subst this
      exact ⟨hd.params, hd.paramNames, fun s e => by simp only [addField, Option.some.injEq] at e; rw [← e]; exact hs, hd.raises, hd.raisesNames, hd.seeAlso⟩
    | see t =>
      simp only [FieldOk] at this
      subst this
      refine ⟨hd.params, hd.paramNames, hd.returns, hd.raises, hd.raisesNames, ?_⟩
      intro s hs'
      rcases List.mem_append.1 hs' with h' | h'
      · exact hd.seeAlso s h'
      · simp only [List.mem_singleton] at h'
        rw [h']; exact hs
    | ignored => exact hd

theorem parseDocFields_ok : ∀ {cs : List Str} {d d' : Docstring}, parseDocFields cs d = .ok d' → d.MetaOk →
    d'.MetaOk ∧ d'.short = d.short ∧ d'.long = d.long
  | [], d, d', h, hd => by
    simp only [parseDocFields, Except.ok.injEq] at h
    subst h
    exact ⟨hd, rfl, rfl⟩
  | c :: cs, d, d', h, hd => by
    simp only [parseDocFields] at h
    cases hf : parseDocField c with
    | error e => rw [hf] at h; simp [Except.bind] at h
    | ok f =>
      rw [hf] at h
      simp only [Except.bind] at h
      obtain ⟨h1, h2, h3⟩ := parseDocFields_ok h (parseDocField_ok hf d hd)
      refine ⟨h1, h2.trans ?_, h3.trans ?_⟩ <;> cases f <;> rfl

/-- C40: whatever the text, the metadata that is parsed can be written again: names and descriptions are clean and names are
distinct. -/
theorem C40_parsed_meta (t : Str) (d : Docstring) (h : parseText t = .ok d) : d.MetaOk := by
  have h0 : ∀ s l, ({ short := s, long := l } : Docstring).MetaOk :=
    fun s l => ⟨by simp, by simp, by simp, by simp, by simp, by simp⟩
  unfold parseText at h
  split at h
  · simp only [Except.ok.injEq] at h
    subst h
    exact h0 _ _
  · exact (parseDocFields_ok h (h0 _ _)).1

/-- C40: formatting and parsing again a parsed docstring changes nothing, if its descriptions can be written. -/
theorem C40_reparse_partial (t : Str) (d : Docstring) (h : parseText t = .ok d) (hd : d.DescOk) : parseText d.str = .ok d :=
  C40_roundtrip d ⟨hd, C40_parsed_meta t d h⟩

/-! ### Where the property fails -/

/-- A long description may start with a colon, since it is stripped after the search for metadata.  Its text is not parsed. -/
theorem C40_long_colon_fails : ∃ t d, parseText t = .ok d ∧ parseText d.str = .error .valueError :=
  ⟨c!"a\n\n :b\nc", { short := some c!"a", long := some c!":b\nc" }, by decide +kernel, by decide +kernel⟩

/-- A long description may come without a short one.  Then it is not written. -/
theorem C40_long_only_fails : ∃ t d, parseText t = .ok d ∧ d.long = some c!"b" ∧ parseText d.str = .ok {} :=
  ⟨c!"\n \n\nb", { long := some c!"b" }, by decide +kernel, by decide +kernel, by decide +kernel⟩

/-! ### Examples -/

def exDoc : Docstring :=
  { short := some c!"Adds numbers.", long := some c!"Slow.\n\n  indented: text",
    params := [(c!"a", c!"first: number"), (c!"b", [])], returns := some c!"sum", raises := [(c!"ValueError", c!"never")],
    seeAlso := [c!"other"] }

example : exDoc.str = c!"Adds numbers.\n\nSlow.\n\n  indented: text\n\n:param a: first: number\n:param b: \n:returns: sum\n:raises ValueError: never\n:see: other" := by
  decide +kernel

/-- The example is well-formed. -/
example : exDoc.WellFormed := by
  have one : ∀ s : Str, (s.head?.all (fun c => !pySpace c) && s.getLast?.all (fun c => !pySpace c) && s.all (fun c => !pySpace c || c = ' ') &&
      decide (collapseSpace false s = s)) = true → OneLine s := by
    intro s h
    simp only [Bool.and_eq_true, decide_eq_true_eq, List.all_eq_true, Bool.or_eq_true, Bool.not_eq_true'] at h
    obtain ⟨⟨⟨h1, h2⟩, h3⟩, h4⟩ := h
    refine ⟨⟨fun c hc => ?_, fun c hc => ?_⟩, fun c hc hs => ?_, ?_⟩
    · rw [hc] at h1; simpa using h1
    · rw [hc] at h2; simpa using h2
    · rcases h3 c hc with h | h
      · rw [h] at hs; exact absurd hs (by decide)
      · simpa using h
    · rw [← h4]; exact (collapse_props s false).2.1
  have nom : ∀ s : Str, decide (splitMeta true s = (s, [])) = true → NoMetaLine s := by
    intro s h
    have := (noMetaFrom_iff true s).1 (show splitMeta true s = (s, []) from of_decide_eq_true h)
    exact ⟨this.1 rfl, this.2⟩
  refine ⟨⟨?_, ?_⟩, ⟨?_, by decide, ?_, ?_, by decide, ?_⟩⟩
  · intro s hs
    cases hs
    exact ⟨by decide, ⟨by decide, by decide⟩, by decide, by decide, nom _ (by decide)⟩
  · intro s hs
    cases hs
    exact ⟨rfl, by decide, ⟨by decide, by decide⟩, by decide, nom _ (by decide)⟩
  · intro p hp
    simp only [exDoc, List.mem_cons, List.not_mem_nil, or_false] at hp
    rcases hp with rfl | rfl
    · exact ⟨⟨by decide, by decide⟩, one _ (by decide)⟩
    · exact ⟨⟨by decide, by decide⟩, one _ (by decide)⟩
  · intro s hs
    cases hs
    exact one _ (by decide)
  · intro p hp
    simp only [exDoc, List.mem_cons, List.not_mem_nil, or_false] at hp
    subst hp
    exact ⟨⟨by decide, by decide⟩, one _ (by decide)⟩
  · intro s hs
    simp only [exDoc, List.mem_cons, List.not_mem_nil, or_false] at hs
    subst hs
    exact one _ (by decide)

example : parseText exDoc.str = .ok exDoc := by decide +kernel

end Verif
