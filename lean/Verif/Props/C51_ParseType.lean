import Verif.Props.C41_DocCheck
/-!
# C51: `parse_type` attaches the declared types to the documented names
-/
namespace Verif

theorem assignParams_ok_iff {types : List (Str × τ)} {ps : List (Str × Str)} :
    (∃ r, assignParams types ps = .ok r) ↔ ∀ p ∈ ps, p.1 ∈ types.map (·.1) := by
  induction ps with
  | nil => simp [assignParams]
  | cons p ps ih =>
    obtain ⟨n, s⟩ := p
    simp only [assignParams, List.mem_cons, forall_eq_or_imp]
    cases h : lookupKey n types with
    | none =>
      have := lookupKey_none_iff'.1 h
      simp [this]
    | some t =>
      have hn : n ∈ types.map (·.1) := List.mem_map.2 ⟨_, lookupKey_some_mem h, rfl⟩
      rw [← ih]
      simp only [hn, true_and]
      cases assignParams types ps <;> simp [Except.map]

theorem assignParams_spec {types : List (Str × τ)} {ps : List (Str × Str)} {r : List (Str × Option τ)}
    (h : assignParams types ps = .ok r) : r = ps.map (fun p => (p.1, lookupKey p.1 types)) ∧ ∀ p ∈ ps, p.1 ∈ types.map (·.1) := by
  induction ps generalizing r with
  | nil => simp [assignParams] at h; simp [← h]
  | cons p ps ih =>
    obtain ⟨n, s⟩ := p
    simp only [assignParams] at h
    cases hl : lookupKey n types with
    | none => rw [hl] at h; simp at h
    | some t =>
      rw [hl] at h
      cases ha : assignParams types ps with
      | error e => rw [ha] at h; simp [Except.map] at h
      | ok r' =>
        rw [ha] at h
        simp only [Except.map, Except.ok.injEq] at h
        obtain ⟨h1, h2⟩ := ih ha
        subst h
        refine ⟨by simp [h1, hl], ?_⟩
        intro p hp
        rcases List.mem_cons.1 hp with rfl | hp
        · exact List.mem_map.2 ⟨_, lookupKey_some_mem hl, rfl⟩
        · exact h2 p hp

theorem assignRaises_spec {ctx : List (Str × ε)} {ps : List (Str × Str)} {r : List (Str × Option ε)}
    (h : assignRaises ctx ps = .ok r) : r = ps.map (fun p => (p.1, lookupKey p.1 ctx)) ∧ ∀ p ∈ ps, p.1 ∈ ctx.map (·.1) := by
  induction ps generalizing r with
  | nil => simp [assignRaises] at h; simp [← h]
  | cons p ps ih =>
    obtain ⟨n, s⟩ := p
    simp only [assignRaises] at h
    cases hl : lookupKey n ctx with
    | none => rw [hl] at h; simp at h
    | some t =>
      rw [hl] at h
      cases ha : assignRaises ctx ps with
      | error e => rw [ha] at h; simp [Except.map] at h
      | ok r' =>
        rw [ha] at h
        simp only [Except.map, Except.ok.injEq] at h
        obtain ⟨h1, h2⟩ := ih ha
        subst h
        refine ⟨by simp [h1, hl], ?_⟩
        intro p hp
        rcases List.mem_cons.1 hp with rfl | hp
        · exact List.mem_map.2 ⟨_, lookupKey_some_mem hl, rfl⟩
        · exact h2 p hp

theorem assignRaises_error_iff {ctx : List (Str × ε)} {ps : List (Str × Str)} {e : Err} :
    assignRaises ctx ps = .error e ↔ e = .typeError ∧ ∃ p ∈ ps, p.1 ∉ ctx.map (·.1) := by
  induction ps with
  | nil => simp [assignRaises]
  | cons p ps ih =>
    obtain ⟨n, s⟩ := p
    simp only [assignRaises]
    cases h : lookupKey n ctx with
    | none =>
      have := lookupKey_none_iff'.1 h
      simp only [Except.error.injEq]
      constructor
      · rintro rfl; exact ⟨rfl, (n, s), by simp, this⟩
      · rintro ⟨rfl, _⟩; rfl
    | some t =>
      have hn : n ∈ ctx.map (·.1) := List.mem_map.2 ⟨_, lookupKey_some_mem h, rfl⟩
      have : (Except.map (List.cons (n, some t)) (assignRaises ctx ps) = .error e) ↔ assignRaises ctx ps = .error e := by
        cases assignRaises ctx ps <;> simp [Except.map]
      rw [this, ih]
      constructor
      · rintro ⟨rfl, p, hp, hq⟩; exact ⟨rfl, p, by simp [hp], hq⟩
      · rintro ⟨rfl, p, hp, hq⟩
        rcases List.mem_cons.1 hp with rfl | hp
        · exact absurd hn hq
        · exact ⟨rfl, p, hp, hq⟩

/-- After the check no documented parameter is missing. -/
theorem assignTypes_ok {t : DocTarget τ} {d : Docstring} (h : checkDoc t d false = .ok ()) : ∃ r, assignTypes t d = .ok r := by
  cases t with
  | dataclass name props bases =>
    have : ∃ r, assignParams props d.params = .ok r := by
      rw [assignParams_ok_iff]
      intro p hp
      by_cases hm : p.1 ∈ props.map (·.1)
      · exact hm
      · exfalso
        have he := (C41_dataclass_iff ⟨props.map (·.1), bases⟩ d false .typeError).2 ⟨rfl, Or.inl ⟨p, hp, fun h => hm h.1⟩⟩
        simp only [checkDoc] at h
        rw [h] at he
        exact absurd he (by simp)
    obtain ⟨r, hr⟩ := this
    exact ⟨(r, none), by simp [assignTypes, hr, Except.map]⟩
  | function params ret =>
    have : ∃ r, assignParams (params.map (fun p => (p.1, p.2.2))) d.params = .ok r := by
      rw [assignParams_ok_iff]
      intro p hp
      by_cases hm : p.1 ∈ (params.map (fun p => (p.1, p.2.2))).map (·.1)
      · exact hm
      · exfalso
        have he := (C41_function_iff ⟨params.map (fun p => (p.1, p.2.1)), ret.isSome⟩ d false .typeError).2 ⟨rfl, Or.inl ⟨p, hp, ?_⟩⟩
        · simp only [checkDoc] at h
          rw [h] at he
          exact absurd he (by simp)
        · intro q hq e
          obtain ⟨q', hq', rfl⟩ := List.mem_map.1 hq
          exact hm (List.mem_map.2 ⟨(q'.1, q'.2.2), List.mem_map.2 ⟨q', hq', rfl⟩, e⟩)
    obtain ⟨r, hr⟩ := this
    exact ⟨(r, if d.returns.isSome then ret else none), by simp [assignTypes, hr, Except.map]⟩
  | enum => exact ⟨_, rfl⟩
  | other => exact ⟨_, rfl⟩

/-- C51: `parse_type` raises exactly if the text is not parsed, the check fails, or a documented exception is not found in the
context; in particular never `KeyError`. -/
theorem C51_error_iff (t : DocTarget τ) (ctx : Option (List (Str × ε))) (doc : Option Str) (e : Err) :
    parseType t ctx doc = .error e ↔ ∃ text, doc = some text ∧ hasDefaultDoc t text = false ∧
      (parseText text = .error e ∨ ∃ d, parseText text = .ok d ∧ (checkDoc t d false = .error e ∨
        (checkDoc t d false = .ok () ∧ e = .typeError ∧ ∃ c p, ctx = some c ∧ p ∈ d.raises ∧ p.1 ∉ c.map (·.1)))) := by
  have hg : ∀ text, getDocstring t doc = some text ↔ doc = some text ∧ hasDefaultDoc t text = false := by
    intro text
    cases doc with
    | none => simp [getDocstring]
    | some x =>
      simp only [getDocstring, Option.some.injEq]
      cases hx : hasDefaultDoc t x with
      | true => simp; rintro rfl; exact hx
      | false => simp; rintro rfl; exact hx
  unfold parseType
  cases hd : getDocstring t doc with
  | none =>
    simp only [reduceCtorEq, false_iff]
    rintro ⟨text, h1, h2, _⟩
    rw [(hg text).2 ⟨h1, h2⟩] at hd
    exact absurd hd (by simp)
  | some text =>
    obtain ⟨hd1, hd2⟩ := (hg text).1 hd
    have red : ∀ P : Str → Prop, (∃ x, doc = some x ∧ hasDefaultDoc t x = false ∧ P x) ↔ P text := by
      intro P
      constructor
      · rintro ⟨x, h1, h2, h3⟩
        rw [hd1] at h1
        cases h1
        exact h3
      · intro h; exact ⟨text, hd1, hd2, h⟩
    rw [red]
    dsimp only
    cases hp : parseText text with
    | error x => simp [Except.bind]
    | ok d =>
      simp only [Except.bind, reduceCtorEq, Except.ok.injEq, exists_eq_left', false_or]
      cases hc : checkDoc t d false with
      | error x => simp
      | ok u =>
        obtain ⟨r, hr⟩ := assignTypes_ok (t := t) (d := d) hc
        simp only [hr, reduceCtorEq, false_or, true_and]
        cases ctx with
        | none => simp
        | some c =>
          have : ∀ f : List (Str × Option ε) → TypedDoc τ ε, (Except.map f (assignRaises c d.raises) = .error e) ↔
              assignRaises c d.raises = .error e := by
            intro f
            cases assignRaises c d.raises <;> simp [Except.map]
          simp only [this]
          rw [assignRaises_error_iff]
          constructor
          · rintro ⟨rfl, p, h1, h2⟩; exact ⟨rfl, c, p, rfl, h1, h2⟩
          · rintro ⟨rfl, c', p, h0, h1, h2⟩; cases h0; exact ⟨rfl, p, h1, h2⟩

/-- C51: on success the docstring is the parsed text, every documented name gets the type declared under that name, and every
documented exception the class that the context has under that name. -/
theorem C51_types (t : DocTarget τ) (ctx : Option (List (Str × ε))) (text : Str) (hdef : hasDefaultDoc t text = false)
    (r : TypedDoc τ ε) (h : parseType t ctx (some text) = .ok r) :
    parseText text = .ok r.doc ∧
    (∀ name props bases, t = .dataclass name props bases →
      r.paramTypes = r.doc.params.map (fun p => (p.1, lookupKey p.1 props)) ∧ r.returnType = none ∧
      ∀ p ∈ r.doc.params, ∃ ty, (p.1, ty) ∈ props) ∧
    (∀ params ret, t = .function params ret →
      r.paramTypes = r.doc.params.map (fun p => (p.1, lookupKey p.1 (params.map (fun q => (q.1, q.2.2))))) ∧
      r.returnType = (if r.doc.returns.isSome then ret else none) ∧ (r.doc.returns.isSome → ret.isSome) ∧
      ∀ p ∈ r.doc.params, ∃ k ty, (p.1, k, ty) ∈ params) ∧
    (∀ c, ctx = some c → r.raiseTypes = r.doc.raises.map (fun p => (p.1, lookupKey p.1 c)) ∧
      ∀ p ∈ r.doc.raises, ∃ x, (p.1, x) ∈ c) := by
  unfold parseType at h
  simp only [getDocstring, hdef, Bool.false_eq_true, if_false] at h
  cases hp : parseText text with
  | error x => rw [hp] at h; simp [Except.bind] at h
  | ok d =>
    rw [hp] at h
    simp only [Except.bind] at h
    cases hc : checkDoc t d false with
    | error x => rw [hc] at h; simp at h
    | ok u =>
      rw [hc] at h
      simp only at h
      cases ha : assignTypes t d with
      | error x => rw [ha] at h; simp at h
      | ok ty =>
        rw [ha] at h
        simp only at h
        have main : r.doc = d ∧ r.paramTypes = ty.1 ∧ r.returnType = ty.2 ∧
            (∀ c, ctx = some c → r.raiseTypes = d.raises.map (fun p => (p.1, lookupKey p.1 c)) ∧ ∀ p ∈ d.raises, p.1 ∈ c.map (·.1)) := by
          cases ctx with
          | none =>
            simp only [Except.ok.injEq] at h
            subst h
            exact ⟨rfl, rfl, rfl, by simp⟩
          | some c =>
            simp only at h
            cases hr : assignRaises c d.raises with
            | error x => rw [hr] at h; simp [Except.map] at h
            | ok rs =>
              rw [hr] at h
              simp only [Except.map, Except.ok.injEq] at h
              subst h
              refine ⟨rfl, rfl, rfl, ?_⟩
              intro c' hc'
              cases hc'
              exact assignRaises_spec hr
        obtain ⟨m1, m2, m3, m4⟩ := main
        rw [m1, m2, m3]
        refine ⟨rfl, ?_, ?_, ?_⟩
        · rintro name props bases rfl
          simp only [assignTypes] at ha
          cases hb : assignParams props d.params with
          | error x => rw [hb] at ha; simp [Except.map] at ha
          | ok ps =>
            rw [hb] at ha
            simp only [Except.map, Except.ok.injEq] at ha
            subst ha
            obtain ⟨h1, h2⟩ := assignParams_spec hb
            refine ⟨h1, rfl, ?_⟩
            intro p hp
            obtain ⟨⟨n, ty⟩, hm, e⟩ := List.mem_map.1 (h2 p hp)
            exact ⟨ty, by rw [← e]; exact hm⟩
        · rintro params ret rfl
          simp only [assignTypes] at ha
          cases hb : assignParams (params.map (fun p => (p.1, p.2.2))) d.params with
          | error x => rw [hb] at ha; simp [Except.map] at ha
          | ok ps =>
            rw [hb] at ha
            simp only [Except.map, Except.ok.injEq] at ha
            subst ha
            obtain ⟨h1, h2⟩ := assignParams_spec hb
            refine ⟨h1, rfl, ?_, ?_⟩
            · intro hr
              cases hret : ret with
              | some x => rfl
              | none =>
                exfalso
                have he := (C41_function_iff ⟨params.map (fun p => (p.1, p.2.1)), ret.isSome⟩ d false .typeError).2
                  ⟨rfl, Or.inr (Or.inl ⟨hr, by rw [hret]; rfl⟩)⟩
                simp only [checkDoc] at hc
                rw [hc] at he
                exact absurd he (by simp)
            · intro p hp
              obtain ⟨⟨n, ty⟩, hm, e⟩ := List.mem_map.1 (h2 p hp)
              obtain ⟨⟨n', k, ty'⟩, hm', e'⟩ := List.mem_map.1 hm
              cases e'
              exact ⟨k, ty', by rw [← e]; exact hm'⟩
        · intro c hctx
          obtain ⟨h1, h2⟩ := m4 c hctx
          refine ⟨h1, ?_⟩
          intro p hp
          obtain ⟨⟨n, x⟩, hm, e⟩ := List.mem_map.1 (h2 p hp)
          exact ⟨x, by rw [← e]; exact hm⟩

/-- C51: the docstring that `@dataclass` generates counts as no docstring. -/
theorem C51_default (name mid : Str) (props : List (Str × τ)) (bases : List (List Str)) (ctx : Option (List (Str × ε)))
    (hm : '\n' ∉ mid) :
    parseType (.dataclass name props bases) ctx (some (name ++ ('(' :: mid ++ [')']))) = .ok { doc := {} } := by
  have h0 : endsWith c!"\n" (name ++ ('(' :: mid ++ [')'])) = false := by
    cases h : endsWith c!"\n" (name ++ ('(' :: mid ++ [')'])) with
    | false => rfl
    | true =>
      simp only [endsWith, List.isSuffixOf_iff_suffix] at h
      obtain ⟨t, ht⟩ := h
      have e : name ++ ('(' :: mid ++ [')']) = (name ++ '(' :: mid) ++ [')'] := by simp
      rw [e] at ht
      have := List.append_inj_right' ht rfl
      exact absurd this (by decide)
  have hdrop : (name ++ ('(' :: mid ++ [')'])).drop (name.length + 1) = mid ++ [')'] := by
    have e : name ++ ('(' :: mid ++ [')']) = (name ++ ['(']) ++ (mid ++ [')']) := by simp
    rw [e]
    exact List.drop_left' (by simp)
  have hd : hasDefaultDoc (.dataclass name props bases) (name ++ ('(' :: mid ++ [')'])) = true := by
    simp only [hasDefaultDoc, h0, Bool.false_eq_true, if_false, hdrop]
    have h1 : (name ++ ['(']).isPrefixOf (name ++ ('(' :: mid ++ [')'])) = true := by
      rw [List.isPrefixOf_iff_prefix]
      exact ⟨mid ++ [')'], by simp⟩
    have h2 : endsWith c!")" (mid ++ [')']) = true := by
      simp only [endsWith, List.isSuffixOf_iff_suffix]
      exact ⟨mid, rfl⟩
    have h3 : (mid ++ [')']).contains '\n' = false := by
      simp [List.contains_eq_mem, hm]
    rw [h1, h2, h3]
    rfl
  simp only [parseType, getDocstring, hd, if_true]

/-! ### Examples -/

def exTarget : DocTarget Nat := .function [(c!"self", .positionalOrKeyword, 0), (c!"a", .positionalOrKeyword, 7)] (some 9)

example : (parseType exTarget (some [(c!"ValueError", 3)]) (some c!"T.\n\n:param a: x\n:returns: y\n:raises ValueError: z")).map
    (fun r => (r.paramTypes, r.returnType, r.raiseTypes)) = .ok ([(c!"a", some 7)], some 9, [(c!"ValueError", some 3)]) := by
  decide +kernel

example : hasDefaultDoc exTarget c!"T." = false := rfl

example : hasDefaultDoc (.dataclass c!"P" ([] : List (Str × Nat)) []) c!"P(x: int)" = true := by decide

end Verif
