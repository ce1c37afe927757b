import Verif.Spec.ScopedName
import Verif.Lemmas.TypeName
import Verif.Lemmas.Aliases
/-!
# Texts of types with names
-/
namespace Verif

section
variable {sc : NameScope} {pr : Char → Bool} {op : Bool}

theorem shownL_map (ts : List NTy) : NTy.shownL sc ts = ts.map (NTy.shown sc) := by
  induction ts with
  | nil => rfl
  | cons t ts ih => simp only [NTy.shownL, List.map_cons, ih]

theorem shown_isNone {t : NTy} : (t.shown sc).isNone = t.isNone := by
  cases t <;> rfl

theorem strAll_ok : ∀ {rs : List (Res Str)} {xs : List Str}, strAll rs = .ok xs → rs = xs.map .ok
  | [], _, h => by cases h; rfl
  | .error e :: rs, xs, h => by cases h
  | .ok x :: rs, xs, h => by
    simp only [strAll] at h
    cases hr : strAll rs with
    | error e => rw [hr] at h; cases h
    | ok ys => rw [hr] at h; cases h; rw [List.map_cons, strAll_ok hr]

theorem wrapStr_ok {f : List Str → Str} {r : Res (List Str)} {x : Str} (h : wrapStr f r = .ok x) : ∃ xs, r = .ok xs ∧ x = f xs := by
  cases r with
  | error e => cases h
  | ok xs => cases h; exact ⟨xs, rfl, rfl⟩

theorem annotatedStr_congr {t u : TypeExpr} (h : ∀ b, t.isClass b = u.isClass b) (x : Str) (ms : List Annotation) :
    annotatedStr pr t x ms = annotatedStr pr u x ms := by
  simp only [annotatedStr, auxExact, auxWithin, h]

/-- What is to be shown of a type. -/
structure ShownAs (sc : NameScope) (pr : Char → Bool) (op : Bool) (t : NTy) (x : Str) (u : NTy) : Prop where
  expanded : t.Expanded sc u
  text : x = (u.shown sc).fmt pr op
  isNone : u.isNone = t.isNone
  head : t.label = none → u.head = t.head ∧ u.label = none ∧ (u = .any ↔ t = .any)
  known : sc.context ≠ none → ∀ s, u.Mentions s → ∃ o, sc.var s = some o

theorem shownAs_refl {t : NTy} (hm : sc.context ≠ none → ∀ s, t.Mentions s → ∃ o, sc.var s = some o) :
    ShownAs sc pr op t ((t.shown sc).fmt pr op) t :=
  ⟨.refl t, rfl, rfl, fun h => ⟨rfl, h, Iff.rfl⟩, hm⟩

theorem shown_all {f : NTy → Res Str} (hf : ∀ t x, t.Simple sc → f t = .ok x → ∃ u, ShownAs sc pr op t x u) : ∀ {ts : List NTy} {xs : List Str},
    (∀ t ∈ ts, t.Simple sc) → ts.map f = xs.map .ok → ∃ us, All2 (fun t u => ∃ x, ShownAs sc pr op t x u) ts us ∧
      xs = us.map fun u => (u.shown sc).fmt pr op
  | [], [], _, _ => ⟨[], .nil, rfl⟩
  | [], _ :: _, _, h => by cases h
  | _ :: _, [], _, h => by cases h
  | t :: ts, x :: xs, hs, h => by
    simp only [List.map_cons, List.cons.injEq] at h
    obtain ⟨u, hu⟩ := hf t x (hs t (by simp)) h.1
    obtain ⟨us, h1, h2⟩ := shown_all hf (fun t ht => hs t (by simp [ht])) h.2
    exact ⟨u :: us, .cons ⟨x, hu⟩ h1, by rw [List.map_cons, ← h2, ← hu.text]⟩

theorem nty_isNone_eq {t : NTy} (h : t.isNone = true) : t = .none := by cases t <;> first | rfl | cases h

theorem shown_some {f : NTy → Res Str} (hf : ∀ t x, t.Simple sc → f t = .ok x → ∃ u, ShownAs sc pr op t x u) : ∀ {ts : List NTy} {xs : List Str},
    (∀ t ∈ ts, t.Simple sc) → (ts.filter fun t => !t.isNone).map f = xs.map .ok →
      ∃ us, All2 (fun t u => ∃ x, ShownAs sc pr op t x u) ts us ∧ xs = (us.filter fun u => !u.isNone).map fun u => (u.shown sc).fmt pr op
  | [], [], _, _ => ⟨[], .nil, rfl⟩
  | [], _ :: _, _, h => by cases h
  | t :: ts, xs, hs, h => by
    cases ht : t.isNone with
    | true =>
      obtain ⟨us, h1, h2⟩ := shown_some hf (ts := ts) (xs := xs) (fun t ht => hs t (by simp [ht])) (by simpa [ht] using h)
      refine ⟨.none :: us, .cons ⟨(NTy.none.shown sc).fmt pr op, ?_⟩ h1, by simpa [NTy.isNone] using h2⟩
      rw [nty_isNone_eq ht]
      exact shownAs_refl fun _ s hs => by cases hs
    | false =>
      simp only [ht, Bool.not_false, List.filter_cons_of_pos, List.map_cons] at h
      cases xs with
      | nil => cases h
      | cons x xs =>
        simp only [List.map_cons, List.cons.injEq] at h
        obtain ⟨u, hu⟩ := hf t x (hs t (by simp)) h.1
        obtain ⟨us, h1, h2⟩ := shown_some hf (fun t ht => hs t (by simp [ht])) h.2
        refine ⟨u :: us, .cons ⟨x, hu⟩ h1, ?_⟩
        have hn : u.isNone = false := hu.isNone.trans ht
        simp only [hn, Bool.not_false, List.filter_cons_of_pos, List.map_cons, ← hu.text, ← h2]

theorem all2_isNone {ts us : List NTy} (h : All2 (fun (t u : NTy) => u.isNone = t.isNone) ts us) : us.any NTy.isNone = ts.any NTy.isNone := by
  induction h with
  | nil => rfl
  | cons h _ ih => simp only [List.any_cons, h, ih]

/-- The text of a union. -/
theorem fmt_union (us : List NTy) : (NTy.shown sc (.union us)).fmt pr op =
    if op then joinStr c!" | " (us.map fun u => (u.shown sc).fmt pr op)
    else if us.length == 2 && us.any NTy.isNone then
      c!"Optional[" ++ (joinStr c!", " ((us.filter fun u => !u.isNone).map fun u => (u.shown sc).fmt pr op) ++ c!"]")
    else c!"Union[" ++ (joinStr c!", " (us.map fun u => (u.shown sc).fmt pr op) ++ c!"]") := by
  have h1 : optionalArgs (us.map (NTy.shown sc)) = (us.length == 2 && us.any NTy.isNone) := by
    simp only [optionalArgs, List.length_map, List.any_map]
    congr 1
    congr 1
    funext u
    exact shown_isNone
  have h2 : (us.map (NTy.shown sc)).filter (fun t => !t.isNone) = (us.filter fun u => !u.isNone).map (NTy.shown sc) := by
    rw [List.filter_map]
    congr 2
    funext u
    simp only [Function.comp, shown_isNone]
  simp only [NTy.shown, TypeExpr.fmt, shownL_map, fmtL_eq_map, fmtSome_eq, h1, h2, List.map_map]
  rfl

theorem all2_parts {ts us : List NTy} (h : All2 (fun t u => ∃ x, ShownAs sc pr op t x u) ts us) :
    ts.length = us.length ∧ (∀ p ∈ ts.zip us, NTy.Expanded sc p.1 p.2) ∧
      (sc.context ≠ none → ∀ u ∈ us, ∀ s, u.Mentions s → ∃ o, sc.var s = some o) := by
  refine ⟨h.length, fun p hp => ?_, fun hc u hu s hs => ?_⟩
  · obtain ⟨x, hx⟩ := (all2_zip.1 h).2 p hp
    exact hx.expanded
  · obtain ⟨t, _, x, hx⟩ := h.mem_right hu
    exact hx.known hc s hs

theorem str_shown (hsc : sc.Simple) : ∀ (n : Nat) (t : NTy) (x : Str), t.Simple sc → sc.str pr op n t = .ok x → ∃ u, ShownAs sc pr op t x u
  | 0, _, _, _, h => by cases h
  | n + 1, t, x, ht, h => by
    have ih := str_shown hsc n
    have evalCase : ∀ s, (match sc.eval s with | .error e => .error e | .ok o => sc.str pr op n o) = Except.ok x →
        ∃ o u, sc.eval s = .ok o ∧ ShownAs sc pr op o x u ∧ o.isNone = false := by
      intro s h
      cases he : sc.eval s with
      | error e => rw [he] at h; cases h
      | ok o =>
        rw [he] at h
        obtain ⟨h1, h2⟩ := hsc s o he
        obtain ⟨u, hu⟩ := ih o x h1 h
        exact ⟨o, u, rfl, hu, by cases o <;> first | rfl | exact absurd rfl h2⟩
    have leaf : ∀ {t : NTy}, (∀ s, ¬ t.Mentions s) → x = (t.shown sc).fmt pr op → ∃ u, ShownAs sc pr op t x u := by
      intro t hm hx
      exact ⟨t, hx ▸ shownAs_refl fun _ s hs => absurd hs (hm s)⟩
    cases ht with
    | none => cases h; exact leaf (fun s hs => by cases hs) rfl
    | ellipsis => cases h; exact leaf (fun s hs => by cases hs) rfl
    | any => cases h; exact leaf (fun s hs => by cases hs) rfl
    | named c => cases h; exact leaf (fun s hs => by cases hs) rfl
    | literal vs => cases h; exact leaf (fun s hs => by cases hs) rfl
    | tvar s => cases h; exact leaf (fun s hs => by cases hs) rfl
    | other => cases h
    | generic o ts hk =>
      obtain ⟨xs, h1, h2⟩ := wrapStr_ok h
      obtain ⟨us, h3, h4⟩ := shown_all ih hk (strAll_ok h1)
      obtain ⟨h5, h6, h7⟩ := all2_parts h3
      refine ⟨.generic o us, .generic o ts us h5 h6, ?_, rfl, fun _ => ⟨rfl, rfl, by simp⟩, fun hc s hs => ?_⟩
      · simp only [h2, h4, NTy.shown, TypeExpr.fmt, fmtL_eq_map, shownL_map, List.map_map]; rfl
      · cases hs with | generic _ _ u _ hu hm => exact h7 hc u hu s hm
    | argList ts hk =>
      obtain ⟨xs, h1, h2⟩ := wrapStr_ok h
      obtain ⟨us, h3, h4⟩ := shown_all ih hk (strAll_ok h1)
      obtain ⟨h5, h6, h7⟩ := all2_parts h3
      refine ⟨.argList us, .argList ts us h5 h6, ?_, rfl, fun _ => ⟨rfl, rfl, by simp⟩, fun hc s hs => ?_⟩
      · simp only [h2, h4, NTy.shown, TypeExpr.fmt, fmtL_eq_map, shownL_map, List.map_map]; rfl
      · cases hs with | argList _ u _ hu hm => exact h7 hc u hu s hm
    | union ts hk =>
      have fin : ∀ us, All2 (fun t u => ∃ x, ShownAs sc pr op t x u) ts us → x = (NTy.shown sc (.union us)).fmt pr op →
          ∃ u, ShownAs sc pr op (.union ts) x u := by
        intro us h3 hx
        obtain ⟨h5, h6, h7⟩ := all2_parts h3
        refine ⟨.union us, .union ts us h5 h6, hx, rfl, fun _ => ⟨rfl, rfl, by simp⟩, fun hc s hs => ?_⟩
        cases hs with | union _ u _ hu hm => exact h7 hc u hu s hm
      have hb : ∀ us, All2 (fun t u => ∃ x, ShownAs sc pr op t x u) ts us → us.length = ts.length ∧ us.any NTy.isNone = ts.any NTy.isNone :=
        fun us h3 => ⟨h3.length.symm, all2_isNone (h3.imp fun t u h => by obtain ⟨x, h⟩ := h; exact h.isNone)⟩
      simp only [NameScope.str] at h
      by_cases ho : op = true
      · subst ho
        simp only [if_true] at h
        obtain ⟨xs, h1, h2⟩ := wrapStr_ok h
        obtain ⟨us, h3, h4⟩ := shown_all ih hk (strAll_ok h1)
        exact fin us h3 (by rw [fmt_union]; simp only [h2, h4, if_true])
      · rw [if_neg ho] at h
        by_cases hc : (ts.length == 2 && ts.any NTy.isNone) = true
        · rw [if_pos hc] at h
          obtain ⟨xs, h1, h2⟩ := wrapStr_ok h
          obtain ⟨us, h3, h4⟩ := shown_some ih hk (strAll_ok h1)
          refine fin us h3 ?_
          rw [fmt_union, if_neg ho, (hb us h3).1, (hb us h3).2, if_pos hc, h2, h4]
        · rw [if_neg hc] at h
          obtain ⟨xs, h1, h2⟩ := wrapStr_ok h
          obtain ⟨us, h3, h4⟩ := shown_all ih hk (strAll_ok h1)
          refine fin us h3 ?_
          rw [fmt_union, if_neg ho, (hb us h3).1, (hb us h3).2, if_neg hc, h2, h4]
    | annotated t ms hk hl htr =>
      have hcn : ∀ c, sc.className c = c := fun c => by simp only [NameScope.className, htr]
      have fin : ∀ y u, ShownAs sc pr op t y u → u ≠ .none → x = annotatedStr pr t.head y ms → ∃ u, ShownAs sc pr op (.annotated t ms) x u := by
        intro y u hu hn hx
        obtain ⟨h1, h2, h3⟩ := hu.head hl
        refine ⟨.annotated u ms, .annotated t u ms hu.expanded, ?_, rfl, fun _ => ⟨rfl, rfl, by simp⟩, fun hc s hs => ?_⟩
        · have hnn : (u.shown sc).isNone = false := by
            rw [shown_isNone]
            cases u <;> first | rfl | exact absurd rfl hn
          rw [hx, NTy.shown, TypeExpr.fmt, hnn, hu.text, ← h1]
          simp only [Bool.false_eq_true, if_false]
          refine annotatedStr_congr (fun b => ?_) _ ms
          cases u <;> first | rfl | (simp only [NTy.head, NTy.shown, htr]; done) | cases h2
        · cases hs with | annotated _ _ _ hm => exact hu.known hc s hm
      simp only [NameScope.str] at h
      cases hk with
      | none =>
        simp only [hcn] at h
        cases h
        refine ⟨.annotated .none ms, .refl _, rfl, rfl, fun _ => ⟨rfl, rfl, Iff.rfl⟩, fun hc s hs => ?_⟩
        cases hs with | annotated _ _ _ hm => cases hm
      | any =>
        simp only [hcn] at h
        cases h
        refine ⟨.annotated .any ms, .refl _, rfl, rfl, fun _ => ⟨rfl, rfl, Iff.rfl⟩, fun hc s hs => ?_⟩
        cases hs with | annotated _ _ _ hm => cases hm
      | ref => cases hl
      | text => cases hl
      | tvar => cases hl
      | _ =>
        simp only at h
        split at h
        · cases h
        · rename_i y hy
          cases h
          obtain ⟨u, hu⟩ := ih _ y (by first | assumption | (constructor <;> assumption) | constructor) hy
          refine fin y u hu (fun hn => ?_) rfl
          have := hu.isNone
          rw [hn] at this
          cases this
    | ref s =>
      simp only [NameScope.str] at h
      have named : ∀ y, sc.context = none ∨ (∃ o, sc.var s = some o) → x = y → y = ((NTy.ref s).shown sc).fmt pr op → ∃ u, ShownAs sc pr op (.ref s) x u := by
        intro y hk hx hy
        refine ⟨.ref s, .refl _, hx.trans hy, rfl, fun h => (by cases h), fun hc s' hs => ?_⟩
        cases hs
        rcases hk with h | h
        · exact absurd h hc
        · exact h
      have viaEval : (match sc.eval s with | .error e => .error e | .ok o => sc.str pr op n o) = Except.ok x → ∃ u, ShownAs sc pr op (.ref s) x u := by
        intro h
        obtain ⟨o, u, h1, h2, h3⟩ := evalCase s h
        exact ⟨u, .ref s o u h1 h2.expanded, h2.text, h2.isNone.trans h3, fun h => (by cases h), h2.known⟩
      cases hctx : sc.context with
      | none =>
        simp only [hctx] at h
        cases h
        exact named x (.inl hctx) rfl (by simp [NTy.shown, NameScope.var, hctx, TypeExpr.fmt])
      | some vars =>
        simp only [hctx] at h
        have hv : sc.var s = lookupKey s vars := by simp only [NameScope.var, hctx]
        split at h
        · exact viaEval h
        · exact viaEval h
        · rename_i c hl
          cases htr : sc.transform with
          | none =>
            rw [htr] at h; cases h
            exact named x (.inr ⟨_, hv.trans hl⟩) rfl (by simp [NTy.shown, htr, TypeExpr.fmt])
          | some f =>
            rw [htr] at h; cases h
            exact named (f c) (.inr ⟨_, hv.trans hl⟩) rfl (by simp [NTy.shown, htr, hv, hl, TypeExpr.fmt])
        · rename_i o hn hc hl
          cases h
          refine named x (.inr ⟨_, hv.trans hl⟩) rfl ?_
          simp only [NTy.shown, TypeExpr.fmt, hv, hl]
          cases sc.transform with
          | none => rfl
          | some f => cases o <;> first | rfl | exact absurd rfl (hc _)
    | text s =>
      simp only [NameScope.str] at h
      have named : ∀ y, sc.context = none ∨ (∃ o, sc.var s = some o) → x = y → y = ((NTy.text s).shown sc).fmt pr op → ∃ u, ShownAs sc pr op (.text s) x u := by
        intro y hk hx hy
        refine ⟨.text s, .refl _, hx.trans hy, rfl, fun h => (by cases h), fun hc s' hs => ?_⟩
        cases hs
        rcases hk with h | h
        · exact absurd h hc
        · exact h
      cases hctx : sc.context with
      | none =>
        simp only [hctx] at h
        split at h
        · cases h; exact named x (.inl hctx) rfl rfl
        · cases h
      | some vars =>
        simp only [hctx] at h
        have hv : sc.var s = lookupKey s vars := by simp only [NameScope.var, hctx]
        split at h
        · rename_i hb
          cases h
          simp only [Bool.and_eq_true, Option.isSome_iff_exists] at hb
          obtain ⟨_, o, ho⟩ := hb
          exact named x (.inr ⟨o, hv.trans ho⟩) rfl rfl
        · obtain ⟨o, u, h1, h2, h3⟩ := evalCase s h
          exact ⟨u, .text s o u h1 h2.expanded, h2.text, h2.isNone.trans h3, fun h => (by cases h), h2.known⟩

theorem strAll_ends {f : Nat → NTy → Res Str} {g : NTy → Str} : ∀ {ts : List NTy}, (∀ t ∈ ts, ∃ N, ∀ n, N ≤ n → f n t = .ok (g t)) →
    ∃ N, ∀ n, N ≤ n → strAll (ts.map (f n)) = .ok (ts.map g)
  | [], _ => ⟨0, fun _ _ => rfl⟩
  | t :: ts, h => by
    obtain ⟨N, h1⟩ := h t (by simp)
    obtain ⟨M, h2⟩ := strAll_ends (ts := ts) fun t ht => h t (by simp [ht])
    refine ⟨max N M, fun n hn => ?_⟩
    simp only [List.map_cons, h1 n (by omega), strAll, h2 n (by omega)]

theorem str_closed {t : NTy} (h : t.Closed sc) : ∃ N, ∀ n, N ≤ n → sc.str pr op n t = .ok ((t.shown sc).fmt pr op) := by
  have one : ∀ {t : NTy}, (∀ n, sc.str pr op (n + 1) t = .ok ((t.shown sc).fmt pr op)) →
      ∃ N, ∀ n, N ≤ n → sc.str pr op n t = .ok ((t.shown sc).fmt pr op) := by
    intro t h
    refine ⟨1, fun n hn => ?_⟩
    obtain ⟨m, rfl⟩ : ∃ m, n = m + 1 := ⟨n - 1, by omega⟩
    exact h m
  induction h with
  | none => exact one fun _ => rfl
  | ellipsis => exact one fun _ => rfl
  | any => exact one fun _ => rfl
  | named c => exact one fun _ => rfl
  | literal vs => exact one fun _ => rfl
  | tvar s => exact one fun _ => rfl
  | generic o ts _ ih =>
    obtain ⟨N, h1⟩ := strAll_ends ih
    refine ⟨N + 1, fun n hn => ?_⟩
    obtain ⟨m, rfl⟩ : ∃ m, n = m + 1 := ⟨n - 1, by omega⟩
    simp only [NameScope.str, h1 m (by omega), wrapStr, NTy.shown, TypeExpr.fmt, fmtL_eq_map, shownL_map, List.map_map]
    rfl
  | argList ts _ ih =>
    obtain ⟨N, h1⟩ := strAll_ends ih
    refine ⟨N + 1, fun n hn => ?_⟩
    obtain ⟨m, rfl⟩ : ∃ m, n = m + 1 := ⟨n - 1, by omega⟩
    simp only [NameScope.str, h1 m (by omega), wrapStr, NTy.shown, TypeExpr.fmt, fmtL_eq_map, shownL_map, List.map_map]
    rfl
  | union ts _ ih =>
    obtain ⟨N, h1⟩ := strAll_ends ih
    obtain ⟨M, h2⟩ := strAll_ends (ts := ts.filter fun t => !t.isNone) fun t ht => ih t (List.mem_filter.1 ht).1
    refine ⟨max N M + 1, fun n hn => ?_⟩
    obtain ⟨m, rfl⟩ : ∃ m, n = m + 1 := ⟨n - 1, by omega⟩
    rw [fmt_union]
    simp only [NameScope.str, h1 m (by omega), h2 m (by omega), wrapStr]
    split
    · rfl
    · split <;> rfl
  | annotated t ms hc hl htr ih =>
    obtain ⟨N, h1⟩ := ih
    refine ⟨N + 1, fun n hn => ?_⟩
    obtain ⟨m, rfl⟩ : ∃ m, n = m + 1 := ⟨n - 1, by omega⟩
    have hcn : ∀ c, sc.className c = c := fun c => by simp only [NameScope.className, htr]
    have h2 := h1 m (by omega)
    have hh : ∀ b, t.head.isClass b = (t.shown sc).isClass b := fun b => by
      cases t <;> first | rfl | (simp only [NTy.head, NTy.shown, htr]; done) | cases hl
    cases hc with
    | none => simp only [NameScope.str, hcn]; rfl
    | any => simp only [NameScope.str, hcn]; rfl
    | ref => cases hl
    | text => cases hl
    | tvar => cases hl
    | _ =>
      simp only [NameScope.str] at h2 ⊢
      rw [h2]
      simp only
      rw [annotatedStr_congr hh]
      rfl
  | ref s h =>
    refine one fun n => ?_
    simp only [NameScope.str]
    cases hctx : sc.context with
    | none => simp [NTy.shown, NameScope.var, hctx, TypeExpr.fmt]
    | some vars =>
      rcases h with h | ⟨o, h1, h2⟩
      · rw [hctx] at h; cases h
      · have hl : lookupKey s vars = some o := by simpa only [NameScope.var, hctx] using h1
        simp only [hl, NTy.shown, TypeExpr.fmt, h1]
        cases sc.transform <;> cases o <;> first | rfl | exact absurd rfl h2
  | text s hi h =>
    refine one fun n => ?_
    simp only [NameScope.str]
    cases hctx : sc.context with
    | none => simp only [hi, if_true]; rfl
    | some vars =>
      rcases h with h | ⟨o, h1⟩
      · rw [hctx] at h; cases h
      · have hl : lookupKey s vars = some o := by simpa only [NameScope.var, hctx] using h1
        simp only [hi, hl, Option.isSome_some, Bool.and_self, if_true]; rfl
end
end Verif
