import Verif.Lemmas.Heap
/-!
# C21: untagged unions take the first member type that matches
-/
namespace Verif

/-- The union has no tag property: some member is not a class, or the classes have no common literal-typed field. -/
def Untagged (env : Env) (ts : List Ty) : Prop :=
  ¬ ∃ p, ts ≠ [] ∧ ∀ t ∈ ts, t.isType = true ∧ p ∈ literalProps env t

theorem discProps_nil_iff (env : Env) (ts : List Ty) : discProps env ts = [] ↔ Untagged env ts := by
  unfold Untagged
  cases ts with
  | nil => simp [discProps]
  | cons t r =>
    simp only [discProps]
    constructor
    · rintro h ⟨p, _, hp⟩
      rw [if_pos (List.all_eq_true.2 fun x hx => (hp x hx).1)] at h
      have : p ∈ (literalProps env t).filter (fun p => r.all (fun u => p ∈ literalProps env u)) := by
        rw [List.mem_filter]
        refine ⟨(hp t (by simp)).2, ?_⟩
        rw [List.all_eq_true]
        intro u hu
        simpa using (hp u (by simp [hu])).2
      rw [h] at this; cases this
    · intro h
      split
      · rename_i ha
        rw [List.filter_eq_nil_iff]
        intro p hp hc
        refine h ⟨p, by simp, ?_⟩
        intro u hu
        refine ⟨List.all_eq_true.1 ha u hu, ?_⟩
        rcases List.mem_cons.1 hu with rfl | hu
        · exact hp
        · have := List.all_eq_true.1 hc u hu
          simpa using this
      · rfl

/-- Errors that let the union proceed to the next member: `JsonKeyError` and `JsonTypeError`. -/
def Passes (e : Err) : Prop := e = .jsonKey ∨ e = .jsonType

theorem parse_union_ok (env : Env) (H : Heap) (j : Json) (ds : List Deser) (v : Val) :
    parse env H j (.union ds) = .ok v ↔
      ∃ pre d post, ds = pre ++ d :: post ∧ parse env H j d = .ok v ∧
        ∀ u ∈ pre, ∃ e, Passes e ∧ parse env H j u = .error e := by
  induction ds with
  | nil => rw [parse_union_nil]; simp
  | cons d ds ih =>
    rw [parse_union_cons]
    constructor
    · intro h
      split at h
      · rename_i w hw; cases h; exact ⟨[], d, ds, rfl, hw, by simp⟩
      · rename_i e he
        split at h
        · rename_i hp
          obtain ⟨pre, d', post, rfl, h1, h2⟩ := ih.1 h
          refine ⟨d :: pre, d', post, rfl, h1, ?_⟩
          intro u hu
          rcases List.mem_cons.1 hu with rfl | hu
          · exact ⟨e, hp, he⟩
          · exact h2 u hu
        · cases h
    · rintro ⟨pre, d', post, he, h1, h2⟩
      cases pre with
      | nil => simp at he; obtain ⟨rfl, rfl⟩ := he; rw [h1]
      | cons x pre =>
        simp at he; obtain ⟨rfl, rfl⟩ := he
        obtain ⟨e, hp, hx⟩ := h2 d (by simp)
        rw [hx]
        simp only
        have hp' : e = .jsonKey ∨ e = .jsonType := hp
        rw [if_pos hp']
        exact ih.2 ⟨pre, d', post, rfl, h1, fun u hu => h2 u (by simp [hu])⟩

theorem parse_union_error (env : Env) (H : Heap) (j : Json) (ds : List Deser) (err : Err) :
    parse env H j (.union ds) = .error err ↔
      (err = .jsonKey ∧ ∀ u ∈ ds, ∃ e, Passes e ∧ parse env H j u = .error e) ∨
      ∃ pre d post, ds = pre ++ d :: post ∧ ¬ Passes err ∧ parse env H j d = .error err ∧
        ∀ u ∈ pre, ∃ e, Passes e ∧ parse env H j u = .error e := by
  induction ds with
  | nil => rw [parse_union_nil]; simp [eq_comm]
  | cons d ds ih =>
    rw [parse_union_cons]
    cases hd : parse env H j d with
    | ok v =>
      simp only
      constructor
      · intro h; cases h
      · rintro (⟨_, h⟩ | ⟨pre, d', post, he, _, h1, h2⟩)
        · obtain ⟨e, _, he⟩ := h d (by simp); rw [hd] at he; cases he
        · cases pre with
          | nil => simp at he; obtain ⟨rfl, rfl⟩ := he; rw [hd] at h1; cases h1
          | cons x pre =>
            simp at he; obtain ⟨rfl, rfl⟩ := he
            obtain ⟨e, _, he⟩ := h2 d (by simp); rw [hd] at he; cases he
    | error e =>
      simp only
      by_cases hp : e = .jsonKey ∨ e = .jsonType
      · rw [if_pos hp, ih]
        constructor
        · rintro (⟨rfl, h⟩ | ⟨pre, d', post, rfl, h0, h1, h2⟩)
          · left; refine ⟨rfl, ?_⟩
            intro u hu
            rcases List.mem_cons.1 hu with rfl | hu
            · exact ⟨e, hp, hd⟩
            · exact h u hu
          · right; refine ⟨d :: pre, d', post, rfl, h0, h1, ?_⟩
            intro u hu
            rcases List.mem_cons.1 hu with rfl | hu
            · exact ⟨e, hp, hd⟩
            · exact h2 u hu
        · rintro (⟨rfl, h⟩ | ⟨pre, d', post, he, h0, h1, h2⟩)
          · left; exact ⟨rfl, fun u hu => h u (by simp [hu])⟩
          · right
            cases pre with
            | nil =>
              simp at he; obtain ⟨rfl, rfl⟩ := he
              rw [hd] at h1; cases h1
              exact absurd hp h0
            | cons x pre =>
              simp at he; obtain ⟨rfl, rfl⟩ := he
              exact ⟨pre, d', post, rfl, h0, h1, fun u hu => h2 u (by simp [hu])⟩
      · rw [if_neg hp]
        constructor
        · intro h; cases h
          right; exact ⟨[], d, ds, rfl, hp, hd, by simp⟩
        · rintro (⟨rfl, h⟩ | ⟨pre, d', post, he, h0, h1, h2⟩)
          · obtain ⟨e', hp', he'⟩ := h d (by simp); rw [hd] at he'; cases he'; exact absurd hp' hp
          · cases pre with
            | nil => simp at he; obtain ⟨rfl, rfl⟩ := he; rw [hd] at h1; exact h1
            | cons x pre =>
              simp at he; obtain ⟨rfl, rfl⟩ := he
              obtain ⟨e', hp', he'⟩ := h2 d (by simp); rw [hd] at he'; cases he'; exact absurd hp' hp

section
variable {env : Env} {skip : Bool} {ts : List Ty} {ds : List Deser}

theorem all2_split_left {R : α → β → Prop} {as : List α} {bs pre : List β} {b : β} {post : List β} (h : All2 R as bs)
    (hb : bs = pre ++ b :: post) : ∃ pre' a post', as = pre' ++ a :: post' ∧ All2 R pre' pre ∧ R a b := by
  induction h generalizing pre with
  | nil => simp at hb
  | @cons x y xs ys h1 h2 ih =>
    cases pre with
    | nil => simp at hb; obtain ⟨rfl, rfl⟩ := hb; exact ⟨[], x, xs, rfl, .nil, h1⟩
    | cons z pre =>
      simp at hb; obtain ⟨rfl, rfl⟩ := hb
      obtain ⟨pre', a, post', rfl, h3, h4⟩ := ih rfl
      exact ⟨x :: pre', a, post', rfl, .cons h1 h3, h4⟩

theorem All2.flip {R : α → β → Prop} {as : List α} {bs : List β} (h : All2 R as bs) : All2 (fun b a => R a b) bs as := by
  induction h with
  | nil => exact .nil
  | cons h _ ih => exact .cons h ih

theorem compile_untagged (hu : Untagged env ts) (hs : ∀ t ∈ ts, Supported env t) :
    ∃ ds, compile env (.union ts) = .ok (.union ds) ∧ All2 (fun t d => compile env t = .ok d) ts ds := by
  obtain ⟨ds, hds⟩ : ∃ ds, All2 (fun t d => compile env t = .ok d) ts ds := by
    clear hu
    induction ts with
    | nil => exact ⟨[], .nil⟩
    | cons t ts ih =>
      obtain ⟨d, hd⟩ := hs t (by simp)
      obtain ⟨ds, hds⟩ := ih (fun t h => hs t (by simp [h]))
      exact ⟨d :: ds, .cons hd hds⟩
  refine ⟨ds, ?_, hds⟩
  simp only [compile]
  rw [if_pos ((discProps_nil_iff env ts).2 hu), compileL_ok.2 hds]
end

/-- The exact behaviour: the union returns the result of the first member that parses, provided every earlier member
failed with `JsonKeyError` or `JsonTypeError`. -/
theorem C21_ok_iff (env : Env) (skip : Bool) (ts : List Ty) (hu : Untagged env ts) (hs : ∀ t ∈ ts, Supported env t)
    (j : Json) (v : Val) :
    loads env skip (.union ts) j = .ok v ↔
      ∃ pre t post, ts = pre ++ t :: post ∧ loads env skip t j = .ok v ∧
        ∀ u ∈ pre, loads env skip u j = .error .jsonKey ∨ loads env skip u j = .error .jsonType := by
  obtain ⟨ds, hc, ha⟩ := compile_untagged hu hs
  rw [loads_of_compile hc, parse_union_ok]
  constructor
  · rintro ⟨pre, d, post, rfl, h1, h2⟩
    obtain ⟨pre', t, post', rfl, h3, h4⟩ := all2_split_left ha rfl
    refine ⟨pre', t, post', rfl, by rw [loads_of_compile h4]; exact h1, ?_⟩
    intro u hu
    obtain ⟨d', hd', hc'⟩ := h3.mem_left hu
    obtain ⟨e, hp, he⟩ := h2 d' hd'
    rw [loads_of_compile hc', he]
    rcases hp with rfl | rfl <;> simp
  · rintro ⟨pre, t, post, rfl, h1, h2⟩
    obtain ⟨pre', d, post', rfl, h3, h4⟩ := all2_split_left ha.flip rfl
    refine ⟨pre', d, post', rfl, by rw [← loads_of_compile h4]; exact h1, ?_⟩
    intro d' hd'
    obtain ⟨u, hu, hc'⟩ := h3.mem_left hd'
    have := h2 u hu
    rw [loads_of_compile hc'] at this
    rcases this with h | h
    · exact ⟨_, .inl rfl, h⟩
    · exact ⟨_, .inr rfl, h⟩

/-- The exact behaviour on failure. -/
theorem C21_error_iff (env : Env) (skip : Bool) (ts : List Ty) (hu : Untagged env ts) (hs : ∀ t ∈ ts, Supported env t)
    (j : Json) (err : Err) :
    loads env skip (.union ts) j = .error err ↔
      (err = .jsonKey ∧ ∀ u ∈ ts, loads env skip u j = .error .jsonKey ∨ loads env skip u j = .error .jsonType) ∨
      ∃ pre t post, ts = pre ++ t :: post ∧ err ≠ .jsonKey ∧ err ≠ .jsonType ∧ loads env skip t j = .error err ∧
        ∀ u ∈ pre, loads env skip u j = .error .jsonKey ∨ loads env skip u j = .error .jsonType := by
  obtain ⟨ds, hc, ha⟩ := compile_untagged hu hs
  rw [loads_of_compile hc, parse_union_error]
  have key : ∀ {xs : List Ty} {es : List Deser}, All2 (fun t d => compile env t = .ok d) xs es →
      ((∀ d ∈ es, ∃ e, Passes e ∧ parse env (fullHeap env skip) j d = .error e) ↔
        ∀ u ∈ xs, loads env skip u j = .error .jsonKey ∨ loads env skip u j = .error .jsonType) := by
    intro xs es h
    constructor
    · intro h2 u hu
      obtain ⟨d', hd', hc'⟩ := h.mem_left hu
      obtain ⟨e, hp, he⟩ := h2 d' hd'
      rw [loads_of_compile hc', he]
      rcases hp with rfl | rfl <;> simp
    · intro h2 d' hd'
      obtain ⟨u, hu, hc'⟩ := h.mem_right hd'
      have := h2 u hu
      rw [loads_of_compile hc'] at this
      rcases this with h | h
      · exact ⟨_, .inl rfl, h⟩
      · exact ⟨_, .inr rfl, h⟩
  constructor
  · rintro (⟨rfl, h⟩ | ⟨pre, d, post, rfl, h0, h1, h2⟩)
    · left; exact ⟨rfl, (key ha).1 h⟩
    · right
      obtain ⟨pre', t, post', rfl, h3, h4⟩ := all2_split_left ha rfl
      exact ⟨pre', t, post', rfl, fun h => h0 (.inl h), fun h => h0 (.inr h), by rw [loads_of_compile h4]; exact h1,
        (key h3).1 h2⟩
  · rintro (⟨rfl, h⟩ | ⟨pre, t, post, rfl, h0, h0', h1, h2⟩)
    · left; exact ⟨rfl, (key ha).2 h⟩
    · right
      obtain ⟨pre', d, post', rfl, h3, h4⟩ := all2_split_left ha.flip rfl
      exact ⟨pre', d, post', rfl, fun h => h.elim h0 h0', by rw [← loads_of_compile h4]; exact h1,
        (key h3.flip).2 h2⟩

/-- The member types raise no errors but `JsonKeyError` and `JsonTypeError` on this data. -/
def OnlyMismatch (env : Env) (skip : Bool) (ts : List Ty) (j : Json) : Prop :=
  ∀ t ∈ ts, ∀ e, loads env skip t j = .error e → e = .jsonKey ∨ e = .jsonType

/-- The claim, for members that reject the data with `JsonKeyError` or `JsonTypeError` only: the first member that parses
the data determines the result, and `JsonKeyError` is raised exactly if no member parses the data. -/
theorem C21_first_match_partial (env : Env) (skip : Bool) (ts : List Ty) (hu : Untagged env ts)
    (hs : ∀ t ∈ ts, Supported env t) (j : Json) (ho : OnlyMismatch env skip ts j) :
    (∀ v, loads env skip (.union ts) j = .ok v ↔
      ∃ pre t post, ts = pre ++ t :: post ∧ loads env skip t j = .ok v ∧ ∀ u ∈ pre, ∀ w, loads env skip u j ≠ .ok w) ∧
    (loads env skip (.union ts) j = .error .jsonKey ↔ ∀ t ∈ ts, ∀ w, loads env skip t j ≠ .ok w) := by
  have hno : ∀ u ∈ ts, (∀ w, loads env skip u j ≠ .ok w) ↔
      (loads env skip u j = .error .jsonKey ∨ loads env skip u j = .error .jsonType) := by
    intro u hu
    cases h : loads env skip u j with
    | ok w =>
      constructor
      · intro hc; exact absurd rfl (hc w)
      · rintro (h | h) <;> cases h
    | error e =>
      rcases ho u hu e h with rfl | rfl <;> simp
  constructor
  · intro v
    rw [C21_ok_iff env skip ts hu hs]
    constructor
    · rintro ⟨pre, t, post, rfl, h1, h2⟩
      exact ⟨pre, t, post, rfl, h1, fun u hu => (hno u (by simp [hu])).2 (h2 u hu)⟩
    · rintro ⟨pre, t, post, rfl, h1, h2⟩
      exact ⟨pre, t, post, rfl, h1, fun u hu => (hno u (by simp [hu])).1 (h2 u hu)⟩
  · rw [C21_error_iff env skip ts hu hs]
    constructor
    · rintro (⟨_, h⟩ | ⟨_, _, _, _, h, _⟩)
      · exact fun u hu => (hno u hu).2 (h u hu)
      · exact absurd rfl h
    · intro h
      left; exact ⟨rfl, fun u hu => (hno u hu).1 (h u hu)⟩

/-- The full claim fails: the error of a text codec ends the search, although a later member parses the data. -/
theorem C21_error_not_caught (env : Env) (skip : Bool) :
    loads env skip (.union [.timedelta, .str]) (.str c!"x") = .error .jsonValue ∧
      loads env skip .str (.str c!"x") = .ok (.str c!"x") := ⟨rfl, rfl⟩

/-! ### Types that never raise other errors -/

/-- Types whose deserializer only raises `JsonKeyError` and `JsonTypeError`. -/
inductive Quiet (env : Env) : Ty → Prop
  | none : Quiet env .none
  | bool : Quiet env .bool
  | int : Quiet env .int
  | str : Quiet env .str
  | list {t} : Quiet env t → Quiet env (.list t)
  | dict {t} : Quiet env t → Quiet env (.dict .str t)
  | annotated {t ms} : Quiet env t → Quiet env (.annotated t ms)
  | literal {ls} : (∀ e m, Lit.enum e m ∉ ls) → Quiet env (.literal ls)
  | union {ts} : Untagged env ts → (∀ t ∈ ts, Quiet env t) → Quiet env (.union ts)

theorem parsePairs_error {env : Env} {d : Deser} {fs : List (Str × Json × (Deser → Res Val))} {acc} {e : Err}
    (h : parsePairs env .str d acc fs = .error e) : ∃ f ∈ fs, f.2.2 d = .error e := by
  induction fs generalizing acc with
  | nil => cases h
  | cons f fs ih =>
    obtain ⟨s, j, g⟩ := f
    simp only [parsePairs, parseKey] at h
    split at h
    · rename_i e' he; cases h; exact ⟨_, List.mem_cons_self, he⟩
    · obtain ⟨f, hf, h2⟩ := ih h
      exact ⟨f, by simp [hf], h2⟩

theorem quiet_parse {env : Env} {t : Ty} (hq : Quiet env t) (H : Heap) :
    ∀ d, compile env t = .ok d → ∀ j e, parse env H j d = .error e → e = .jsonKey ∨ e = .jsonType := by
  induction hq with
  | none => intro d hd j e h; cases hd; cases j <;> cases h <;> simp
  | bool => intro d hd j e h; cases hd; cases j <;> cases h <;> simp
  | int => intro d hd j e h; cases hd; cases j <;> cases h <;> simp
  | str => intro d hd j e h; cases hd; cases j <;> cases h <;> simp
  | @list t _ ih =>
    intro d hd j e h
    simp only [compile] at hd
    split at hd
    · rename_i d' hd'
      cases hd
      cases j with
      | arr xs =>
        rw [parse_list_arr] at h
        split at h
        · cases h
        · rename_i e' he
          cases h
          obtain ⟨_, x, _, _, hx, _⟩ := (mapRes_error_iff _ _ _).1 he
          exact ih d' hd' x e hx
      | _ => rw [parse_eq] at h; cases h; simp
    · cases hd
  | @dict t _ ih =>
    intro d hd j e h
    simp only [compile, checkKeyTy] at hd
    split at hd
    · rename_i d' hd'
      cases hd
      rw [parse_eq] at h
      cases j with
      | obj kvs =>
        simp only [parseD, kidsOf, parseDictK] at h
        split at h
        · cases h
        · rename_i e' he
          cases h
          obtain ⟨f, hf, h2⟩ := parsePairs_error he
          obtain ⟨p, _, rfl⟩ := List.mem_map.1 hf
          exact ih d' hd' p.2 e h2
      | _ => cases h; simp
    · cases hd
  | annotated _ ih => intro d hd; exact ih d hd
  | @literal ls hl =>
    intro d hd j e h
    simp only [compile, compileLit] at hd
    split at hd
    · cases hd
    · rename_i l r
      split at hd
      · split at hd
        · rename_i d' hd'
          cases hd
          rw [parse_literal] at h
          split at h
          · rename_i e' he
            cases h
            cases l with
            | enum e m => exact absurd (by simp) (hl e m)
            | none => cases hd'; cases j <;> cases he <;> simp
            | bool => cases hd'; cases j <;> cases he <;> simp
            | int => cases hd'; cases j <;> cases he <;> simp
            | str => cases hd'; cases j <;> cases he <;> simp
          · split at h
            · cases h
            · cases h; simp
        · cases hd
      · cases hd
  | @union ts hu hq ih =>
    intro d hd j e h
    simp only [compile] at hd
    rw [if_pos ((discProps_nil_iff env ts).2 hu)] at hd
    split at hd
    · rename_i ds hds
      cases hd
      rcases (parse_union_error env H j ds e).1 h with ⟨rfl, _⟩ | ⟨pre, d', post, rfl, h0, h1, _⟩
      · simp
      · obtain ⟨t, ht, hc⟩ := (compileL_ok.1 hds).mem_right (b := d') (by simp)
        exact ih t ht d' hc j e h1
    · cases hd

/-- The claim holds without restriction on the data for unions of such types. -/
theorem C21_first_match_quiet (env : Env) (skip : Bool) (ts : List Ty) (hu : Untagged env ts)
    (hs : ∀ t ∈ ts, Supported env t) (hq : ∀ t ∈ ts, Quiet env t) (j : Json) :
    (∀ v, loads env skip (.union ts) j = .ok v ↔
      ∃ pre t post, ts = pre ++ t :: post ∧ loads env skip t j = .ok v ∧ ∀ u ∈ pre, ∀ w, loads env skip u j ≠ .ok w) ∧
    (loads env skip (.union ts) j = .error .jsonKey ↔ ∀ t ∈ ts, ∀ w, loads env skip t j ≠ .ok w) := by
  refine C21_first_match_partial env skip ts hu hs j ?_
  intro t ht e he
  obtain ⟨d, hd⟩ := hs t ht
  rw [loads_of_compile hd] at he
  exact quiet_parse (hq t ht) _ d hd j e he

example : Untagged ⟨[], [], id⟩ [.int, .list .str, .none] ∧
    (∀ t ∈ [Ty.int, .list .str, .none], Supported ⟨[], [], id⟩ t ∧ Quiet ⟨[], [], id⟩ t) ∧
    loads ⟨[], [], id⟩ false (.union [.int, .list .str, .none]) (.arr [.str c!"a"]) = .ok (.list [.str c!"a"]) ∧
    loads ⟨[], [], id⟩ false (.union [.int, .list .str, .none]) (.arr [.int 1]) = .error .jsonKey := by
  refine ⟨?_, ?_, rfl, rfl⟩
  · rw [← discProps_nil_iff]; rfl
  · intro t ht
    simp at ht
    rcases ht with rfl | rfl | rfl
    · exact ⟨⟨_, rfl⟩, .int⟩
    · exact ⟨⟨_, rfl⟩, .list .str⟩
    · exact ⟨⟨_, rfl⟩, .none⟩

end Verif
