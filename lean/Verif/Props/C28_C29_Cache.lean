import Verif.Lemmas.CacheSame
/-!
# C28, C29: the cache of deserializers

The full statements are false for the code.  `C28_history_partial` and `C29_same_error_partial` hold for types all of
whose classes can be deserialized and that have not been used with another option before.  The witnesses show that none of
the conditions can be dropped.
-/
namespace Verif

/-- C28 in full: the outcome after any history is that in a fresh interpreter. -/
def C28_statement : Prop :=
  ∀ (env : Env), env.Ok → ∀ (calls : List Call) (skip : Bool) (t : Ty) (j : Json),
    (jsonToObject env skip t j (history env calls Heap.empty)).1 = (jsonToObject env skip t j Heap.empty).1

/-- C29 in full: an error of creation is repeated. -/
def C29_statement : Prop :=
  ∀ (env : Env), env.Ok → ∀ (skip : Bool) (t : Ty) (e : Err), (getDeser env skip t Heap.empty).1 = .error e →
    (getDeser env skip t (getDeser env skip t Heap.empty).2).1 = .error e

theorem history_clean {env : Env} (hk : env.Ok) {skip : Bool} {t : Ty} (hg : ∀ c, Reaches env t c → Buildable env c)
    (calls : List Call) (ho : ∀ call ∈ calls, call.skip = skip ∨ ∀ c, Reaches env t c → ¬ Reaches env call.ty c)
    {H : Heap} (hc : Clean env skip (Reaches env t) H) : Clean env skip (Reaches env t) (history env calls H) := by
  induction calls generalizing H with
  | nil => exact hc
  | cons call calls ih =>
    refine ih (fun c hc => ho c (by simp [hc])) ?_
    refine jsonToObject_keeps hk (reaches_good hg) (reaches_closed env call.ty) ?_ (reaches_within env call.ty) call.data hc
    intro c hr hgc
    rcases ho call (by simp) with h | h
    · exact h
    · exact absurd hr (h c hgc)

/-- The outcome in a fresh interpreter is the one studied in the other properties. -/
theorem C28_fresh (env : Env) (hk : env.Ok) (skip : Bool) (t : Ty) (j : Json)
    (hg : ∀ c, Reaches env t c → Buildable env c) :
    (jsonToObject env skip t j Heap.empty).1 = loads env skip t j := by
  obtain ⟨H', h, _⟩ := jsonToObject_clean hk skip (reaches_good hg) (reaches_within env t) j (clean_empty env skip _)
  rw [h]

/-- C28 for types all of whose classes can be deserialized: earlier calls have no influence, whatever they did and whether
they failed, unless they used one of these classes with another option. -/
theorem C28_history_partial (env : Env) (hk : env.Ok) (calls : List Call) (skip : Bool) (t : Ty) (j : Json)
    (hg : ∀ c, Reaches env t c → Buildable env c)
    (ho : ∀ call ∈ calls, call.skip = skip ∨ ∀ c, Reaches env t c → ¬ Reaches env call.ty c) :
    (jsonToObject env skip t j (history env calls Heap.empty)).1 = (jsonToObject env skip t j Heap.empty).1 := by
  have hc := history_clean hk hg calls ho (clean_empty env skip _)
  obtain ⟨H', h, _⟩ := jsonToObject_clean hk skip (reaches_good hg) (reaches_within env t) j hc
  rw [h, C28_fresh env hk skip t j hg]

/-- C29 for types all of whose classes can be deserialized (so that the error is not raised while one of them is built):
creation has the same outcome at any later time. -/
theorem C29_same_error_partial (env : Env) (hk : env.Ok) (calls : List Call) (skip : Bool) (t : Ty)
    (hg : ∀ c, Reaches env t c → Buildable env c)
    (ho : ∀ call ∈ calls, call.skip = skip ∨ ∀ c, Reaches env t c → ¬ Reaches env call.ty c) :
    (getDeser env skip t (history env calls Heap.empty)).1 = (getDeser env skip t Heap.empty).1 := by
  have key : ∀ H, Clean env skip (Reaches env t) H → (getDeser env skip t H).1 = compile env t := by
    intro H hc
    have hG := reaches_good hg
    obtain ⟨H', h1, _⟩ := getWith_step hk (fun c hc => (hG c hc).imp fun _ h => h.1) (buildCls_ok hk skip hG _) t H
      (reaches_within env t) (missing_le env H) hc
    unfold getDeser
    rw [h1]
  rw [key _ (history_clean hk hg calls ho (clean_empty env skip _)), key _ (clean_empty env skip _)]

/-! ### The code violates the full statements -/

/-- C29 is violated by every class whose creation fails: from then on, creation succeeds, the deserializer refuses every
JSON object with `AttributeError` and every other value with `JsonTypeError`, and no further call can repair this. -/
theorem C29_poisoned (env : Env) (skip : Bool) (c : Nat) (cd : ClassDef) (hcd : env.classes[c]? = some cd)
    (hcus : cd.custom = false) (H H' : Heap) (hn : H cd.key = none) (e : Err)
    (hfail : getDeser env skip (.cls c) H = (.error e, H')) (calls : List Call) (skip' : Bool) (j : Json) :
    jsonToObject env skip' (.cls c) j (history env calls H') =
      (.error (match j with | .obj _ => .attribute | _ => .jsonType), history env calls H') := by
  have hent : H' cd.key = some (.cls c skip none) := by
    unfold getDeser at hfail
    simp only [getWith, getCls, hcd, hn] at hfail
    revert hfail
    cases env.classes.length with
    | zero =>
      simp only [buildCls, hcus, Bool.false_eq_true, if_false]
      intro h
      cases h
      exact Heap.put_self _ _ _
    | succ n =>
      simp only [buildCls, hcus, Bool.false_eq_true, if_false]
      have hfr := getFields_frame (env := env) cd.key (.cls c skip none) (buildCls_frame env skip n) cd.kind cd.hints _
        (Heap.put_self H cd.key (.cls c skip none))
      revert hfr
      rcases getFields env (buildCls env skip n) cd.kind cd.hints (H.put cd.key (.cls c skip none)) with ⟨r, H2⟩
      cases r with
      | ok fds => intro _ h; cases h
      | error e' => intro hfr h; cases h; exact hfr
  have hent' := history_frame env calls H' cd.key _ hent
  have hget : getDeser env skip' (.cls c) (history env calls H') = (.ok (.ref cd.key), history env calls H') := by
    unfold getDeser
    simp only [getWith, getCls, hcd, hent']
  unfold jsonToObject
  rw [hget]
  simp only
  cases j <;> simp [parse, parseD, parseRef, hent', parseCls]

/-- `class A: x: list`, for which no deserializer can be created. -/
private def badEnv : Env :=
  ⟨[], [{ module := c!"m", name := c!"A", kind := .dataclass false, fields := [{ name := c!"x", ty := .bareList }] }], id⟩

private theorem badEnv_ok : badEnv.Ok :=
  ⟨by simp [badEnv], by simp [badEnv], by simp [badEnv], fun _ => .refl _⟩

/-- C29 is false: creation for this class fails once and then succeeds. -/
theorem C29_violated : ¬ C29_statement := by
  intro h
  have := h badEnv badEnv_ok false (.cls 0) .typeError rfl
  cases this

/-- ... and so does C28: the first call raises `TypeError`, the second `AttributeError`. -/
theorem C28_failed_build :
    (jsonToObject badEnv false (.cls 0) (.obj []) Heap.empty).1 = .error .typeError ∧
    (jsonToObject badEnv false (.cls 0) (.obj []) (history badEnv [⟨false, .cls 0, .obj []⟩] Heap.empty)).1 =
      .error .attribute := ⟨rfl, rfl⟩

/-- `class A: x: int = 0` -/
private def optEnv : Env :=
  ⟨[], [{ module := c!"m", name := c!"A", kind := .dataclass false,
          fields := [{ name := c!"x", ty := .int, dflt := .value (.int 0) }] }], id⟩

private theorem optEnv_ok : optEnv.Ok :=
  ⟨by simp [optEnv], by simp [optEnv], by simp [optEnv], fun _ => .refl _⟩

/-- Options of an earlier call stay in force: unknown properties are refused in a fresh interpreter, but accepted after a
call with `skip_unassigned`, and the other way around. -/
theorem C28_options_leak :
    (jsonToObject optEnv false (.cls 0) (.obj [(c!"y", .int 1)]) Heap.empty).1 = .error .jsonKey ∧
    (jsonToObject optEnv false (.cls 0) (.obj [(c!"y", .int 1)]) (history optEnv [⟨true, .cls 0, .obj []⟩] Heap.empty)).1 =
      .ok (.obj 0 [(c!"x", .int 0)]) ∧
    (jsonToObject optEnv true (.cls 0) (.obj [(c!"y", .int 1)]) (history optEnv [⟨false, .cls 0, .obj []⟩] Heap.empty)).1 =
      .error .jsonKey := ⟨rfl, rfl, rfl⟩

/-- So it is for all classes of all programs: after a call for a class, successful or not, the options of later calls for it have no
effect. -/
theorem C28_options_ignored (env : Env) (c : Nat) (cd : ClassDef) (hc : env.classes[c]? = some cd) (calls : List Call)
    (hu : ∃ call ∈ calls, call.ty = .cls c) (skip skip' : Bool) (j : Json) :
    (jsonToObject env skip (.cls c) j (history env calls Heap.empty)).1 =
      (jsonToObject env skip' (.cls c) j (history env calls Heap.empty)).1 := by
  rw [jsonToObject_same hc hc rfl (history_left calls hc Heap.empty hu) skip skip' j]

/-- The options of earlier calls decide: if these have used a class that can be deserialized with one option, documents are read with
this option, whatever is asked for. -/
theorem C28_earlier_options (env : Env) (hk : env.Ok) (c : Nat) (cd : ClassDef) (hc : env.classes[c]? = some cd) (calls : List Call)
    (earlier : Bool) (hg : ∀ c', Reaches env (.cls c) c' → Buildable env c') (hu : ∃ call ∈ calls, call.ty = .cls c)
    (ho : ∀ call ∈ calls, call.skip = earlier ∨ ∀ c', Reaches env (.cls c) c' → ¬ Reaches env call.ty c') (skip : Bool) (j : Json) :
    (jsonToObject env skip (.cls c) j (history env calls Heap.empty)).1 = loads env earlier (.cls c) j := by
  rw [C28_options_ignored env c cd hc calls hu skip earlier j, C28_history_partial env hk calls earlier (.cls c) j hg ho,
    C28_fresh env hk earlier (.cls c) j hg]

/-- C28 is false, even for classes that can be deserialized. -/
theorem C28_violated : ¬ C28_statement := by
  intro h
  have := h optEnv optEnv_ok [⟨true, .cls 0, .obj []⟩] false (.cls 0) (.obj [(c!"y", .int 1)])
  rw [C28_options_leak.1, C28_options_leak.2.1] at this
  cases this

/-- Two classes of the same name in the same module, as made by a function that is called twice. -/
private def dupEnv : Env :=
  ⟨[], [{ module := c!"m", name := c!"A", kind := .dataclass false, fields := [{ name := c!"x", ty := .int }] },
        { module := c!"m", name := c!"A", kind := .dataclass false, fields := [{ name := c!"y", ty := .str }] }], id⟩

/-- Classes are told apart by module and name only: after a call for the first class, a call for the second class returns
an instance of the first. -/
theorem C28_name_collision :
    (jsonToObject dupEnv false (.cls 1) (.obj [(c!"y", .str c!"s")]) Heap.empty).1 = .ok (.obj 1 [(c!"y", .str c!"s")]) ∧
    (jsonToObject dupEnv false (.cls 1) (.obj [(c!"y", .str c!"s")])
      (history dupEnv [⟨false, .cls 0, .null⟩] Heap.empty)).1 = .error .jsonKey ∧
    (jsonToObject dupEnv false (.cls 1) (.obj [(c!"x", .int 1)])
      (history dupEnv [⟨false, .cls 0, .null⟩] Heap.empty)).1 = .ok (.obj 0 [(c!"x", .int 1)]) := ⟨rfl, rfl, rfl⟩

/-! ### The hypotheses are met -/

/-- Mutually recursive classes, an unrelated class that cannot be deserialized, and one that depends on both:
`class A: b: Optional[B]`, `class B: a: list[A]`, `class Bad: x: list`, `class Mixed: a: A; b: Bad`. -/
private def exEnv : Env :=
  ⟨[], [{ module := c!"m", name := c!"A", kind := .dataclass false, fields := [{ name := c!"b", ty := .union [.cls 1, .none] }] },
        { module := c!"m", name := c!"B", kind := .dataclass false, fields := [{ name := c!"a", ty := .list (.cls 0) }] },
        { module := c!"m", name := c!"Bad", kind := .dataclass false, fields := [{ name := c!"x", ty := .bareList }] },
        { module := c!"m", name := c!"Mixed", kind := .dataclass false,
          fields := [{ name := c!"a", ty := .cls 0 }, { name := c!"b", ty := .cls 2 }] }], id⟩

private theorem exReach (c : Nat) (h : Reaches exEnv (.list (.cls 0)) c) : c = 0 ∨ c = 1 := by
  induction h with
  | here h => cases h with | list h => cases h; exact .inl rfl
  | field _ hcd _ hf hm ih =>
    rcases ih with rfl | rfl
    · cases hcd
      rcases List.mem_singleton.1 hf with rfl
      cases hm with
      | union ht hm =>
        simp only [List.mem_cons, List.not_mem_nil, or_false] at ht
        rcases ht with rfl | rfl <;> cases hm
        exact .inr rfl
    · cases hcd
      rcases List.mem_singleton.1 hf with rfl
      cases hm with | list hm => cases hm; exact .inl rfl

private theorem exBuildable (c : Nat) (h : Reaches exEnv (.list (.cls 0)) c) : Buildable exEnv c := by
  rcases exReach c h with rfl | rfl
  · exact ⟨_, rfl, fun _ f hf => by rcases List.mem_singleton.1 hf with rfl; exact ⟨_, rfl⟩⟩
  · exact ⟨_, rfl, fun _ f hf => by rcases List.mem_singleton.1 hf with rfl; exact ⟨_, rfl⟩⟩

/-- After a call for `A` with an option, it is read with this option. -/
example (j j' : Json) (skip earlier : Bool) :
    (jsonToObject exEnv skip (.cls 0) j (history exEnv [⟨earlier, .cls 0, j'⟩] Heap.empty)).1 = loads exEnv earlier (.cls 0) j := by
  refine C28_earlier_options exEnv ⟨by simp [exEnv, ClassDef.key], by simp [exEnv], by simp [exEnv], fun _ => .refl _⟩ 0 _ rfl _ _ ?_
    ⟨_, .head _, rfl⟩ (by simp) _ _
  intro c h
  refine exBuildable c ?_
  induction h with
  | here h => cases h; exact .here (.list .cls)
  | field _ h1 h2 h3 h4 ih => exact .field ih h1 h2 h3 h4

/-- Calls that fail for `Mixed` and calls for `Bad` with another option do not matter. -/
example (j j' j'' : Json) (skip : Bool) :
    (jsonToObject exEnv false (.list (.cls 0)) j
      (history exEnv [⟨false, .cls 3, j'⟩, ⟨skip, .cls 2, j''⟩, ⟨false, .cls 1, j'⟩] Heap.empty)).1 =
    (jsonToObject exEnv false (.list (.cls 0)) j Heap.empty).1 := by
  refine C28_history_partial exEnv ⟨by simp [exEnv, ClassDef.key], by simp [exEnv], by simp [exEnv], fun _ => .refl _⟩ _ _ _ _
    exBuildable ?_
  intro call hc
  simp only [List.mem_cons, List.not_mem_nil, or_false] at hc
  rcases hc with rfl | rfl | rfl
  · exact .inl rfl
  · right
    intro c h1 h2
    have : c = 2 := by
      clear h1
      induction h2 with
      | here h => cases h; rfl
      | field _ hcd _ hf hm ih =>
        subst ih
        cases hcd
        rcases List.mem_singleton.1 hf with rfl
        cases hm
    rcases exReach c h1 with rfl | rfl <;> omega
  · exact .inl rfl

/-- A type for which creation fails although its classes can be deserialized. -/
example : (∀ c, Reaches exEnv (.tuple [.list (.cls 0), .bareList]) c → Buildable exEnv c) ∧
    (getDeser exEnv false (.tuple [.list (.cls 0), .bareList]) Heap.empty).1 = .error .typeError := by
  refine ⟨?_, rfl⟩
  intro c h
  refine exBuildable c ?_
  induction h with
  | here h =>
    cases h with
    | tuple ht hm =>
      simp only [List.mem_cons, List.not_mem_nil, or_false] at ht
      rcases ht with rfl | rfl
      · exact .here hm
      · cases hm
  | field _ h1 h2 h3 h4 ih => exact .field ih h1 h2 h3 h4

end Verif
