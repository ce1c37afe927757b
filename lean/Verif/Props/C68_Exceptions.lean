import Verif.Lemmas.ReadErrors
/-!
# C68: exceptions of `json_to_object`
-/
namespace Verif

/-- Only the exceptions of the specification can be raised. -/
theorem C68_sound (env : Env) (hk : env.Ok) (skip : Bool) (t : Ty) (hs : Supported env t) (j : Json) (hj : j.Wf) (e : Err)
    (h : loads env skip t j = .error e) : MayRaise env skip t e :=
  loads_mayRaise env hk skip t hs j hj e h

/-- Every exception of the specification occurs, for types without unions (see `CertainNode`). -/
theorem C68_occurs (env : Env) (hk : env.Ok) (skip : Bool) (t : Ty) (hs : Supported env t)
    (hp : ∀ u, Part env t u → CertainNode env skip u) (e : Err) (h : MayRaise env skip t e) :
    ∃ j, j.Wf ∧ j ≠ .null ∧ loads env skip t j = .error e :=
  mayRaise_occurs env hk skip t hs hp e h

/-- Which exceptions occur, for types without unions: exactly those of the specification. -/
theorem C68_exact (env : Env) (hk : env.Ok) (skip : Bool) (t : Ty) (hs : Supported env t)
    (hp : ∀ u, Part env t u → CertainNode env skip u) (e : Err) :
    (∃ j, j.Wf ∧ loads env skip t j = .error e) ↔ MayRaise env skip t e := by
  constructor
  · rintro ⟨j, hj, h⟩; exact C68_sound env hk skip t hs j hj e h
  · intro h
    obtain ⟨j, h1, _, h2⟩ := C68_occurs env hk skip t hs hp e h
    exact ⟨j, h1, h2⟩

/-! ### The documented exceptions -/

/-- The claim: apart from `TypeError` when a deserializer cannot be constructed, the exceptions are `JsonKeyError` and
`JsonTypeError`. -/
def C68_statement : Prop :=
  ∀ (env : Env), env.Ok → ∀ (skip : Bool) (t : Ty) (j : Json), j.Wf → ∀ e, loads env skip t j = .error e →
    (e = .typeError ∧ ¬ Supported env t) ∨ e = .jsonKey ∨ e = .jsonType

/-- For types all of whose parts are plain, reading raises `JsonKeyError` or `JsonTypeError`, if anything. -/
theorem C68_documented_partial (env : Env) (hk : env.Ok) (skip : Bool) (t : Ty) (hs : Supported env t)
    (hp : ∀ u, Part env t u → DocumentedNode env u) (j : Json) (hj : j.Wf) (e : Err) (h : loads env skip t j = .error e) :
    e = .jsonKey ∨ e = .jsonType :=
  plain_mayRaise (C68_sound env hk skip t hs j hj e h) hp

/-- Only the exceptions of the specification can be raised, for `json_to_object` called first in a program. -/
theorem C68_fresh (env : Env) (hk : env.Ok) (skip : Bool) (t : Ty) (hs : Supported env t)
    (hg : ∀ c, Reaches env t c → Buildable env c) (j : Json) (hj : j.Wf) (e : Err)
    (h : (jsonToObject env skip t j Heap.empty).1 = .error e) : MayRaise env skip t e := by
  rw [C28_fresh env hk skip t j hg] at h
  exact C68_sound env hk skip t hs j hj e h

mutual
/-- If no deserializer can be created, the exception is `TypeError`, or `JsonTypeError` for keys of dictionaries that are not texts
and for tags that do not tell alternatives apart. -/
theorem C68_creation (env : Env) (e : Err) : ∀ t, compile env t = .error e → e = .typeError ∨ e = .jsonType ∨ e = .outOfModel
  | .none, h | .bool, h | .int, h | .float, h | .str, h | .bytes, h | .datetime, h | .date, h | .time, h | .timedelta, h
  | .uuid, h | .ipv4, h | .ipv6, h => by cases h
  | .bareList, h | .bareDict, h | .bareSet, h | .bareTuple, h => by cases h; exact .inl rfl
  | .list t, h => by
    simp only [compile] at h
    split at h
    · cases h
    · rename_i h1; cases h; exact C68_creation env e t h1
  | .set t, h => by
    simp only [compile] at h
    split at h
    · cases h
    · rename_i h1; cases h; exact C68_creation env e t h1
  | .dict k t, h => by
    simp only [compile] at h
    split at h
    · rename_i h1
      cases h
      unfold checkKeyTy at h1
      repeat' split at h1
      all_goals first | (cases h1; simp) | cases h1
    · split at h
      · cases h
      · rename_i h1; cases h; exact C68_creation env e t h1
  | .tuple ts, h => by
    simp only [compile] at h
    split at h
    · cases h
    · rename_i h1; cases h; exact creationL env e ts h1
  | .union ts, h => by
    simp only [compile] at h
    split at h
    · split at h
      · cases h
      · rename_i h1; cases h; exact creationL env e ts h1
    · split at h
      · cases h
      · rename_i h1; cases h; exact .inr (buildTags_errors h1)
  | .literal ls, h => by
    simp only [compile, compileLit] at h
    split at h
    · cases h; exact .inl rfl
    · split at h
      · split at h
        · cases h
        · rename_i h1
          cases h
          unfold litDeser at h1
          repeat' split at h1
          all_goals first | (cases h1; simp) | cases h1
      · cases h; exact .inl rfl
  | .annotated t _, h => C68_creation env e t (by simpa only [compile] using h)
  | .enum n, h => by
    simp only [compile] at h
    split at h
    · cases h
    · cases h; simp
  | .cls c, h => by
    simp only [compile] at h
    split at h
    · cases h
    · cases h; simp
private theorem creationL (env : Env) (e : Err) : ∀ ts, compileL env ts = .error e → e = .typeError ∨ e = .jsonType ∨ e = .outOfModel
  | [], h => by cases h
  | t :: ts, h => by
    simp only [compileL] at h
    split at h
    · rename_i h1; cases h; exact C68_creation env e t h1
    · split at h
      · cases h
      · rename_i h1; cases h; exact creationL env e ts h1
end

/-- `class Color(Enum): RED = "r"` -/
private def exColor : EnumDef := { module := c!"m", name := c!"Color", members := [(c!"RED", .str c!"r")] }
/-- `@dataclass class Node: size: int; next: Optional["Node"] = None` -/
private def exNode : ClassDef :=
  { module := c!"m", name := c!"Node", kind := .dataclass false, fields :=
    [{ name := c!"size", ty := .int }, { name := c!"next", ty := .union [.cls 0, .none], dflt := .value .none }] }
/-- Two classes with a literal `kind`. -/
private def exTag (s : Str) : ClassDef :=
  { module := c!"m", name := s, kind := .dataclass false, fields := [{ name := c!"kind", ty := .literal [.str s] }] }
/-- `@dataclass class Opts: tags: dict[str, Optional[str]] = field(default_factory=dict); sub: Optional["Opts"] = None` -/
private def exOpts : ClassDef :=
  { module := c!"m", name := c!"Opts", kind := .dataclass false, fields :=
    [{ name := c!"tags", ty := .dict .str (.union [.str, .none]), dflt := .factory (.dict []) },
     { name := c!"sub", ty := .union [.cls 3, .none], dflt := .value .none }] }
private def exEnv : Env := ⟨[exColor], [exNode, exTag c!"A", exTag c!"B", exOpts], id⟩
private theorem exEnv_ok : exEnv.Ok := by
  refine ⟨by decide, ?_, ?_, fun _ => .refl _⟩
  · intro ed h; rcases List.mem_singleton.1 h with rfl; simp [EnumDef.Ok, exColor]
  · intro cd h
    simp only [exEnv, List.mem_cons, List.not_mem_nil, or_false] at h
    rcases h with rfl | rfl | rfl | rfl <;> simp [exNode, exTag, exOpts]

/-- Exceptions that are not documented: `ValueError` for texts and for enumerations, `JsonValueError` for a required property that is
`null` and for the length of a tuple, `OverflowError` for numbers and durations, `TypeError` for sets of lists and for tags. -/
theorem C68_undocumented :
    loads exEnv false .date (.str c!"2020-13-01") = .error .valueError ∧
    loads exEnv false (.enum 0) (.str c!"g") = .error .valueError ∧
    loads exEnv false (.cls 0) (.obj [(c!"size", .null)]) = .error .jsonValue ∧
    loads exEnv false (.tuple [.int, .int]) (.arr [.int 1]) = .error .jsonValue ∧
    loads exEnv false .timedelta (.str c!"P1000000000D") = .error .overflow ∧
    loads exEnv false (.set (.list .int)) (.arr [.arr []]) = .error .typeError ∧
    loads exEnv false (.union [.cls 1, .cls 2]) (.obj [(c!"kind", .arr [])]) = .error .typeError :=
  ⟨rfl, rfl, rfl, rfl, by with_unfolding_all rfl, rfl, rfl⟩

/-- The claim is false. -/
theorem C68_violated : ¬ C68_statement := by
  intro h
  rcases h exEnv exEnv_ok false (.tuple [.int, .int]) (.arr [.int 1]) (.arr (by simpa using .int)) _ C68_undocumented.2.2.2.1 with
    ⟨h, _⟩ | h | h <;> cases h

/-! ### The hypotheses are met -/

private theorem exOpts_readable : Readable exEnv 3 exOpts := by
  refine ⟨rfl, rfl, by simp [exOpts], ?_⟩
  intro f hf
  simp only [exOpts, ClassDef.hints, List.mem_cons, List.not_mem_nil, or_false] at hf
  rcases hf with rfl | rfl <;> exact ⟨_, rfl⟩

/-- The recursive class `Opts` is plain. -/
example : ∀ u, Part exEnv (.cls 3) u → DocumentedNode exEnv u := by
  have hu : ∀ ts, .none ∈ ts → Untagged exEnv ts := by
    rintro ts hn ⟨p, _, h⟩
    have := (h .none hn).2
    simp [literalProps] at this
  have key : ∀ t u, Part exEnv t u →
      (t = .cls 3 ∨ t = .dict .str (.union [.str, .none]) ∨ t = .union [.str, .none] ∨ t = .str ∨ t = .none) → DocumentedNode exEnv u := by
    intro t u h
    induction h with
    | here =>
      rintro (rfl | rfl | rfl | rfl | rfl)
      · refine .cls exOpts_readable ?_
        intro f hf
        simp only [exOpts, ClassDef.hints, List.mem_cons, List.not_mem_nil, or_false] at hf
        rcases hf with rfl | rfl <;> intro h <;> cases h
      · exact .dict
      · exact .union (hu _ (by simp))
      · exact .str
      · exact .none
    | dict _ ih => intro h; simp at h; obtain ⟨_, rfl⟩ := h; exact ih (by simp)
    | union ht _ ih =>
      intro h; simp at h; subst h
      simp at ht
      rcases ht with rfl | rfl <;> exact ih (by simp)
    | field hc _ hf _ ih =>
      intro h; simp at h; subst h
      cases hc
      simp only [ClassDef.hints, List.mem_cons, List.not_mem_nil, or_false, exOpts] at hf
      rcases hf with rfl | rfl
      · exact ih (by simp [fieldTy, exOpts, Ty.required, Ty.isOptional, Ty.unwrapAnn, Ty.unionArgs])
      · exact ih (.inl rfl)
    | _ => intro h; simp at h
  intro u h
  exact key _ u h (.inl rfl)

/-- The recursive class `Node` has exactly these exceptions. -/
example (e : Err) : (∃ j, j.Wf ∧ loads exEnv false (.cls 0) j = .error e) ↔ MayRaise exEnv false (.cls 0) e := by
  have key : ∀ t u, Part exEnv t u → t = .cls 0 ∨ t = .int → CertainNode exEnv false u := by
    intro t u h
    induction h with
    | here =>
      rintro (rfl | rfl)
      · refine .cls (cd := exNode) ⟨rfl, rfl, by simp [exNode], ?_⟩ (by decide) ?_
        · intro f hf
          simp only [exNode, ClassDef.hints, List.mem_cons, List.not_mem_nil, or_false] at hf
          rcases hf with rfl | rfl <;> exact ⟨_, rfl⟩
        · intro f hf
          simp only [exNode, ClassDef.hints, List.mem_cons, List.not_mem_nil, or_false] at hf
          rcases hf with rfl | rfl
          · exact ⟨.int 1, _, .int, by simp, rfl⟩
          · exact ⟨.obj [(c!"size", .int 1)], _, .obj (by simp) (by simpa using .int), by simp, rfl⟩
      · exact .scalar (by simp [scalarErrors])
    | field hc _ hf _ ih =>
      intro h; simp at h; subst h
      cases hc
      simp only [ClassDef.hints, List.mem_cons, List.not_mem_nil, or_false, exNode] at hf
      rcases hf with rfl | rfl
      · exact ih (.inr rfl)
      · exact ih (.inl rfl)
    | _ => intro h; simp at h
  exact C68_exact exEnv exEnv_ok false (.cls 0) ⟨_, rfl⟩ (fun u h => key _ u h (.inl rfl)) e

end Verif
