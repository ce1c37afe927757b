import Verif.Lemmas.Names
import Verif.Model.Deserializer
import Verif.Spec.Env
/-!
# C48: creation of serializers for recursive classes

The full statement is false for the code: a class that mentions itself outside of a union has no serializer
(`C48_diverges`, for all such classes).  Creation ends for all other classes (`C48_ends_partial`).
-/
namespace Verif

/-- C48 in full: creation ends, whatever the classes are. -/
def C48_statement : Prop :=
  ∀ (env : Env), env.Ok → ∀ t, Scoped env t → ∃ depth, createWith env (createCls env depth) t ≠ .error .recursion

/-- C48 for types that do not lead to a class that leads back to itself (other than through a union): creation ends, it
nests at most as many classes as there are, and more depth makes no difference. -/
theorem C48_ends_partial (env : Env) (t : Ty) (hs : Scoped env t) (hc : ∀ c, Needed env t c → ¬ SelfReferential env c) :
    serCreate env t ≠ .error .recursion ∧
    ∀ depth, env.classes.length ≤ depth → createWith env (createCls env depth) t = serCreate env t := by
  have h1 : serCreate env t ≠ .error .recursion := by
    intro h
    obtain ⟨c, h1, h2⟩ := createWith_err t h
    obtain ⟨l, h3, h4⟩ := createCls_walk _ _ h2
    have hmem : ∀ x ∈ c :: l, Needed env t x := by
      intro x hx
      rcases List.mem_cons.1 hx with rfl | hx
      · exact .here h1
      · exact (Needed.here h1).trans (h4.trans x hx)
    by_cases hd : (c :: l).Nodup
    · have := nodup_bound env.classes.length _ hd (fun x hx => by
        obtain ⟨cd, hcd⟩ := hs x (hmem x hx)
        exact lt_of_class hcd)
      simp only [List.length_cons, h3] at this
      omega
    · obtain ⟨c', h5, h6⟩ := h4.loop hd
      exact hc c' (hmem c' h5) h6
  exact ⟨h1, fun depth hd => createWith_stable (fun c => createCls_stable hd c) t h1⟩

/-- ... and for no other type: if a type leads to a class that leads back to itself, creation never returns. -/
theorem C48_diverges (env : Env) (t : Ty) (c : Nat) (hn : Needed env t c) (hc : SelfReferential env c) (depth : Nat) :
    createWith env (createCls env depth) t ≠ .ok () := by
  -- a class from which one can go on for ever
  have key : ∀ n c, (∃ c', (c = c' ∨ Relation.TransGen (Needs env) c c') ∧ SelfReferential env c') → createCls env n c ≠ .ok () := by
    have hstep : ∀ {c c'}, Relation.TransGen (Needs env) c c' → ∃ c1, Needs env c c1 ∧ (c1 = c' ∨ Relation.TransGen (Needs env) c1 c') := by
      intro c c' h
      induction h with
      | single h => exact ⟨_, h, .inl rfl⟩
      | tail _ h ih =>
        obtain ⟨c1, h1, h2⟩ := ih
        refine ⟨c1, h1, .inr ?_⟩
        rcases h2 with rfl | h2
        · exact .single h
        · exact .tail h2 h
    intro n
    induction n with
    | zero => intro c _ h; cases h
    | succ n ih =>
      rintro c ⟨c', h1, h2⟩ h
      rcases h1 with rfl | h1
      · obtain ⟨c1, h3, h4⟩ := hstep h2
        exact ih c1 ⟨c, h4, h2⟩ (createCls_ok_needs h h3)
      · obtain ⟨c1, h3, h4⟩ := hstep h1
        exact ih c1 ⟨c', h4, h2⟩ (createCls_ok_needs h h3)
  have hex : ∃ c0, Static t c0 ∧ (c0 = c ∨ Relation.TransGen (Needs env) c0 c) := by
    induction hn with
    | here h => exact ⟨_, h, .inl rfl⟩
    | @next c1 c2 h1 h2 ih =>
      have : Needed env t c1 := h1
      clear ih hc
      induction this generalizing c2 with
      | here h => exact ⟨_, h, .inr (.single h2)⟩
      | @next c3 c4 h3 h4 ih =>
        obtain ⟨c0, h5, h6⟩ := ih h3 h4
        refine ⟨c0, h5, .inr ?_⟩
        rcases h6 with rfl | h6
        · exact .single h2
        · exact .tail h6 h2
  obtain ⟨c0, h1, h2⟩ := hex
  intro h
  exact key depth c0 ⟨c, h2, hc⟩ (createWith_ok_static t h c0 h1)

/-- The nesting depth in `serCreate` is no restriction: where it reports that creation does not end, creation does not
end with any depth. -/
theorem C48_depth (env : Env) (t : Ty) (hs : Scoped env t) (h : serCreate env t = .error .recursion) (depth : Nat) :
    createWith env (createCls env depth) t = .error .recursion := by
  apply Classical.byContradiction
  intro hne
  rcases Nat.le_total depth env.classes.length with hd | hd
  · have := createWith_stable (env := env) (fun c => createCls_stable hd c) t hne
    exact hne (this.symm.trans h)
  · obtain ⟨c, h1, h2, h3⟩ := createWith_gap (env := env) (fun c => createCls_stable hd c) t h hne
    exact h3 (createCls_enough hs (.here h1) h2 depth)

/-- There is a serializer for a type exactly if, among the classes that the type leads to, none leads back to itself and each has
serializers for its fields. -/
theorem C48_exact (env : Env) (t : Ty) (hs : Scoped env t) :
    serCreate env t = .ok () ↔ ¬ Offends env t ∧ ∀ c, Needed env t c →
      ¬ SelfReferential env c ∧ ∀ cd, env.classes[c]? = some cd → cd.Presentable env := by
  constructor
  · intro h
    refine ⟨createWith_sound t h, fun c hn => ⟨fun hc => C48_diverges env t c hn hc _ h, fun cd hcd => ?_⟩⟩
    obtain ⟨m, hm⟩ := createCls_needed h hn
    exact createCls_presentable hcd hm
  · rintro ⟨h1, h2⟩
    have he := (C48_ends_partial env t hs fun c hn => (h2 c hn).1).1
    rcases createWith_made (f := createCls env env.classes.length) t h1
      (fun c hc => createCls_made hs (fun c hn => (h2 c hn).2) _ c (.here hc)) with h | h
    · exact h
    · exact absurd h he

/-! ### The code violates the full statement -/

/-- `class Node: children: list["Node"]` -/
private def nodeEnv : Env :=
  ⟨[], [{ module := c!"m", name := c!"Node", kind := .dataclass false, fields := [{ name := c!"children", ty := .list (.cls 0), fwd := true }] }], id⟩

private theorem nodeEnv_needs {c c' : Nat} (h : Needs nodeEnv c c') : c' = 0 := by
  obtain ⟨cd, hcd, _, f, hf, hs⟩ := h
  have hc : c = 0 := by
    cases c with
    | zero => rfl
    | succ c => cases hcd
  subst hc
  cases hcd
  rcases List.mem_singleton.1 hf with rfl
  cases hs with | list hs => cases hs; rfl

private theorem nodeEnv_scoped : Scoped nodeEnv (.cls 0) := by
  intro c h
  have : c = 0 := by
    cases h with
    | here h => cases h; rfl
    | next _ h => exact nodeEnv_needs h
  subst this
  exact ⟨_, rfl⟩

/-- C48 is false. -/
theorem C48_violated : ¬ C48_statement := by
  intro h
  obtain ⟨depth, hd⟩ := h nodeEnv ⟨by simp [nodeEnv], by simp [nodeEnv], by simp [nodeEnv], fun _ => .refl _⟩ (.cls 0) nodeEnv_scoped
  exact hd (C48_depth nodeEnv (.cls 0) nodeEnv_scoped rfl depth)

/-- `class Item: n: int` and `class Box: content: Annotated[list["Item"], Alias("items")]` and
`class Count: by: dict["Color", int]` and `class Plain: content: list["Item"]` -/
private def itemEnv : Env :=
  ⟨[{ module := c!"m", name := c!"Color", members := [(c!"RED", .str c!"red")] }],
   [{ module := c!"m", name := c!"Item", kind := .dataclass false, fields := [{ name := c!"n", ty := .int }] },
    { module := c!"m", name := c!"Box", kind := .dataclass false, fields :=
       [{ name := c!"content", ty := .annotated (.list (.cls 0)) [.alias c!"items"], fwd := true }] },
    { module := c!"m", name := c!"Count", kind := .dataclass false, fields :=
       [{ name := c!"by", ty := .dict (.enum 0) .int, fwd := true }] },
    { module := c!"m", name := c!"Plain", kind := .dataclass false, fields :=
       [{ name := c!"content", ty := .list (.cls 0), fwd := true }] }], id⟩

/-- Classes without any recursion that can be read but have no serializer: names are not looked up within `Annotated`, nor for the
keys of dictionaries. -/
theorem C48_names_fail :
    (∃ v, loads itemEnv false (.cls 1) (.obj [(c!"items", .arr [.obj [(c!"n", .int 1)]])]) = .ok v ∧ objectToJson itemEnv v = .error .typeError) ∧
    (∃ v, loads itemEnv false (.cls 2) (.obj [(c!"by", .obj [(c!"red", .int 1)])]) = .ok v ∧ objectToJson itemEnv v = .error .typeError) :=
  ⟨⟨_, rfl, rfl⟩, ⟨_, rfl, rfl⟩⟩

/-! ### The hypotheses are met -/

example : serCreate itemEnv (.cls 3) = .ok () ∧
    loads itemEnv false (.cls 3) (.obj [(c!"content", .arr [.obj [(c!"n", .int 1)]])]) =
      .ok (.obj 3 [(c!"content", .list [.obj 0 [(c!"n", .int 1)]])]) := ⟨rfl, rfl⟩

example : Needed nodeEnv (.tuple [.int, .cls 0]) 0 ∧ SelfReferential nodeEnv 0 :=
  ⟨.here (.tuple (by simp) .cls), .single ⟨_, rfl, rfl, _, List.mem_singleton.2 rfl, .list .cls⟩⟩

/-- `class A: next: Optional["A"]; b: B` and `class B: x: dict[str, C]` and `class C: a: Union[A, B]`: recursive, but only
through unions. -/
private def unionEnv : Env :=
  ⟨[], [{ module := c!"m", name := c!"A", kind := .dataclass false, fields :=
          [{ name := c!"next", ty := .union [.cls 0, .none] }, { name := c!"b", ty := .cls 1 }] },
        { module := c!"m", name := c!"B", kind := .dataclass false, fields := [{ name := c!"x", ty := .dict .str (.cls 2) }] },
        { module := c!"m", name := c!"C", kind := .dataclass false, fields := [{ name := c!"a", ty := .union [.cls 0, .cls 1] }] }], id⟩

private theorem unionEnv_needs {c c' : Nat} (h : Needs unionEnv c c') : c' = c + 1 ∧ c' < 3 := by
  obtain ⟨cd, hcd, _, f, hf, hs⟩ := h
  match c, hcd with
  | 0, hcd =>
    cases hcd
    rcases List.mem_cons.1 hf with rfl | hf
    · cases hs
    · rcases List.mem_singleton.1 hf with rfl
      cases hs; simp
  | 1, hcd =>
    cases hcd
    rcases List.mem_singleton.1 hf with rfl
    cases hs with | dict hs => cases hs; simp
  | 2, hcd =>
    cases hcd
    rcases List.mem_singleton.1 hf with rfl
    cases hs
  | c + 3, hcd => cases hcd

example : Scoped unionEnv (.cls 0) ∧ (∀ c, Needed unionEnv (.cls 0) c → ¬ SelfReferential unionEnv c) ∧
    serCreate unionEnv (.cls 0) = .ok () := by
  refine ⟨?_, ?_, rfl⟩
  · intro c h
    have hlt : c < 3 := by
      cases h with
      | here h => cases h; simp
      | next _ h => exact (unionEnv_needs h).2
    match c, hlt with
    | 0, _ => exact ⟨_, rfl⟩
    | 1, _ => exact ⟨_, rfl⟩
    | 2, _ => exact ⟨_, rfl⟩
  · intro c _ h
    have : ∀ c', Relation.TransGen (Needs unionEnv) c c' → c < c' := by
      intro c' h
      induction h with
      | single h => have := (unionEnv_needs h).1; omega
      | tail _ h ih => have := (unionEnv_needs h).1; omega
    exact absurd (this c h) (Nat.lt_irrefl _)

end Verif
