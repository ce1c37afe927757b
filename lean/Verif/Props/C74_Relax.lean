import Verif.Lemmas.Relax
import Verif.Props.C11_RoundTrip
import Verif.Props.C13_PlainJson
/-!
# C74: what is read by a version of a program is read as the same value by a version with wider types

Two versions of a program are compared.  In the later one the types of fields may be wider: more alternatives, more literals, more
enumeration members, a default for a field that had none (`Relaxed`, Verif/Spec/Relax.lean).
-/
namespace Verif

/-- What the earlier version reads, the later version reads as the same value.
Partial: a new alternative comes after the type that was there or accepts other kinds of JSON values, see `C74_before_fails`; an
alternative of a union of classes without tag is not widened, see `C74_inner_fails`; `float` does not count as wider than `int`, see
`C74_float_fails`. -/
theorem C74_reads_partial (env env' : Env) (h : Relaxation env env') (t u : Ty) (ht : Relaxed env env' t u) (skip : Bool) (j : Json)
    (hj : j.Wf) (v : Val) (hv : loads env skip t j = .ok v) : loads env' skip u j = .ok v :=
  relaxed_read h skip (sizeOf j + 1) ht (Nat.lt_succ_self _) hj v hv

/-- What the earlier version has written, the later version reads as the object that was written. -/
theorem C74_stored_partial (env env' : Env) (h : Relaxation env env') (hh : env.HooksWf) (G : Nat → Prop)
    (hG : ∀ c, G c → ClassInvertible env G c) (t u : Ty) (ht : Relaxed env env' t u) (hi : Invertible env G t)
    (hc : serCreate env t = .ok ()) (v : Val) (hv : HasTy env v t) (he : Encodable v) (skip : Bool) :
    ∃ j, dumps env t v = .ok j ∧ loads env' skip u j = .ok v := by
  obtain ⟨j, h1, h2⟩ := C11_roundtrip_static_partial env h.ok G hG t hi hc v hv he skip
  exact ⟨j, h1, C74_reads_partial env env' h t u ht skip j (C13_distinct env hh t v j h1) v h2⟩

/-! ### The hypotheses are met -/

private def colour1 : EnumDef := { module := c!"m", name := c!"Colour", members := [(c!"RED", .str c!"red")] }
private def colour2 : EnumDef :=
  { module := c!"m", name := c!"Colour", members := [(c!"RED", .str c!"red"), (c!"BLUE", .str c!"blue")] }
/-- `Box(kind: Literal["box"], size: Literal["s", "m"], colour: Colour, parts: list[Union[Box, Bag]])`, and
`Bag(kind: Literal["bag"], count: int, labels: list[str])` -/
private def box1 : ClassDef :=
  { module := c!"m", name := c!"Box", kind := .dataclass false, fields :=
    [{ name := c!"kind", ty := .literal [.str c!"box"] }, { name := c!"size", ty := .literal [.str c!"s", .str c!"m"] },
     { name := c!"colour", ty := .enum 0 }, { name := c!"parts", ty := .list (.union [.cls 0, .cls 1]) }] }
private def bag1 : ClassDef :=
  { module := c!"m", name := c!"Bag", kind := .dataclass false, fields :=
    [{ name := c!"kind", ty := .literal [.str c!"bag"] }, { name := c!"count", ty := .int },
     { name := c!"labels", ty := .list .str }] }
/-- A class that only the later version uses. -/
private def tin : ClassDef :=
  { module := c!"m", name := c!"Tin", kind := .dataclass false, fields := [{ name := c!"kind", ty := .literal [.str c!"tin"] }] }
/-- In the later version, a box has more sizes, a colour that is optional, and also tins for parts; the count of a bag has a default and may be a
text, and labels may be missing. -/
private def box2 : ClassDef :=
  { module := c!"m", name := c!"Box", kind := .dataclass false, fields :=
    [{ name := c!"kind", ty := .literal [.str c!"box", .str c!"crate"] }, { name := c!"size", ty := .str },
     { name := c!"colour", ty := .union [.enum 0, .none] }, { name := c!"parts", ty := .list (.union [.cls 0, .cls 1, .cls 2]) }] }
private def bag2 : ClassDef :=
  { module := c!"m", name := c!"Bag", kind := .dataclass false, fields :=
    [{ name := c!"kind", ty := .literal [.str c!"bag"] }, { name := c!"count", ty := .union [.str, .int], dflt := .value (.int 0) },
     { name := c!"labels", ty := .list (.union [.str, .none]) }] }
private def env1 : Env := ⟨[colour1], [box1, bag1, tin], id⟩
private def env2 : Env := ⟨[colour2], [box2, bag2, tin], List.reverse⟩

private theorem env1_ok : env1.Ok :=
  ⟨by decide +kernel, by simp [env1, colour1, EnumDef.Ok], by simp [env1, box1, bag1, tin], fun _ => .refl _⟩
private theorem env2_ok : env2.Ok :=
  ⟨by decide +kernel, by simp [env2, colour2, EnumDef.Ok, Scalar.pyEq], by simp [env2, box2, bag2, tin],
    fun l => List.reverse_perm l⟩

private theorem tag1 : IsTag env1 [.cls 0, .cls 1] c!"kind" := mem_discProps.1 (by decide +kernel)
private theorem tag2 : IsTag env2 [.cls 0, .cls 1, .cls 2] c!"kind" := mem_discProps.1 (by decide +kernel)

private theorem parts_relaxed : Relaxed env1 env2 (.union [.cls 0, .cls 1]) (.union [.cls 0, .cls 1, .cls 2]) := by
  refine .tagged ⟨_, tag1⟩ ?_ ?_ (by simp) ?_ ?_
  · exact ((C23_ambiguous_iff env1 env1_ok _ ⟨_, tag1⟩).2).1 ⟨_, rfl⟩
  · exact ((C23_ambiguous_iff env2 env2_ok _ ⟨_, tag2⟩).2).1 ⟨_, rfl⟩
  · intro p hp
    have hp' : p ∈ [c!"kind"] := mem_discProps.2 hp
    rw [List.mem_singleton] at hp'
    rw [hp']; exact tag2
  · intro q c cd f ls hq _ hc hf hn
    have hq' : q ∈ [c!"kind"] := mem_discProps.2 hq
    rw [List.mem_singleton] at hq'
    subst hq'
    match c with
    | 0 =>
      cases hc
      simp only [ClassDef.hints, box2, List.mem_cons, List.not_mem_nil, or_false] at hf
      rcases hf with rfl | rfl | rfl | rfl <;> first | exact absurd hn (by decide) |
        exact ⟨rfl, fun h => by cases h; exact ⟨⟨.str, by simp, by simp [Lit.ty]⟩, by simp⟩⟩
    | 1 =>
      cases hc
      simp only [ClassDef.hints, bag2, List.mem_cons, List.not_mem_nil, or_false] at hf
      rcases hf with rfl | rfl | rfl <;> first | exact absurd hn (by decide) |
        exact ⟨rfl, fun h => by cases h; exact ⟨⟨.str, by simp, by simp [Lit.ty]⟩, by simp⟩⟩
    | 2 =>
      cases hc
      simp only [ClassDef.hints, tin, List.mem_cons, List.not_mem_nil, or_false] at hf
      rcases hf with rfl
      exact ⟨rfl, fun h => by cases h; exact ⟨⟨.str, by simp, by simp [Lit.ty]⟩, by simp⟩⟩
    | _ + 3 => cases hc

private theorem box_versions : Relaxation env1 env2 where
  ok := env1_ok
  ok' := env2_ok
  classes := by
    refine .cons ?_ (.cons ?_ (.cons ?_ .nil))
    · refine ⟨rfl, by simp [box1], rfl, rfl, .cons ?_ (.cons ?_ (.cons ?_ (.cons ?_ .nil)))⟩
      · exact ⟨rfl, rfl, .literal ⟨.str, by simp, by simp [Lit.ty]⟩ (by simp) (by simp) (by simp), by
          simp [box1, absentValue, Ty.isOptional, Ty.unwrapAnn, Ty.unionArgs]⟩
      · exact ⟨rfl, rfl, .unlisted (t := .str) (by simp) (by simp [Lit.ty]) (by simp [scalarTys]), by
          simp [box1, absentValue, Ty.isOptional, Ty.unwrapAnn, Ty.unionArgs]⟩
      · exact ⟨rfl, rfl, .enum (e := 0) (ed := colour1) (ed' := colour2) rfl rfl ⟨[(c!"BLUE", .str c!"blue")], rfl⟩, by
          simp [box1, absentValue, Ty.isOptional, Ty.unwrapAnn, Ty.unionArgs]⟩
      · exact ⟨rfl, rfl, .list parts_relaxed, by
          simp [box1, absentValue, Ty.isOptional, Ty.unwrapAnn, Ty.unionArgs]⟩
    · refine ⟨rfl, by simp [bag1], rfl, rfl, .cons ?_ (.cons ?_ (.cons ?_ .nil))⟩
      · exact ⟨rfl, rfl, .literal ⟨.str, by simp, by simp [Lit.ty]⟩ (by simp) (by simp) (by simp), by
          simp [bag1, absentValue, Ty.isOptional, Ty.unwrapAnn, Ty.unionArgs]⟩
      · refine ⟨rfl, rfl, .member (t := .int) (u := .int) (us := [.str, .int]) (i := 1) ?_ ?_ rfl (.scalar (by simp [scalarTys])) ?_, by
          simp [bag1, absentValue, Ty.isOptional, Ty.unwrapAnn, Ty.unionArgs]⟩
        · exact Rootless.untagged (by simp; exact ⟨.scalar (by simp [scalarTys]), .scalar (by simp [scalarTys])⟩)
        · simp; exact ⟨⟨_, rfl⟩, ⟨_, rfl⟩⟩
        · intro k p hk hp
          match k with
          | 0 =>
            cases hp
            exact ⟨.scalar (by simp [scalarTys]), .scalar (by simp [scalarTys]), fun k => by cases k <;> simp [rejectKinds]⟩
          | _ + 1 => omega
      · refine ⟨rfl, rfl, .list (.member (t := .str) (u := .str) (us := [.str, .none]) (i := 0) ?_ ?_ rfl (.scalar (by simp [scalarTys])) ?_), by
          simp [bag1, absentValue, Ty.isOptional, Ty.unwrapAnn, Ty.unionArgs]⟩
        · exact Rootless.untagged (by simp; exact ⟨.scalar (by simp [scalarTys]), .scalar (by simp [scalarTys])⟩)
        · simp; exact ⟨⟨_, rfl⟩, ⟨_, rfl⟩⟩
        · intro k p hk hp; omega
    · refine ⟨rfl, by simp [tin], rfl, rfl, .cons ?_ .nil⟩
      exact ⟨rfl, rfl, .literal ⟨.str, by simp, by simp [Lit.ty]⟩ (by simp) (by simp) (by simp), fun _ h => h⟩

/-- Containers of any depth that the earlier version reads, the later version reads as the same object. -/
example (skip : Bool) (j : Json) (hj : j.Wf) (v : Val) (hv : loads env1 skip (.union [.cls 0, .cls 1]) j = .ok v) :
    loads env2 skip (.union [.cls 0, .cls 1, .cls 2]) j = .ok v :=
  C74_reads_partial env1 env2 box_versions _ _ parts_relaxed skip j hj v hv

/-- `{"kind": "box", "size": "m", "colour": "red", "parts": [{"kind": "bag", "count": 3, "labels": ["a"]}]}` -/
private def oldBox : Json :=
  .obj [(c!"kind", .str c!"box"), (c!"size", .str c!"m"), (c!"colour", .str c!"red"),
    (c!"parts", .arr [.obj [(c!"kind", .str c!"bag"), (c!"count", .int 3), (c!"labels", .arr [.str c!"a"])]])]
private def oldBoxVal : Val :=
  .obj 0 [(c!"kind", .str c!"box"), (c!"size", .str c!"m"), (c!"colour", .enum 0 0),
    (c!"parts", .list [.obj 1 [(c!"kind", .str c!"bag"), (c!"count", .int 3), (c!"labels", .list [.str c!"a"])]])]

example : loads env1 false (.union [.cls 0, .cls 1]) oldBox = .ok oldBoxVal ∧
    loads env2 false (.union [.cls 0, .cls 1, .cls 2]) oldBox = .ok oldBoxVal := ⟨rfl, rfl⟩

private theorem bag1_invertible : ∀ c, c = 1 → ClassInvertible env1 (· = 1) c := by
  rintro c rfl
  refine .standard bag1 rfl rfl rfl (by simp [bag1]) (by simp [bag1]) rfl (by decide) ?_ ?_ ?_
  · intro f hf
    simp only [bag1, List.mem_cons, List.not_mem_nil, or_false] at hf
    rcases hf with rfl | rfl | rfl <;> rfl
  · intro f hf
    simp only [bag1, List.mem_cons, List.not_mem_nil, or_false] at hf
    rcases hf with rfl | rfl | rfl
    · exact .literal ⟨.str, by simp, by simp [Lit.ty]⟩ (by simp)
    · exact .scalar (t := .int) (by simp [scalarTys])
    · exact .list (t := .str) (.scalar (by simp [scalarTys]))
  · intro f hf hno
    simp only [bag1, List.mem_cons, List.not_mem_nil, or_false] at hf
    rcases hf with rfl | rfl | rfl
    · cases hno with
      | literal hl he =>
        rcases List.mem_singleton.1 hl with rfl
        cases he
    · cases hno
    · cases hno

/-- Bags that the earlier version has written, the later one reads. -/
example (v : Val) (hv : HasTy env1 v (.list (.cls 1))) (he : Encodable v) (skip : Bool) :
    ∃ j, dumps env1 (.list (.cls 1)) v = .ok j ∧ loads env2 skip (.list (.cls 1)) j = .ok v :=
  C74_stored_partial env1 env2 box_versions ⟨by simp [env1, box1, bag1, tin], by simp [env1, colour1]⟩ (· = 1) bag1_invertible _ _
    (.list (.cls (cd := bag1) rfl)) (.list (.cls rfl)) rfl v hv he skip

/-- A union that gains a member at its end, even one that accepts the same data. -/
example (env : Env) : Relaxed env env (.union [.date, .int]) (.union [.date, .int, .str]) :=
  .append (more := [.str]) (by simp; exact ⟨.scalar (by simp [scalarTys]), .scalar (by simp [scalarTys])⟩)
    (Rootless.untagged (by
      simp; exact ⟨.scalar (by simp [scalarTys]), .scalar (by simp [scalarTys]), .scalar (by simp [scalarTys])⟩))
    (by simp; exact ⟨_, rfl⟩)

/-! ### What is not compatible -/

/-- A new alternative that is placed before the type that was there captures its data: `str` and `Union[date, str]` with
`"2024-01-31"`; and `int` and `Union[bool, int]` with `true`. -/
theorem C74_before_fails (env : Env) :
    loads env false .str (.str c!"2024-01-31") = .ok (.str c!"2024-01-31") ∧
    loads env false (.union [.date, .str]) (.str c!"2024-01-31") = .ok (.date ⟨2024, 1, 31⟩) ∧
    loads env false .int (.bool true) = .ok (.int 1) ∧
    loads env false (.union [.bool, .int]) (.bool true) = .ok (.bool true) := ⟨rfl, rfl, rfl, rfl⟩

/-- The value of a `float` field is a `float` even if the data is an integer. -/
theorem C74_float_fails (env : Env) : loads env false .int (.int 1) = .ok (.int 1) ∧
    ∃ x, loads env false .float (.int 1) = .ok (.float x) := ⟨rfl, _, rfl⟩

private def classA (t : Ty) : ClassDef :=
  { module := c!"m", name := c!"A", kind := .dataclass false, fields := [{ name := c!"x", ty := t }] }
private def classB : ClassDef :=
  { module := c!"m", name := c!"B", kind := .dataclass false, fields := [{ name := c!"x", ty := .str }] }

/-- In a union without tag, data of one class is read as another once a field of that other class has a wider type:
`Union[A, B]` with `A(x: int)`, `B(x: str)` and `{"x": "y"}` when `A` becomes `A(x: Union[int, str])`. -/
theorem C74_inner_fails : ∃ env env' : Env, env = ⟨[], [classA .int, classB], id⟩ ∧
    env' = ⟨[], [classA (.union [.int, .str]), classB], id⟩ ∧ Relaxation env env' ∧
    ∃ j, loads env false (.union [.cls 0, .cls 1]) j = .ok (.obj 1 [(c!"x", .str c!"y")]) ∧
      loads env' false (.union [.cls 0, .cls 1]) j = .ok (.obj 0 [(c!"x", .str c!"y")]) := by
  refine ⟨_, _, rfl, rfl, ⟨?_, ?_, .cons ?_ (.cons ?_ .nil)⟩, .obj [(c!"x", .str c!"y")], rfl, rfl⟩
  · exact ⟨by decide +kernel, by simp, by simp [classA, classB], fun _ => .refl _⟩
  · exact ⟨by decide +kernel, by simp, by simp [classA, classB], fun _ => .refl _⟩
  · refine ⟨rfl, by simp [classA], rfl, rfl, .cons ?_ .nil⟩
    refine ⟨rfl, rfl, .member (t := .int) (u := .int) (us := [.int, .str]) (i := 0) ?_ ?_ rfl (.scalar (by simp [scalarTys]))
      (fun k p hk => by omega), by simp [classA, absentValue, Ty.isOptional, Ty.unwrapAnn, Ty.unionArgs]⟩
    · exact Rootless.untagged (by simp; exact ⟨.scalar (by simp [scalarTys]), .scalar (by simp [scalarTys])⟩)
    · simp; exact ⟨⟨_, rfl⟩, ⟨_, rfl⟩⟩
  · refine ⟨rfl, by simp [classB], rfl, rfl, .cons ⟨rfl, rfl, .scalar (t := .str) (by simp [scalarTys]), fun _ h => h⟩ .nil⟩

end Verif
