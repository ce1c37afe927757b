import Verif.Lemmas.Evolve
import Verif.Props.C11_RoundTrip
import Verif.Props.C13_PlainJson
/-!
# C64: a class that gains optional fields reads old data, and the old class reads new data

Two versions of a program are compared.  In the later one the classes may have more fields, each of which may be absent
(`ClassExtends`, Verif/Spec/Evolve.lean).
-/
namespace Verif

/-- What the earlier version reads, the later version reads; the new fields have the value that belongs to an absent property.
Partial: unions of classes without tag are left out, see `C64_union_fails`; new fields must not be of a literal type, see
`C64_literal_fails`; a property must not be unknown to the earlier version, see `C64_skipped_fails`. -/
theorem C64_new_reads_old_partial (env env' : Env) (h : Versions env env') (t : Ty) (ht : Steady env t) (j : Json) (hj : j.Wf)
    (v : Val) (hv : loads env false t j = .ok v) :
    ∃ v', loads env' false t j = .ok v' ∧ Grown (Initial env') v v' :=
  carry (env := env) (E := env) (E' := env') (s := false) (s' := false) grown_closed h.ok h.ok' rfl h.ext.enums h.ext.kind_eq
    (fun ht => ⟨ht.supported h.ok, (ht.mono h.ext h.ok').supported h.ok'⟩)
    (fun _ ih _ _ hc hn hw => h.new_of_old ih hc hn hw)
    (fun ht hp hv => h.tag (.inl ⟨rfl, rfl⟩) ht hp hv) (sizeOf j + 1) ht (Nat.lt_succ_self _) hj v hv

/-- What the later version reads, the earlier version reads when it skips unknown properties; all fields that it knows have the
same values. -/
theorem C64_old_reads_new_partial (env env' : Env) (h : Versions env env') (t : Ty) (ht : Steady env t) (j : Json) (hj : j.Wf)
    (skip : Bool) (v' : Val) (hv : loads env' skip t j = .ok v') :
    ∃ v, loads env true t j = .ok v ∧ Grown (fun _ _ _ => True) v v' :=
  carry (env := env) (E := env') (E' := env) (s := skip) (s' := true) (R := fun v w => Grown (fun _ _ _ => True) w v) grown_closed'
    h.ok' h.ok h.ext.enums rfl (fun c => (h.ext.kind_eq c).symm)
    (fun ht => ⟨(ht.mono h.ext h.ok').supported h.ok', ht.supported h.ok⟩)
    (fun _ ih _ _ hc hn hw => h.old_of_new ih hc hn hw)
    (fun ht hp hv => h.tag (.inr ⟨rfl, rfl⟩) ht hp hv) (sizeOf j + 1) ht (Nat.lt_succ_self _) hj v' hv

/-- What the earlier version has written, the later version reads. -/
theorem C64_stored_partial (env env' : Env) (h : Versions env env') (hh : env.HooksWf) (G : Nat → Prop)
    (hG : ∀ c, G c → ClassInvertible env G c) (t : Ty) (ht : Steady env t) (hi : Invertible env G t)
    (hc : serCreate env t = .ok ()) (v : Val) (hv : HasTy env v t) (he : Encodable v) :
    ∃ j v', dumps env t v = .ok j ∧ loads env' false t j = .ok v' ∧ Grown (Initial env') v v' := by
  obtain ⟨j, h1, h2⟩ := C11_roundtrip_static_partial env h.ok G hG t hi hc v hv he false
  obtain ⟨v', h3, h4⟩ := C64_new_reads_old_partial env env' h t ht j (C13_distinct env hh t v j h1) v h2
  exact ⟨j, v', h1, h3, h4⟩

/-- What the later version writes, the earlier version reads when it skips unknown properties. -/
theorem C64_sent_partial (env env' : Env) (h : Versions env env') (hh : env'.HooksWf) (G : Nat → Prop)
    (hG : ∀ c, G c → ClassInvertible env' G c) (t : Ty) (ht : Steady env t) (hi : Invertible env' G t)
    (hc : serCreate env' t = .ok ()) (v' : Val) (hv : HasTy env' v' t) (he : Encodable v') :
    ∃ j v, dumps env' t v' = .ok j ∧ loads env true t j = .ok v ∧ Grown (fun _ _ _ => True) v v' := by
  obtain ⟨j, h1, h2⟩ := C11_roundtrip_static_partial env' h.ok' G hG t hi hc v' hv he false
  obtain ⟨v, h3, h4⟩ := C64_old_reads_new_partial env env' h t ht j (C13_distinct env' hh t v' j h1) false v' h2
  exact ⟨j, v, h1, h3, h4⟩

/-! ### The hypotheses are met -/

/-- `Leaf` and `Pair`, told apart by `kind`; a pair refers to a list of both. -/
private def leaf1 : ClassDef :=
  { module := c!"m", name := c!"Leaf", kind := .dataclass false, fields :=
    [{ name := c!"kind", ty := .literal [.str c!"leaf"] }, { name := c!"size", ty := .int, dflt := .value (.int 3) }] }
private def pair1 : ClassDef :=
  { module := c!"m", name := c!"Pair", kind := .dataclass false, fields :=
    [{ name := c!"kind", ty := .literal [.str c!"pair"] }, { name := c!"parts", ty := .list (.union [.cls 0, .cls 1]) }] }
/-- In the later version a leaf has a colour and a pair may have a leaf on top. -/
private def leaf2 : ClassDef :=
  { module := c!"m", name := c!"Leaf", kind := .dataclass false, fields :=
    [{ name := c!"kind", ty := .literal [.str c!"leaf"] }, { name := c!"size", ty := .int, dflt := .value (.int 3) },
     { name := c!"colour", ty := .str, dflt := .value (.str c!"green") }] }
private def pair2 : ClassDef :=
  { module := c!"m", name := c!"Pair", kind := .dataclass false, fields :=
    [{ name := c!"kind", ty := .literal [.str c!"pair"] }, { name := c!"top", ty := .union [.cls 0, .none] },
     { name := c!"parts", ty := .list (.union [.cls 0, .cls 1]) }] }
private def env1 : Env := ⟨[], [leaf1, pair1], id⟩
private def env2 : Env := ⟨[], [leaf2, pair2], List.reverse⟩

private theorem tree_tag : IsTag env1 [.cls 0, .cls 1] c!"kind" := mem_discProps.1 (by decide +kernel)

private theorem env1_ok : env1.Ok := ⟨by decide +kernel, by simp [env1], by simp [env1, leaf1, pair1], fun _ => .refl _⟩
private theorem env2_ok : env2.Ok :=
  ⟨by decide +kernel, by simp [env2], by simp [env2, leaf2, pair2], fun l => List.reverse_perm l⟩

private theorem tree_steady : Steady env1 (.union [.cls 0, .cls 1]) := by
  refine .tagged ⟨_, tree_tag⟩ ?_ ?_
  · exact ((C23_ambiguous_iff env1 env1_ok _ ⟨_, tree_tag⟩).2).1 ⟨_, rfl⟩
  · intro p c cd f hp _ hc hf hn
    have hp' : p ∈ [c!"kind"] := mem_discProps.2 hp
    rw [List.mem_singleton] at hp'
    subst hp'
    match c with
    | 0 => cases hc; simp only [ClassDef.hints, leaf1, List.mem_cons, List.not_mem_nil, or_false] at hf; rcases hf with rfl | rfl <;> first | rfl | exact absurd hn (by decide)
    | 1 => cases hc; simp only [ClassDef.hints, pair1, List.mem_cons, List.not_mem_nil, or_false] at hf; rcases hf with rfl | rfl <;> first | rfl | exact absurd hn (by decide)
    | _ + 2 => cases hc

private theorem tree_versions : Versions env1 env2 where
  ok := env1_ok
  ok' := env2_ok
  ext := by
    refine ⟨rfl, .cons ?_ (.cons ?_ .nil)⟩
    · refine ⟨rfl, rfl, rfl, by simp [leaf1], rfl, rfl, ?_, ?_, ?_⟩
      · simp [leaf1, leaf2]
      · simp [leaf1, absentValue, Ty.isOptional, Ty.unwrapAnn, Ty.unionArgs]
        exact .scalar (by simp) (by simp) (by simp) (by simp) (by simp)
      · intro f hf
        simp only [leaf2, List.mem_cons, List.not_mem_nil, or_false] at hf
        rcases hf with rfl | rfl | rfl
        · exact .inl (by simp [leaf1])
        · exact .inl (by simp [leaf1])
        · exact .inr ⟨by simp [IsRequired, absentValue, leaf2], rfl, by
            simp only [leaf1, List.mem_cons, List.not_mem_nil, or_false, forall_eq_or_imp, forall_eq]
            decide +kernel⟩
    · refine ⟨rfl, rfl, rfl, by simp [pair1], rfl, rfl, ?_, ?_, ?_⟩
      · simp [pair1, pair2]
      · simp [pair1, absentValue, Ty.isOptional, Ty.unwrapAnn, Ty.unionArgs]
      · intro f hf
        simp only [pair2, List.mem_cons, List.not_mem_nil, or_false] at hf
        rcases hf with rfl | rfl | rfl
        · exact .inl (by simp [pair1])
        · exact .inr ⟨by simp [IsRequired, absentValue, pair2, Ty.isOptional, Ty.unwrapAnn, Ty.unionArgs, Ty.isNone], rfl, by
            simp only [pair1, List.mem_cons, List.not_mem_nil, or_false, forall_eq_or_imp, forall_eq]
            decide +kernel⟩
        · exact .inl (by simp [pair1])
  steady := by
    intro cd hcd f hf
    simp only [env1, List.mem_cons, List.not_mem_nil, or_false] at hcd
    rcases hcd with rfl | rfl
    · simp only [leaf1, List.mem_cons, List.not_mem_nil, or_false] at hf
      rcases hf with rfl | rfl
      · exact .free (.literal ⟨.str, by simp, by simp [Lit.ty]⟩ (by simp))
      · exact .free (.leaf (by simp [fieldTy, leaf1, Ty.required, Ty.isOptional, Ty.unwrapAnn, Ty.unionArgs]))
    · simp only [pair1, List.mem_cons, List.not_mem_nil, or_false] at hf
      rcases hf with rfl | rfl
      · exact .free (.literal ⟨.str, by simp, by simp [Lit.ty]⟩ (by simp))
      · exact .list tree_steady
  supported := by
    intro cd hcd f hf
    simp only [env2, List.mem_cons, List.not_mem_nil, or_false] at hcd
    rcases hcd with rfl | rfl
    · simp only [leaf2, List.mem_cons, List.not_mem_nil, or_false] at hf
      rcases hf with rfl | rfl | rfl <;> exact ⟨_, rfl⟩
    · simp only [pair2, List.mem_cons, List.not_mem_nil, or_false] at hf
      rcases hf with rfl | rfl | rfl <;> exact ⟨_, rfl⟩

/-- Trees of any depth that the earlier version reads, the later version reads. -/
example (j : Json) (hj : j.Wf) (v : Val) (hv : loads env1 false (.union [.cls 0, .cls 1]) j = .ok v) :
    ∃ v', loads env2 false (.union [.cls 0, .cls 1]) j = .ok v' ∧ Grown (Initial env2) v v' :=
  C64_new_reads_old_partial env1 env2 tree_versions _ tree_steady j hj v hv

/-- Trees of any depth that the later version reads, the earlier version reads. -/
example (j : Json) (hj : j.Wf) (v : Val) (hv : loads env2 false (.union [.cls 0, .cls 1]) j = .ok v) :
    ∃ v', loads env1 true (.union [.cls 0, .cls 1]) j = .ok v' ∧ Grown (fun _ _ _ => True) v' v :=
  C64_old_reads_new_partial env1 env2 tree_versions _ tree_steady j hj false v hv

/-- `{"kind": "pair", "parts": [{"kind": "leaf"}, {"kind": "leaf", "size": 5}]}` -/
private def oldTree : Json :=
  .obj [(c!"kind", .str c!"pair"), (c!"parts", .arr [.obj [(c!"kind", .str c!"leaf")],
    .obj [(c!"kind", .str c!"leaf"), (c!"size", .int 5)]])]

example : loads env1 false (.union [.cls 0, .cls 1]) oldTree = .ok (.obj 1 [(c!"kind", .str c!"pair"), (c!"parts", .list [
    .obj 0 [(c!"kind", .str c!"leaf"), (c!"size", .int 3)], .obj 0 [(c!"kind", .str c!"leaf"), (c!"size", .int 5)]])]) := rfl
example : loads env2 false (.union [.cls 0, .cls 1]) oldTree = .ok (.obj 1 [(c!"kind", .str c!"pair"), (c!"top", .none),
    (c!"parts", .list [.obj 0 [(c!"kind", .str c!"leaf"), (c!"size", .int 3), (c!"colour", .str c!"green")],
      .obj 0 [(c!"kind", .str c!"leaf"), (c!"size", .int 5), (c!"colour", .str c!"green")]])]) := rfl

/-- Classes that round-trip: what one version writes, the other reads, for trees of any depth. -/
private def treeG (c : Nat) : Prop := c = 0 ∨ c = 1

private theorem no_none_lit {env : Env} {s : Str} : ¬ HasTy env .none (.literal [.str s]) := by
  intro h
  cases h with
  | literal hl he =>
    rcases List.mem_singleton.1 hl with rfl
    cases he

private theorem tree_invertible : Invertible env1 treeG (.union [.cls 0, .cls 1]) := by
  have hs := tree_steady
  refine .tagged ⟨_, tree_tag⟩ ?_ ?_ ?_ ?_ ?_
  · exact ((C23_ambiguous_iff env1 env1_ok _ ⟨_, tree_tag⟩).2).1 ⟨_, rfl⟩
  · intro t ht
    simp only [List.mem_cons, List.not_mem_nil, or_false] at ht
    rcases ht with rfl | rfl
    · exact .cls (.inl rfl)
    · exact .cls (.inr rfl)
  · intro c cd _ hc
    match c with
    | 0 => cases hc; rfl
    | 1 => cases hc; rfl
    | _ + 2 => cases hc
  · intro p c cd f hp _ hc hf hn
    have hp' : p ∈ [c!"kind"] := mem_discProps.2 hp
    rw [List.mem_singleton] at hp'
    subst hp'
    match c with
    | 0 => cases hc; simp only [ClassDef.hints, leaf1, List.mem_cons, List.not_mem_nil, or_false] at hf; rcases hf with rfl | rfl <;> first | rfl | exact absurd hn (by decide)
    | 1 => cases hc; simp only [ClassDef.hints, pair1, List.mem_cons, List.not_mem_nil, or_false] at hf; rcases hf with rfl | rfl <;> first | rfl | exact absurd hn (by decide)
    | _ + 2 => cases hc
  · rintro p t l hp ht ⟨c, cd, f, ls, rfl, hc, hf, hn, _, hl, hm⟩
    have hp' : p ∈ [c!"kind"] := mem_discProps.2 hp
    rw [List.mem_singleton] at hp'
    subst hp'
    match c with
    | 0 =>
      cases hc
      simp only [ClassDef.hints, leaf1, List.mem_cons, List.not_mem_nil, or_false] at hf
      rcases hf with rfl | rfl <;> first | (cases hl; rcases List.mem_singleton.1 hm with rfl; simp) | exact absurd hn (by decide)
    | 1 =>
      cases hc
      simp only [ClassDef.hints, pair1, List.mem_cons, List.not_mem_nil, or_false] at hf
      rcases hf with rfl | rfl <;> first | (cases hl; rcases List.mem_singleton.1 hm with rfl; simp) | exact absurd hn (by decide)
    | _ + 2 => cases hc

private theorem tree_classes : ∀ c, treeG c → ClassInvertible env1 treeG c := by
  rintro c (rfl | rfl)
  · refine .standard leaf1 rfl rfl rfl (by simp [leaf1]) (by simp [leaf1]) rfl (by decide) ?_ ?_ ?_
    · intro f hf
      simp only [leaf1, List.mem_cons, List.not_mem_nil, or_false] at hf
      rcases hf with rfl | rfl <;> rfl
    · intro f hf
      simp only [leaf1, List.mem_cons, List.not_mem_nil, or_false] at hf
      rcases hf with rfl | rfl
      · exact .literal ⟨.str, by simp, by simp [Lit.ty]⟩ (by simp)
      · exact .scalar (by simp [scalarTys, fieldTy, leaf1, Ty.required, Ty.isOptional, Ty.unwrapAnn, Ty.unionArgs])
    · intro f hf hno
      simp only [leaf1, List.mem_cons, List.not_mem_nil, or_false] at hf
      rcases hf with rfl | rfl
      · exact absurd hno no_none_lit
      · cases hno
  · refine .standard pair1 rfl rfl rfl (by simp [pair1]) (by simp [pair1]) rfl (by decide) ?_ ?_ ?_
    · intro f hf
      simp only [pair1, List.mem_cons, List.not_mem_nil, or_false] at hf
      rcases hf with rfl | rfl <;> rfl
    · intro f hf
      simp only [pair1, List.mem_cons, List.not_mem_nil, or_false] at hf
      rcases hf with rfl | rfl
      · exact .literal ⟨.str, by simp, by simp [Lit.ty]⟩ (by simp)
      · exact .list tree_invertible
    · intro f hf hno
      simp only [pair1, List.mem_cons, List.not_mem_nil, or_false] at hf
      rcases hf with rfl | rfl
      · exact absurd hno no_none_lit
      · cases hno

example (v : Val) (hv : HasTy env1 v (.union [.cls 0, .cls 1])) (he : Encodable v) :
    ∃ j v', dumps env1 (.union [.cls 0, .cls 1]) v = .ok j ∧ loads env2 false (.union [.cls 0, .cls 1]) j = .ok v' ∧
      Grown (Initial env2) v v' :=
  C64_stored_partial env1 env2 tree_versions ⟨by simp [env1, leaf1, pair1], by simp [env1]⟩ treeG tree_classes _ tree_steady
    tree_invertible rfl v hv he

private theorem leaf2_invertible : ∀ c, c = 0 → ClassInvertible env2 (· = 0) c := by
  rintro c rfl
  refine .standard leaf2 rfl rfl rfl (by simp [leaf2]) (by simp [leaf2]) rfl (by decide) ?_ ?_ ?_
  · intro f hf
    simp only [leaf2, List.mem_cons, List.not_mem_nil, or_false] at hf
    rcases hf with rfl | rfl | rfl <;> rfl
  · intro f hf
    simp only [leaf2, List.mem_cons, List.not_mem_nil, or_false] at hf
    rcases hf with rfl | rfl | rfl
    · exact .literal ⟨.str, by simp, by simp [Lit.ty]⟩ (by simp)
    · exact .scalar (by simp [scalarTys, fieldTy, leaf2, Ty.required, Ty.isOptional, Ty.unwrapAnn, Ty.unionArgs])
    · exact .scalar (by simp [scalarTys, fieldTy, leaf2, Ty.required, Ty.isOptional, Ty.unwrapAnn, Ty.unionArgs])
  · intro f hf hno
    simp only [leaf2, List.mem_cons, List.not_mem_nil, or_false] at hf
    rcases hf with rfl | rfl | rfl
    · exact absurd hno no_none_lit
    · cases hno
    · cases hno

example (v' : Val) (hv : HasTy env2 v' (.list (.cls 0))) (he : Encodable v') :
    ∃ j v, dumps env2 (.list (.cls 0)) v' = .ok j ∧ loads env1 true (.list (.cls 0)) j = .ok v ∧
      Grown (fun _ _ _ => True) v v' :=
  C64_sent_partial env1 env2 tree_versions ⟨by simp [env2, leaf2, pair2], by simp [env2]⟩ (· = 0) leaf2_invertible _
    (.list (.cls (cd := leaf1) rfl)) (.list (.cls rfl)) rfl v' hv he

/-! ### What is not compatible -/

private def single (fs : List FieldDef) : ClassDef := { module := c!"m", name := c!"A", kind := .dataclass false, fields := fs }
private def double (fs : List FieldDef) : ClassDef := { module := c!"m", name := c!"B", kind := .dataclass false, fields := fs }
private def xInt : FieldDef := { name := c!"x", ty := .int }
private def yInt : FieldDef := { name := c!"y", ty := .int }
private def yOpt : FieldDef := { name := c!"y", ty := .union [.int, .none] }
private def kindA : FieldDef := { name := c!"kind", ty := .literal [.str c!"a"], dflt := .value (.str c!"a") }
private def kindB : FieldDef := { name := c!"kind", ty := .literal [.str c!"b"], dflt := .value (.str c!"b") }

/-- In a union without tag, data of one class is read as another once that other class has an optional field of the same name:
`Union[A, B]` with `A(x)`, `B(x, y)` and `{"x": 1, "y": 2}` when `A` gains `y: Optional[int]`. -/
theorem C64_union_fails : ∃ env env' : Env, env.classes.length = 2 ∧ Versions env env' ∧ ∃ j,
    loads env false (.union [.cls 0, .cls 1]) j = .ok (.obj 1 [(c!"x", .int 1), (c!"y", .int 2)]) ∧
    loads env' false (.union [.cls 0, .cls 1]) j = .ok (.obj 0 [(c!"x", .int 1), (c!"y", .int 2)]) := by
  refine ⟨⟨[], [single [xInt], double [xInt, yInt]], id⟩, ⟨[], [single [xInt, yOpt], double [xInt, yInt]], id⟩, rfl, ?_,
    .obj [(c!"x", .int 1), (c!"y", .int 2)], rfl, rfl⟩
  refine ⟨⟨rfl, .cons ?_ (.cons ?_ .nil)⟩, ?_, ?_, ?_, ?_⟩
  · refine ⟨rfl, rfl, rfl, by simp [single], rfl, rfl, by simp [single], ?_, ?_⟩
    · simp [single, xInt, absentValue, Ty.isOptional, Ty.unwrapAnn, Ty.unionArgs]
    · intro f hf
      simp only [single, List.mem_cons, List.not_mem_nil, or_false] at hf
      rcases hf with rfl | rfl
      · exact .inl (by simp [single])
      · exact .inr ⟨by simp [IsRequired, absentValue, single, yOpt, Ty.isOptional, Ty.unwrapAnn, Ty.unionArgs, Ty.isNone], rfl, by
          simp only [single, List.mem_cons, List.not_mem_nil, or_false, forall_eq]
          decide +kernel⟩
  · refine ⟨rfl, rfl, rfl, by simp [double], rfl, rfl, fun _ h => h, ?_, fun _ h => .inl h⟩
    simp [double, xInt, yInt, absentValue, Ty.isOptional, Ty.unwrapAnn, Ty.unionArgs]
  · exact ⟨by decide +kernel, by simp, by simp [single, double, xInt, yInt], fun _ => .refl _⟩
  · exact ⟨by decide +kernel, by simp, by simp [single, double, xInt, yInt, yOpt], fun _ => .refl _⟩
  · simp only [List.mem_cons, List.not_mem_nil, or_false, forall_eq_or_imp, forall_eq, single, double]
    exact ⟨.free (.leaf (by simp [fieldTy, xInt, Ty.required, Ty.isOptional, Ty.unwrapAnn, Ty.unionArgs])),
      .free (.leaf (by simp [fieldTy, xInt, Ty.required, Ty.isOptional, Ty.unwrapAnn, Ty.unionArgs])),
      .free (.leaf (by simp [fieldTy, yInt, Ty.required, Ty.isOptional, Ty.unwrapAnn, Ty.unionArgs]))⟩
  · simp only [List.mem_cons, List.not_mem_nil, or_false, forall_eq_or_imp, forall_eq, single, double]
    exact ⟨⟨⟨_, rfl⟩, ⟨_, rfl⟩⟩, ⟨_, rfl⟩, ⟨_, rfl⟩⟩

/-- Once all members of a union gain a field of a literal type, the union is told apart by it: data without it is refused,
although each field has a default. -/
theorem C64_literal_fails : ∃ env env' : Env, env = ⟨[], [single [xInt], double [yInt]], id⟩ ∧
    env' = ⟨[], [single [xInt, kindA], double [yInt, kindB]], id⟩ ∧ ∃ j v, loads env false (.union [.cls 0, .cls 1]) j = .ok v ∧
      (∃ v', loads env' false (.cls 0) j = .ok v') ∧ loads env' false (.union [.cls 0, .cls 1]) j = .error .jsonType :=
  ⟨_, _, rfl, rfl, .obj [(c!"x", .int 1)], _, rfl, ⟨_, rfl⟩, rfl⟩

/-- Data with a property that the earlier version skips is refused by the later version if it is not of the type of the new
field. -/
theorem C64_skipped_fails : ∃ env env' : Env, env = ⟨[], [single [xInt]], id⟩ ∧ env' = ⟨[], [single [xInt, yOpt]], id⟩ ∧
    ∃ j v, loads env true (.cls 0) j = .ok v ∧ loads env' true (.cls 0) j = .error .jsonType :=
  ⟨_, _, rfl, rfl, .obj [(c!"x", .int 1), (c!"y", .str c!"2")], _, rfl, rfl⟩

/-- A named tuple that gains a field refuses old data, even if the field is optional and has a default. -/
theorem C64_named_tuple_fails : ∃ env env' : Env,
    env = ⟨[], [{ module := c!"m", name := c!"T", kind := .namedTuple true, fields := [xInt] }], id⟩ ∧
    env' = ⟨[], [{ module := c!"m", name := c!"T", kind := .namedTuple true, fields :=
      [xInt, { name := c!"y", ty := .union [.int, .none], dflt := .value .none }] }], id⟩ ∧
    ∃ j v, loads env false (.cls 0) j = .ok v ∧ loads env' false (.cls 0) j = .error .jsonKey :=
  ⟨_, _, rfl, rfl, .obj [(c!"x", .int 1)], _, rfl, rfl⟩

end Verif
