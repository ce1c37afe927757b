import Verif.Lemmas.Inherit
import Verif.Props.C11_RoundTrip
/-!
# C72: members of derived classes
-/
namespace Verif

/-- C72: the type hints of a class are those of all classes in its method resolution order, each name once, in the order in which base
classes introduce them, with the type given by the nearest class. -/
theorem C72_hints (ss : List ClassStmt) (hd : ∀ s ∈ ss, s.Distinct) (w : List PyClass) (hw : classStmts [] ss = .ok w) (mro : List Nat) :
    (typeHints w mro).map Prod.fst = firsts (mro.reverse.flatMap (bodyNames w)) ∧
      ∀ n f, lookupKey n (typeHints w mro) = some f ↔ Nearest w mro n f :=
  ⟨typeHints_keys mro, typeHints_lookup (worldOk_stmts ss worldOk_nil hd hw).own mro⟩

/-- C72: there is a type hint for each field of a data class, so reading a class never fails for lack of one; readers, writers and
schemas use the same names. -/
theorem C72_same_names (ss : List ClassStmt) (hd : ∀ s ∈ ss, s.Distinct) (w : List PyClass) (hw : classStmts [] ss = .ok w) (c : PyClass)
    (hc : c ∈ w) : ∃ l, readTypes w c = .ok l ∧ l.map Prod.fst = (memberTypes w c).map Prod.fst := by
  have hok := worldOk_stmts ss worldOk_nil hd hw
  obtain ⟨i, hi⟩ := List.getElem?_of_mem hc
  unfold readTypes memberTypes
  cases hf : fieldsAttr w c.mro with
  | none => exact ⟨_, rfl, rfl⟩
  | some fs =>
    simp only
    obtain ⟨b, h1, d, h2, -, rfl⟩ := fieldsAttr_some hf
    have key : ∀ fs, (∀ p ∈ fs, p ∈ d.fields) → ∃ l, mapRes (fun (f : Str × FieldDef) => match lookupKey f.1 (typeHints w c.mro) with
        | some h => (.ok (f.1, h.ty) : Res (Str × Ty))
        | none => .error .key) fs = .ok l ∧ l.map Prod.fst = (fs.map fun f => (f.1, f.2.ty)).map Prod.fst := by
      intro fs
      induction fs with
      | nil => intro _; exact ⟨[], rfl, rfl⟩
      | cons p fs ih =>
        intro hfs
        obtain ⟨l, hl1, hl2⟩ := ih fun p hp => hfs p (by simp [hp])
        obtain ⟨b', h3, f, ⟨c', h5, h6⟩, h4, -⟩ := hok.fields b d h2 p (hfs p (by simp))
        have hm : p.1 ∈ (typeHints w c.mro).map Prod.fst := by
          rw [typeHints_keys, mem_firsts, List.mem_flatMap]
          obtain ⟨-, d', h7, h8⟩ := hok.known i c hi b h1
          rw [h2] at h7; cases h7
          refine ⟨b', List.mem_reverse.2 (h8 b' h3), ?_⟩
          simp only [bodyNames, h5, ← h4]
          exact List.mem_map.2 ⟨f, h6, rfl⟩
        rw [mem_keys_iff] at hm
        obtain ⟨h, hh⟩ := Option.isSome_iff_exists.1 hm
        refine ⟨(p.1, h.ty) :: l, ?_, by simp [hl2]⟩
        simp only [mapRes, hh, hl1]
    exact key d.fields fun p hp => hp

private theorem mapRes_ok {α β : Type} {g : α → Res β} {k : α → β} : ∀ {l : List α}, (∀ x ∈ l, g x = .ok (k x)) → mapRes g l = .ok (l.map k) := by
  intro l
  induction l with
  | nil => intro _; rfl
  | cons x l ih => intro h; simp only [mapRes, h x (by simp), ih fun x hx => h x (by simp [hx]), List.map_cons]

/-- C72: readers, writers and schemas use the same types, if no name is annotated in two classes of the method resolution order.  Missing:
names annotated again, see `C72_single_partial` and the counterexamples below. -/
theorem C72_once_partial (ss : List ClassStmt) (hd : ∀ s ∈ ss, s.Distinct) (w : List PyClass) (hw : classStmts [] ss = .ok w) (c : PyClass)
    (hc : c ∈ w) (honce : ∀ b ∈ c.mro, ∀ b' ∈ c.mro, ∀ f f', HasAnnotation w b f → HasAnnotation w b' f' → f.name = f'.name → b = b') :
    readTypes w c = .ok (memberTypes w c) := by
  have hok := worldOk_stmts ss worldOk_nil hd hw
  obtain ⟨i, hi⟩ := List.getElem?_of_mem hc
  obtain ⟨l, hl, -⟩ := C72_same_names ss hd w hw c hc
  unfold readTypes at hl
  unfold readTypes memberTypes
  cases hf : fieldsAttr w c.mro with
  | none => rfl
  | some fs =>
    rw [hf] at hl
    simp only at hl ⊢
    refine mapRes_ok fun p hp => ?_
    obtain ⟨q, -, hq⟩ := ((mapRes_ok_iff _ _ _).1 hl).mem_left hp
    cases hh : lookupKey p.1 (typeHints w c.mro) with
    | none => rw [hh] at hq; cases hq
    | some h =>
      simp only
      obtain ⟨pre, b2, post, hm, ha, hname, -⟩ := (typeHints_lookup hok.own c.mro p.1 h).1 hh
      obtain ⟨b, h1, d, h2, -, rfl⟩ := fieldsAttr_some hf
      obtain ⟨b', h3, f, hfa, h4, h5⟩ := hok.fields b d h2 p hp
      obtain ⟨-, d', h7, h8⟩ := hok.known i c hi b h1
      rw [h2] at h7; cases h7
      have hb : b2 = b' := honce b2 (by rw [hm]; simp) b' (h8 b' h3) h f ha hfa (hname.trans h4.symm)
      subst hb
      obtain ⟨c1, g1, g2⟩ := ha
      obtain ⟨c2, g3, g4⟩ := hfa
      rw [g1] at g3; cases g3
      have hnd := hok.own c1 (List.mem_of_getElem? g1)
      have : some h = some f := ((lookup_named hnd).2 ⟨g2, hname⟩).symm.trans ((lookup_named hnd).2 ⟨g4, h4⟩)
      cases this
      rw [h5]

/-- C72: the same for programs with single inheritance in which classes with annotations are data classes, where a derived class may
annotate a name again.  Missing: several base classes, and annotations in classes without the decorator. -/
theorem C72_single_partial (ss : List ClassStmt) (hd : ∀ s ∈ ss, s.Distinct ∧ s.Simple) (w : List PyClass) (hw : classStmts [] ss = .ok w)
    (c : PyClass) (hc : c ∈ w) :
    readTypes w c = .ok (memberTypes w c) ∧ memberTypes w c = (typeHints w c.mro).map fun f => (f.1, f.2.ty) := by
  have hok := worldOk_stmts ss worldOk_nil (fun s hs => (hd s hs).1) hw
  have hl := singleOk_stmts ss worldOk_nil singleOk_nil hd hw
  obtain ⟨i, hi⟩ := List.getElem?_of_mem hc
  unfold readTypes memberTypes
  cases hf : fieldsAttr w c.mro with
  | none => exact ⟨rfl, rfl⟩
  | some fs =>
    have ht := hl.fields i c hi fs hf
    simp only
    refine ⟨mapRes_ok fun p hp => ?_, ht⟩
    have hm : (p.1, p.2.ty) ∈ withTypes (typeHints w c.mro) := ht ▸ List.mem_map.2 ⟨p, hp, rfl⟩
    obtain ⟨q, hq, he⟩ := List.mem_map.1 hm
    obtain ⟨n, h⟩ := q
    simp only [Prod.mk.injEq] at he
    obtain ⟨rfl, he⟩ := he
    rw [lookupKey_of_mem (typeHints_nodup c.mro) hq]
    simp only [he]

/-- C72: a class with the decorator has all members of the data classes it is derived from, so each of its objects can be written as any
of these (`C72_slice`). -/
theorem C72_covers (ss : List ClassStmt) (hd : ∀ s ∈ ss, s.Distinct) (w : List PyClass) (hw : classStmts [] ss = .ok w) (i : Nat) (c : PyClass)
    (hi : w[i]? = some c) (hdec : c.frozen ≠ none) (b : Nat) (hb : b ∈ c.mro) (d : PyClass) (hbd : w[b]? = some d)
    (hdc : (fieldsAttr w d.mro).isSome) : ∀ p ∈ memberTypes w d, ∃ q ∈ memberTypes w c, q.1 = p.1 := by
  have hok := worldOk_stmts ss worldOk_nil hd hw
  have hl := covers_stmts ss worldOk_nil (by intro i c h; simp at h) hd hw
  intro p hp
  obtain ⟨fs, hfs⟩ := Option.isSome_iff_exists.1 hdc
  have hc : fieldsAttr w c.mro = some c.fields := by
    obtain ⟨r, hr⟩ := hok.self i c hi
    obtain ⟨fr, hfr⟩ := Option.ne_none_iff_exists'.1 hdec
    rw [hr]
    simp only [fieldsAttr, findAttr, hi, hfr, Option.map_some]
  simp only [memberTypes, hfs] at hp
  simp only [memberTypes, hc]
  obtain ⟨f, hf, rfl⟩ := List.mem_map.1 hp
  obtain ⟨q, hq, he⟩ := List.mem_map.1 (hl i c hi hdec b hb d hbd fs hfs f.1 (List.mem_map.2 ⟨f, hf, rfl⟩))
  exact ⟨_, List.mem_map.2 ⟨q, hq, rfl⟩, he⟩

/-! ### Objects of derived classes, written as the base class -/

private theorem genProps_congr {kind : ClassKind} {fs fs' : List (Str × Val × (Ty → Res Json))} : ∀ (fds : List FieldDef) (acc : List (Str × Json)),
    (∀ f ∈ fds, lookupKey f.name fs' = lookupKey f.name fs) → genProps kind fs' acc fds = genProps kind fs acc fds := by
  intro fds
  induction fds with
  | nil => intro acc _; rfl
  | cons fd fds ih =>
    intro acc h
    have ih := fun acc => ih acc fun f hf => h f (by simp [hf])
    simp only [genProps, h fd (by simp), ih]

private theorem genUntypedTuple_congr {fs fs' : List (Str × Val × (Ty → Res Json))} : ∀ (fds : List FieldDef) (acc : List (Str × Json)),
    (∀ f ∈ fds, lookupKey f.name fs' = lookupKey f.name fs) → genUntypedTuple fs' acc fds = genUntypedTuple fs acc fds := by
  intro fds
  induction fds with
  | nil => intro acc _; rfl
  | cons fd fds ih =>
    intro acc h
    have ih := fun acc => ih acc fun f hf => h f (by simp [hf])
    simp only [genUntypedTuple, h fd (by simp), ih]

/-- C72: an object of a derived class is written, where the base class is declared, as the object of the base class with the same
attributes: other attributes do not matter. -/
theorem C72_slice (env : Env) (b : Nat) (cd : ClassDef) (hc : env.classes[b]? = some cd) (hj : cd.toJson = none) (hne : cd.fields ≠ [])
    (c : Nat) (fs fs' : List (Str × Val)) (h : ∀ f ∈ cd.fields, lookupKey f.name fs' = lookupKey f.name fs) :
    dumps env (.cls b) (.obj c fs') = dumps env (.cls b) (.obj b fs) := by
  have hk : ∀ f ∈ cd.fields, lookupKey f.name (genObj env fs') = lookupKey f.name (genObj env fs) := by
    intro f hf
    rw [genObj_eq, genObj_eq, lookupKey_map (fun v => (v, gen env v)) f.name fs', lookupKey_map (fun v => (v, gen env v)) f.name fs, h f hf]
  unfold dumps
  rw [gen_eq, gen_eq]
  simp only [genD, genShape, vkids, genCls, hc, hj]
  rw [genProps_congr cd.fields [] hk, genUntypedTuple_congr cd.fields [] hk]
  simp only [List.isEmpty_iff, if_neg hne]

/-- C72: and what is read back is an object of the base class, for the types and values of C11.  Missing: the other types. -/
theorem C72_reads_base_partial (env : Env) (hk : env.Ok) (G : Nat → Prop) (hG : ∀ c, G c → ClassInvertible env G c) (b : Nat) (cd : ClassDef)
    (hc : env.classes[b]? = some cd) (hj : cd.toJson = none) (hne : cd.fields ≠ []) (hi : Invertible env G (.cls b))
    (hs : serCreate env (.cls b) = .ok ()) (c : Nat) (fs fs' : List (Str × Val)) (hv : HasTy env (.obj b fs) (.cls b)) (he : Encodable (.obj b fs))
    (h : ∀ f ∈ cd.fields, lookupKey f.name fs' = lookupKey f.name fs) (skip : Bool) :
    ∃ j, dumps env (.cls b) (.obj c fs') = .ok j ∧ loads env skip (.cls b) j = .ok (.obj b fs) := by
  rw [C72_slice env b cd hc hj hne c fs fs' h]
  exact C11_roundtrip_static_partial env hk G hG (.cls b) hi hs _ hv he skip

/-! ### What the code does otherwise -/

private def fld (n : Str) (t : Ty) (d : Dflt := .missing) : FieldDef := { name := n, ty := t, dflt := d }

/-- `class A: x: int = 0`, `class B(A): x: str = ""`, `class C(A): y: int = 1`, `class D(C, B): pass`, all data classes. -/
private def diamond : List ClassStmt :=
  [⟨[], some false, [fld c!"x" .int (.value (.int 0))]⟩, ⟨[0], some false, [fld c!"x" .str (.value (.str []))]⟩,
   ⟨[0], some false, [fld c!"y" .int (.value (.int 1))]⟩, ⟨[2, 1], some false, []⟩]

/-- With several base classes, a field may be written with one type and read with another: the data class `D` takes `x` from `A` (by way
of `C`), type hints take it from `B`. -/
theorem C72_diamond_fails : ∃ (ss : List ClassStmt) (w : List PyClass) (c : PyClass), (∀ s ∈ ss, s.Distinct ∧ s.decorated ≠ none) ∧
    classStmts [] ss = .ok w ∧ c ∈ w ∧ memberTypes w c = [(c!"x", .int), (c!"y", .int)] ∧
    readTypes w c = .ok [(c!"x", .str), (c!"y", .int)] := by
  refine ⟨diamond, _, _, ?_, rfl, List.mem_of_getElem? (i := 3) rfl, rfl, rfl⟩
  intro s hs
  simp only [diamond, List.mem_cons, List.not_mem_nil, or_false] at hs
  rcases hs with rfl | rfl | rfl | rfl <;> exact ⟨by simp [ClassStmt.Distinct], by simp⟩

/-- The same if a class is derived from a data class without the decorator: `class B(A): x: str`.  Its new annotations are not written,
and not read. -/
theorem C72_undecorated_fails : ∃ (ss : List ClassStmt) (w : List PyClass) (c : PyClass), (∀ s ∈ ss, s.Distinct ∧ s.bases.length ≤ 1) ∧
    classStmts [] ss = .ok w ∧ c ∈ w ∧ (typeHints w c.mro).map Prod.fst = [c!"x", c!"y"] ∧ memberTypes w c = [(c!"x", .int)] ∧
    readTypes w c = .ok [(c!"x", .str)] := by
  refine ⟨[⟨[], some false, [fld c!"x" .int]⟩, ⟨[0], none, [fld c!"x" .str, fld c!"y" .int]⟩], _, _, ?_, rfl,
    List.mem_of_getElem? (i := 1) rfl, rfl, rfl, rfl⟩
  intro s hs
  simp only [List.mem_cons, List.not_mem_nil, or_false] at hs
  rcases hs with rfl | rfl <;> exact ⟨by simp [ClassStmt.Distinct, fld], by simp⟩

/-- Static and dynamic serialization differ for objects of derived classes (compare C14): as `list[Base]` the attribute `y` is lost. -/
theorem C72_list_loses : ∃ (env : Env) (v : Val), env.Ok ∧
    dumps env (.list (.cls 0)) v = .ok (.arr [.obj [(c!"x", .int 1)]]) ∧
    objectToJson env v = .ok (.arr [.obj [(c!"x", .int 1), (c!"y", .int 2)]]) :=
  ⟨⟨[], [{ module := c!"m", name := c!"A", kind := .dataclass false, fields := [fld c!"x" .int] },
      { module := c!"m", name := c!"B", kind := .dataclass false, fields := [fld c!"x" .int, fld c!"y" .int] }], id⟩,
    .list [.obj 1 [(c!"x", .int 1), (c!"y", .int 2)]],
    ⟨by simp [ClassDef.key], by simp, by simp [fld], fun _ => .refl _⟩, rfl, rfl⟩

/-! ### The hypotheses are met -/

/-- `class A: x: int; y: str`, `class B(A): z: bool; x: float`, `class C(B): pass` (not a data class by itself). -/
private def chain : List ClassStmt :=
  [⟨[], some true, [fld c!"x" .int, fld c!"y" .str]⟩, ⟨[0], some true, [fld c!"z" .bool, fld c!"x" .float]⟩, ⟨[1], none, []⟩]

example : (∀ s ∈ chain, s.Distinct ∧ s.Simple) ∧ ∃ w c, classStmts [] chain = .ok w ∧ c ∈ w ∧ c.mro = [2, 1, 0] ∧
    memberTypes w c = [(c!"x", .float), (c!"y", .str), (c!"z", .bool)] := by
  refine ⟨fun s hs => ?_, _, _, rfl, List.mem_of_getElem? (i := 2) rfl, rfl, rfl⟩
  simp only [chain, List.mem_cons, List.not_mem_nil, or_false] at hs
  rcases hs with rfl | rfl | rfl <;> exact ⟨by simp [ClassStmt.Distinct, fld], by simp [ClassStmt.Simple]⟩

/-- Two base classes without a common name, one of them without the decorator. -/
example : ∃ w c, classStmts [] [⟨[], some false, [fld c!"x" .int]⟩, ⟨[], none, [fld c!"y" .str]⟩, ⟨[0, 1], some false, [fld c!"z" .bool]⟩] = .ok w ∧
    c ∈ w ∧ c.mro = [2, 0, 1] ∧ memberTypes w c = [(c!"x", .int), (c!"z", .bool)] ∧
    (typeHints w c.mro).map Prod.fst = [c!"y", c!"x", c!"z"] :=
  ⟨_, _, rfl, List.mem_of_getElem? (i := 2) rfl, rfl, rfl, rfl⟩

private def pair : Env :=
  ⟨[], [{ module := c!"m", name := c!"A", kind := .dataclass false, fields := [fld c!"x" .int, fld c!"y" .str] },
      { module := c!"m", name := c!"B", kind := .dataclass false, fields := [fld c!"x" .int, fld c!"y" .str, fld c!"z" .bool] }], id⟩

/-- An object of class `B` that is derived from `A`, written as `A` and read back. -/
example (a : Int) (b : Str) (z : Bool) : ∃ j, dumps pair (.cls 0) (.obj 1 [(c!"x", .int a), (c!"y", .str b), (c!"z", .bool z)]) = .ok j ∧
    loads pair false (.cls 0) j = .ok (.obj 0 [(c!"x", .int a), (c!"y", .str b)]) := by
  have leaf : ∀ v : Val, v.isLeaf = true → (∀ d, v ≠ .datetime d) → (∀ d, v ≠ .timedelta d) →
      (∀ d, v ≠ .time d) → Encodable v :=
    fun v h1 h2 h3 h4 => .leaf h1 (fun d h => absurd h (h2 d)) (fun d h => absurd h (h3 d)) (fun d h => absurd h (h4 d))
  refine C72_reads_base_partial pair ⟨by simp [pair, ClassDef.key], by simp [pair], by simp [pair, fld], fun _ => .refl _⟩ (· = 0) ?_ 0 _ rfl rfl
    (by simp) (.cls rfl) rfl 1 [(c!"x", .int a), (c!"y", .str b)] _ ?_ ?_ ?_ false
  · rintro c rfl
    refine .standard _ rfl rfl rfl (by simp) (by simp) rfl (by decide) ?_ ?_ ?_
    · intro f hf
      simp only [List.mem_cons, List.not_mem_nil, or_false] at hf
      rcases hf with rfl | rfl <;> rfl
    · intro f hf
      simp only [List.mem_cons, List.not_mem_nil, or_false] at hf
      rcases hf with rfl | rfl
      · exact .scalar (t := .int) (by simp [scalarTys])
      · exact .scalar (t := .str) (by simp [scalarTys])
    · intro f hf hno
      simp only [List.mem_cons, List.not_mem_nil, or_false] at hf
      rcases hf with rfl | rfl <;> cases hno
  · refine .cls rfl rfl ?_
    intro i f w hf hw
    match i with
    | 0 => cases hf; cases hw; exact .int
    | 1 => cases hf; cases hw; exact .str
    | _ + 2 => cases hf
  · refine .obj ?_
    simp only [List.mem_cons, List.not_mem_nil, or_false, forall_eq_or_imp, forall_eq]
    exact ⟨leaf _ rfl (by simp) (by simp) (by simp), leaf _ rfl (by simp) (by simp) (by simp)⟩
  · intro f hf
    simp only [List.mem_cons, List.not_mem_nil, or_false] at hf
    rcases hf with rfl | rfl <;> rfl

/-- There is no consistent order for `class C(A, B)` if `B` is derived from `A`; a field without default must not follow one with a
default; a default is inherited if a name is annotated again without one. -/
example : classStmts [] [⟨[], none, []⟩, ⟨[0], none, []⟩, ⟨[0, 1], none, []⟩] = .error .typeError ∧
    classStmts [] [⟨[], some false, [fld c!"x" .int (.value (.int 0))]⟩, ⟨[0], some false, [fld c!"y" .str]⟩] = .error .typeError ∧
    (∃ w, classStmts [] [⟨[], some false, [fld c!"x" .int (.value (.int 0))]⟩, ⟨[0], some false, [fld c!"x" .str]⟩] = .ok w ∧
      ∃ c ∈ w, c.mro = [1, 0] ∧ c.fields = [(c!"x", fld c!"x" .str (.value (.int 0)))]) :=
  ⟨rfl, rfl, _, rfl, _, List.mem_of_getElem? (i := 1) rfl, rfl, rfl⟩

end Verif
