import Verif.Model.TypeHelpers
import Verif.Props.C44_Unwrap
/-!
# C63: tests of types and access to their parameters

"Of the form X" means: X, or X with annotations (`Ty.Parts`, Spec/Inspection.lean).
-/
namespace Verif

variable {env : Env}

/-- The type is of the form `core`. -/
def Ty.OfForm (t core : Ty) : Prop := ∃ ms, Ty.Parts t core ms

theorem Ty.ofForm_iff {t core : Ty} : t.OfForm core ↔ t.unwrapAnn = core := by
  constructor
  · rintro ⟨ms, h⟩; exact parts_core h
  · rintro rfl; exact parts_exists t

/-! ### Tests -/

/-- C63: each test decides the form of the type.  Named tuples are missing, see below. -/
theorem C63_tests (t : Ty) :
    (isDataclassType env t = true ↔ ∃ c cd fr, t.OfForm (.cls c) ∧ env.classes[c]? = some cd ∧ cd.kind = .dataclass fr) ∧
    (isTypeEnum t = true ↔ ∃ e, t.OfForm (.enum e)) ∧
    (isTypeLiteral t = true ↔ ∃ ls, t.OfForm (.literal ls)) ∧
    (isGenericList t = true ↔ ∃ u, t.OfForm (.list u)) ∧
    (isGenericSet t = true ↔ ∃ u, t.OfForm (.set u)) ∧
    (isGenericDict t = true ↔ ∃ k u, t.OfForm (.dict k u)) := by
  simp only [Ty.ofForm_iff, isDataclassType, isTypeEnum, isTypeLiteral, isGenericList, isGenericSet, isGenericDict]
  generalize t.unwrapAnn = u
  refine ⟨?_, ?_, ?_, ?_, ?_, ?_⟩
  · cases u <;> try simp
    rename_i c
    cases hc : env.classes[c]? with
    | none => simp
    | some cd =>
      cases hk : cd.kind <;> simp [hk]
  all_goals cases u <;> simp

/-- C63: named tuples without annotations are recognised, and nothing else is. -/
theorem C63_named_tuple (t : Ty) :
    isNamedTupleType env t = true ↔ ∃ c cd typed, t = .cls c ∧ env.classes[c]? = some cd ∧ cd.kind = .namedTuple typed := by
  unfold isNamedTupleType
  cases t <;> try simp [Ty.isType, Ty.unwrapAnn]
  rename_i c
  cases hc : env.classes[c]? with
  | none => simp
  | some cd => cases hk : cd.kind <;> simp [hk]

/-- The tests. -/
def typeTests (env : Env) : List (Ty → Bool) :=
  [isDataclassType env, isNamedTupleType env, isTypeEnum, isTypeLiteral, isGenericList, isGenericSet, isGenericDict,
   fun t => isTypeOptional false t || isTypeUnion t]

/-- A number for each form. -/
private def formIndex : Ty → Nat
  | .cls _ => 0 | .enum _ => 1 | .literal _ => 2 | .list _ => 3 | .set _ => 4 | .dict _ _ => 5 | _ => 6

/-- C63: no two of the tests succeed for the same type, except that `Union[A, B, None]` is both optional and a union. -/
theorem C63_exclusive (t : Ty) : (typeTests env).Pairwise fun p q => ¬ (p t = true ∧ q t = true) := by
  have hu : ∀ t, (isTypeOptional false t || isTypeUnion t) = true → ∃ ts, t.unwrapAnn = .union ts := by
    intro t h
    unfold isTypeOptional isTypeUnion at h
    cases hh : t.unwrapAnn.unionArgs with
    | none => rw [hh] at h; simp at h
    | some ts => exact ⟨ts, (unionArgs_iff _ _).1 hh⟩
  have hn : isNamedTupleType env t = true → isDataclassType env t = false ∧ ∃ c, t.unwrapAnn = .cls c := by
    intro h
    obtain ⟨c, cd, typed, rfl, hc, hk⟩ := (C63_named_tuple t).1 h
    exact ⟨by simp [isDataclassType, Ty.unwrapAnn, hc, hk], c, rfl⟩
  have hd : isDataclassType env t = true → ∃ c, t.unwrapAnn = .cls c := by
    intro h
    obtain ⟨c, cd, fr, hf, -⟩ := (C63_tests t).1.1 h
    exact ⟨c, Ty.ofForm_iff.1 hf⟩
  have hu := hu t
  have he : isTypeEnum t = true → ∃ e, t.unwrapAnn = .enum e := fun h => by
    obtain ⟨e, h⟩ := (C63_tests (env := env) t).2.1.1 h; exact ⟨e, Ty.ofForm_iff.1 h⟩
  have hl : isTypeLiteral t = true → ∃ e, t.unwrapAnn = .literal e := fun h => by
    obtain ⟨e, h⟩ := (C63_tests (env := env) t).2.2.1.1 h; exact ⟨e, Ty.ofForm_iff.1 h⟩
  have hli : isGenericList t = true → ∃ e, t.unwrapAnn = .list e := fun h => by
    obtain ⟨e, h⟩ := (C63_tests (env := env) t).2.2.2.1.1 h; exact ⟨e, Ty.ofForm_iff.1 h⟩
  have hs : isGenericSet t = true → ∃ e, t.unwrapAnn = .set e := fun h => by
    obtain ⟨e, h⟩ := (C63_tests (env := env) t).2.2.2.2.1.1 h; exact ⟨e, Ty.ofForm_iff.1 h⟩
  have hdi : isGenericDict t = true → ∃ k e, t.unwrapAnn = .dict k e := fun h => by
    obtain ⟨k, e, h⟩ := (C63_tests (env := env) t).2.2.2.2.2.1 h; exact ⟨k, e, Ty.ofForm_iff.1 h⟩
  have key : ∃ n : Nat, (isDataclassType env t = true → n = 0) ∧ (isNamedTupleType env t = true → n = 0) ∧
      (isTypeEnum t = true → n = 1) ∧ (isTypeLiteral t = true → n = 2) ∧ (isGenericList t = true → n = 3) ∧
      (isGenericSet t = true → n = 4) ∧ (isGenericDict t = true → n = 5) ∧
      ((isTypeOptional false t || isTypeUnion t) = true → n = 6) := by
    refine ⟨formIndex t.unwrapAnn, ?_, ?_, ?_, ?_, ?_, ?_, ?_, ?_⟩ <;> intro h
    · obtain ⟨_, h⟩ := hd h; rw [h]; rfl
    · obtain ⟨_, _, h⟩ := hn h; rw [h]; rfl
    · obtain ⟨_, h⟩ := he h; rw [h]; rfl
    · obtain ⟨_, h⟩ := hl h; rw [h]; rfl
    · obtain ⟨_, h⟩ := hli h; rw [h]; rfl
    · obtain ⟨_, h⟩ := hs h; rw [h]; rfl
    · obtain ⟨_, _, h⟩ := hdi h; rw [h]; rfl
    · obtain ⟨_, h⟩ := hu h; rw [h]; rfl
  obtain ⟨n, k0, k0', k1, k2, k3, k4, k5, k6⟩ := key
  have hdn : ¬ (isDataclassType env t = true ∧ isNamedTupleType env t = true) := by
    rintro ⟨h1, h2⟩
    rw [(hn h2).1] at h1; cases h1
  clear hn hd hu he hl hli hs hdi
  simp only [typeTests, List.pairwise_cons, List.mem_cons, List.not_mem_nil, or_false, List.Pairwise.nil, and_true,
    forall_eq_or_imp, forall_eq, false_imp_iff, implies_true]
  refine ⟨⟨hdn, ?_⟩, ?_⟩
  all_goals clear hdn
  all_goals repeat' apply And.intro
  all_goals
    rintro ⟨h1, h2⟩
    simp only [h1, h2, forall_const] at k0 k0' k1 k2 k3 k4 k5 k6
    omega

/-! ### Parameters -/

/-- C63: for a list or set, the item type is returned, and the annotations of the list or set are kept after those of the item
type. -/
theorem C63_items (t u core : Ty) (ms ns : List Meta) (hu : Ty.Parts u core ns) :
    (Ty.Parts t (.list u) ms → ∃ r, unwrapGenericList t = .ok (.ty r) ∧ Ty.Parts r core (ns ++ ms)) ∧
    (Ty.Parts t (.set u) ms → ∃ r, unwrapGenericSet t = .ok (.ty r) ∧ Ty.Parts r core (ns ++ ms)) := by
  constructor <;> intro h <;> cases h with
  | annotated => exact ⟨_, rfl, parts_mkAnnotated hu ms⟩
  | plain => exact ⟨u, rfl, by rw [List.append_nil]; exact hu⟩

/-- C63: what is returned for a list is the type of the items of its values. -/
theorem C63_items_meaning (t r : Ty) (hl : isGenericList t = true) (h : unwrapGenericList t = .ok (.ty r)) (v : Val) :
    HasTy env v t ↔ ∃ vs, v = .list vs ∧ ∀ x ∈ vs, HasTy env x r := by
  obtain ⟨u, ms, hp⟩ := (C63_tests (env := env) t).2.2.2.1.1 hl
  obtain ⟨ns, hu⟩ := parts_exists u
  obtain ⟨r', h1, h2⟩ := (C63_items t u _ ms ns hu).1 hp
  rw [h] at h1; cases h1
  rw [hasTy_parts hp]
  constructor
  · intro h
    cases h with
    | list h => exact ⟨_, rfl, fun x hx => (hasTy_parts h2 env x).2 ((hasTy_parts hu env x).1 (h x hx))⟩
  · rintro ⟨vs, rfl, h⟩
    exact .list fun x hx => (hasTy_parts hu env x).2 ((hasTy_parts h2 env x).1 (h x hx))

/-- C63: likewise for sets. -/
theorem C63_members_meaning (t r : Ty) (hl : isGenericSet t = true) (h : unwrapGenericSet t = .ok (.ty r)) (v : Val)
    (hv : HasTy env v t) : ∃ vs, v = .set vs ∧ ∀ x ∈ vs, HasTy env x r := by
  obtain ⟨u, ms, hp⟩ := (C63_tests (env := env) t).2.2.2.2.1.1 hl
  obtain ⟨ns, hu⟩ := parts_exists u
  obtain ⟨r', h1, h2⟩ := (C63_items t u _ ms ns hu).2 hp
  rw [h] at h1; cases h1
  rw [hasTy_parts hp] at hv
  cases hv with
  | set h => exact ⟨_, rfl, fun x hx => (hasTy_parts h2 env x).2 ((hasTy_parts hu env x).1 (h x hx))⟩

/-- C63: for a dictionary, the types of keys and values are returned. -/
theorem C63_dict (t : Ty) (hd : isGenericDict t = true) :
    ∃ k u, unwrapGenericDict t = .ok (.key k, .ty u) ∧ ∀ v, HasTy env v t ↔
      ∃ kvs, v = .dict kvs ∧ (kvs.map Prod.fst).Nodup ∧ ∀ kv ∈ kvs, KeyHasTy env kv.1 k ∧ HasTy env kv.2 u := by
  obtain ⟨k, u, ms, hp⟩ := (C63_tests (env := env) t).2.2.2.2.2.1 hd
  refine ⟨k, u, by rw [unwrapGenericDict, parts_core hp]; rfl, fun v => ?_⟩
  rw [hasTy_parts hp]
  constructor
  · intro h
    cases h with
    | dict h1 h2 h3 => exact ⟨_, rfl, h1, fun kv hkv => ⟨h2 kv hkv, h3 kv hkv⟩⟩
  · rintro ⟨kvs, rfl, h1, h2⟩
    exact .dict h1 (fun kv h => (h2 kv h).1) fun kv h => (h2 kv h).2

/-- C63: for a literal type its values are returned, and these are exactly the values of the type; there is a single value if
and only if `unwrap_literal_value` returns it; the types are those of the values. -/
theorem C63_literal (t : Ty) (hl : isTypeLiteral t = true) :
    ∃ ls, unwrapLiteralValues t = ls.map .lit ∧ (∀ v, HasTy env v t ↔ ∃ l ∈ ls, v = l.toVal) ∧
      (∀ l, unwrapLiteralValue t = .ok (.lit l) ↔ ls = [l]) ∧ (ls.length ≠ 1 → unwrapLiteralValue t = .error .typeError) ∧
      ∃ ts, unwrapLiteralTypes t = .ok ts ∧ All2 (fun l u => ∀ env : Env, (∀ e m, l = .enum e m → ∃ ed, env.enums[e]? = some ed ∧
        m < ed.members.length) → HasTy env l.toVal u ∧ isInstance env u l.toVal = true) ls ts := by
  obtain ⟨ls, ms, hp⟩ := (C63_tests (env := env) t).2.2.1.1 hl
  have hv : unwrapLiteralValues t = ls.map .lit := by rw [unwrapLiteralValues, parts_core hp]; rfl
  refine ⟨ls, hv, fun v => ?_, ?_, ?_, ?_⟩
  · rw [hasTy_parts hp]
    exact ⟨fun h => by cases h with | literal h1 h2 => exact ⟨_, h1, h2⟩, fun ⟨_, h1, h2⟩ => .literal h1 h2⟩
  · intro l
    unfold unwrapLiteralValue
    rw [hv]
    match ls with
    | [] => simp
    | [a] => simp
    | a :: b :: r => simp
  · intro h
    unfold unwrapLiteralValue
    rw [hv]
    match ls, h with
    | [], _ => rfl
    | [a], h => exact absurd rfl h
    | a :: b :: r, _ => rfl
  · unfold unwrapLiteralTypes
    rw [hv]
    clear hv hp hl
    induction ls with
    | nil => exact ⟨[], rfl, .nil⟩
    | cons l ls ih =>
      obtain ⟨ts, h1, h2⟩ := ih
      have hc : ∃ u, argClass (.lit l) = .ok u ∧ ∀ env : Env, (∀ e m, l = .enum e m → ∃ ed, env.enums[e]? = some ed ∧
          m < ed.members.length) → HasTy env l.toVal u ∧ isInstance env u l.toVal = true := by
        cases l with
        | none => exact ⟨_, rfl, fun _ _ => ⟨.none, rfl⟩⟩
        | bool b => exact ⟨_, rfl, fun _ _ => ⟨.bool, rfl⟩⟩
        | int i => exact ⟨_, rfl, fun _ _ => ⟨.int, rfl⟩⟩
        | str s => exact ⟨_, rfl, fun _ _ => ⟨.str, rfl⟩⟩
        | enum e m =>
          refine ⟨_, rfl, fun env h => ?_⟩
          obtain ⟨ed, h3, h4⟩ := h e m rfl
          exact ⟨.enum h3 h4, by simp [isInstance, Lit.toVal, Lit.ty]⟩
      obtain ⟨u, h3, h4⟩ := hc
      refine ⟨u :: ts, ?_, .cons h4 h2⟩
      rw [List.map_cons, List.mapM_cons, h3, h1]
      rfl

/-! ### Fields -/

private theorem findProperty_iff {ps : List PropType} (hn : (ps.map (·.name)).Nodup) {name : Str} :
    (∀ p, findProperty name ps = some p ↔ p ∈ ps ∧ p.name = name) ∧
    (findProperty name ps = none ↔ name ∉ ps.map (·.name)) := by
  induction ps with
  | nil => simp [findProperty]
  | cons q ps ih =>
    rw [List.map_cons, List.nodup_cons] at hn
    obtain ⟨ih1, ih2⟩ := ih hn.2
    rw [findProperty]
    by_cases h : name = q.name
    · rw [if_pos h]
      refine ⟨fun p => ⟨fun hp => by cases hp; exact ⟨by simp, h.symm⟩, ?_⟩, by simp [h]⟩
      rintro ⟨hp, hpn⟩
      rcases List.mem_cons.1 hp with rfl | hp
      · rfl
      · exact absurd (List.mem_map.2 ⟨p, hp, hpn.trans h⟩) hn.1
    · rw [if_neg h]
      refine ⟨fun p => (ih1 p).trans ⟨fun ⟨h1, h2⟩ => ⟨by simp [h1], h2⟩, fun ⟨h1, h2⟩ => ⟨?_, h2⟩⟩, ih2.trans ?_⟩
      · rcases List.mem_cons.1 h1 with rfl | h1
        · exact absurd h2.symm h
        · exact h1
      · rw [List.map_cons, List.mem_cons, not_or]
        exact ⟨fun h' => ⟨h, h'⟩, fun h' => h'.2⟩

/-- C63: a property is found by its name, and only if the class has an annotation for it.  For a data class the annotation is
returned as it is written, as text or with names of classes as text inside; for other classes it is evaluated. -/
theorem C63_property (cd : ClassDef) (hn : (cd.fields.map (·.name)).Nodup) (name : Str) :
    (∀ p, getClassProperty cd name = some p ↔ ∃ f ∈ cd.hints, f.name = name ∧ p.name = name ∧ p.ty = f.ty ∧
      ((∃ fr, cd.kind = .dataclass fr) → p.text = f.strAnn ∧ p.fwd = f.fwd) ∧
      ((∀ fr, cd.kind ≠ .dataclass fr) → p.text = false ∧ p.fwd = false)) ∧
    (getClassProperty cd name = none ↔ ∀ f ∈ cd.hints, f.name ≠ name) := by
  have hh : (cd.hints.map (·.name)).Nodup := by
    unfold ClassDef.hints
    split
    · exact List.nodup_nil
    · exact hn
  unfold getClassProperty
  by_cases hk : ∃ fr, cd.kind = .dataclass fr
  · have hk' := hk
    obtain ⟨fr, hk⟩ := hk
    have he : classProperties cd = cd.hints.map fun f => ⟨f.name, f.ty, f.strAnn, f.fwd⟩ := by
      unfold classProperties ClassDef.hints; rw [hk]
    rw [he]
    obtain ⟨h1, h2⟩ := findProperty_iff (ps := cd.hints.map fun f => ⟨f.name, f.ty, f.strAnn, f.fwd⟩)
      (by rw [List.map_map]; exact hh) (name := name)
    refine ⟨fun p => (h1 p).trans ?_, h2.trans ?_⟩
    · constructor
      · rintro ⟨hm, rfl⟩
        obtain ⟨f, hf, rfl⟩ := List.mem_map.1 hm
        exact ⟨f, hf, rfl, rfl, rfl, fun _ => ⟨rfl, rfl⟩, fun h => absurd hk (h fr)⟩
      · rintro ⟨f, hf, hfn, hpn, ht, h, -⟩
        obtain ⟨h3, h4⟩ := h hk'
        refine ⟨List.mem_map.2 ⟨f, hf, ?_⟩, hpn⟩
        rw [hfn, ← hpn, ← ht, ← h3, ← h4]
    · simp
  · have hk' : ∀ fr, cd.kind ≠ .dataclass fr := fun fr h => hk ⟨fr, h⟩
    have he : classProperties cd = cd.hints.map fun f => ⟨f.name, f.ty, false, false⟩ := by
      unfold classProperties; split
      · rename_i h; exact absurd h (hk' _)
      · rfl
    rw [he]
    obtain ⟨h1, h2⟩ := findProperty_iff (ps := cd.hints.map fun f => ⟨f.name, f.ty, false, false⟩)
      (by rw [List.map_map]; exact hh) (name := name)
    refine ⟨fun p => (h1 p).trans ?_, h2.trans ?_⟩
    · constructor
      · rintro ⟨hm, rfl⟩
        obtain ⟨f, hf, rfl⟩ := List.mem_map.1 hm
        exact ⟨f, hf, rfl, rfl, rfl, fun h => absurd h hk, fun _ => ⟨rfl, rfl⟩⟩
      · rintro ⟨f, hf, hfn, hpn, ht, -, h⟩
        obtain ⟨h3, h4⟩ := h hk'
        refine ⟨List.mem_map.2 ⟨f, hf, ?_⟩, hpn⟩
        obtain ⟨n, t, tx, fw⟩ := p
        simp only at hpn ht h3 h4
        rw [hfn, hpn, ht, h3, h4]
    · simp

/-- C63: a field of a data class is found by its name, with the same type as among the fields of the class; there is a
`LookupError` if and only if the class has no such field. -/
theorem C63_field (cd : ClassDef) (hn : (cd.fields.map (·.name)).Nodup) (name : Str) :
    (∀ f, dataclassFieldByName cd name = .ok f ↔ f.name = name ∧ f.default = none ∧
      ∃ d, ({ name := name, ty := f.ty, fwd := f.fwd, default := d } : DcField) ∈ dataclassFields cd) ∧
    (∀ e, dataclassFieldByName cd name = .error e ↔ e = .lookup ∧ name ∉ cd.fields.map (·.name)) := by
  unfold dataclassFieldByName dataclassFields
  generalize cd.fields = fs at hn
  induction fs with
  | nil => simp [findField, eq_comm]
  | cons g gs ih =>
    rw [List.map_cons, List.nodup_cons] at hn
    obtain ⟨ih1, ih2⟩ := ih hn.2
    rw [findField]
    by_cases h : g.name = name
    · subst h
      rw [if_pos rfl]
      refine ⟨fun f => ⟨fun hf => by cases hf; exact ⟨rfl, rfl, _, List.mem_cons_self⟩, ?_⟩, by simp⟩
      rintro ⟨h1, h2, d, h3⟩
      rw [List.map_cons, List.mem_cons] at h3
      rcases h3 with h3 | h3
      · obtain ⟨n, t, fw, df⟩ := f
        cases h3
        simp only at h1 h2
        subst h1 h2
        rfl
      · obtain ⟨x, hx, he⟩ := List.mem_map.1 h3
        refine absurd (List.mem_map.2 ⟨x, hx, ?_⟩) hn.1
        have := congrArg DcField.name he
        exact this
    · rw [if_neg h]
      refine ⟨fun f => (ih1 f).trans ?_, fun e => (ih2 e).trans ?_⟩
      · refine and_congr_right fun _ => and_congr_right fun _ => exists_congr fun d => ?_
        rw [List.map_cons, List.mem_cons]
        refine ⟨Or.inr, ?_⟩
        rintro (h3 | h3)
        · exact absurd (congrArg DcField.name h3).symm h
        · exact h3
      · rw [List.map_cons, List.mem_cons, not_or]
        exact and_congr_right fun _ => ⟨fun h' => ⟨fun h'' => h h''.symm, h'⟩, fun h' => h'.2⟩

/-! ### Disagreements -/

/-- A named tuple with annotations is not recognised, unlike data classes and enumerations. -/
theorem C63_named_tuple_fails (c : Nat) (ms : List Meta) : isNamedTupleType env (.annotated (.cls c) ms) = false := rfl

/-- The helpers do not check what they are given: a set passes for a list, and the parameters of any other type for values of a
literal. -/
theorem C63_unchecked (t : Ty) : unwrapGenericList (.set t) = .ok (.ty t) ∧ unwrapLiteralValue (.list t) = .ok (.ty t) :=
  ⟨rfl, rfl⟩

/-- Without a single parameter there is an error, and a list without parameters is not recognised. -/
theorem C63_bare : isGenericList .bareList = false ∧ unwrapGenericList .bareList = .error .valueError :=
  ⟨rfl, rfl⟩

/-- The default of a field is lost when it is looked up by name. -/
theorem C63_default_fails (cd : ClassDef) (name : Str) (f : DcField) (h : dataclassFieldByName cd name = .ok f) :
    f.default = none := by
  unfold dataclassFieldByName at h
  generalize cd.fields = fs at h
  induction fs with
  | nil => cases h
  | cons g gs ih =>
    rw [findField] at h
    split at h
    · cases h; rfl
    · exact ih h

/-! ### Examples -/

example : isGenericList (.annotated (.list (.annotated .int [.intRange 0 9])) [.maxLength 3]) = true ∧
    unwrapGenericList (.annotated (.list (.annotated .int [.intRange 0 9])) [.maxLength 3]) =
      .ok (.ty (.annotated .int [.intRange 0 9, .maxLength 3])) := ⟨rfl, rfl⟩

example : isTypeLiteral (.annotated (.literal [.str c!"a"]) [.alias c!"b"]) = true ∧
    unwrapLiteralValue (.annotated (.literal [.str c!"a"]) [.alias c!"b"]) = .ok (.lit (.str c!"a")) := ⟨rfl, rfl⟩

example : dataclassFieldByName { module := c!"m", name := c!"A", kind := .dataclass false, fields :=
      [{ name := c!"x", ty := .int }, { name := c!"y", ty := .str, dflt := .value (.str c!"s") }] } c!"y" =
    .ok { name := c!"y", ty := .str, fwd := false } := rfl

end Verif
