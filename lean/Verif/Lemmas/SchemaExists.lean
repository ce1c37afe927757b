import Verif.Spec.SchemaExists
import Verif.Lemmas.SchemaMade
/-!
# For which types there is a schema
-/
namespace Verif

variable {cfg : SchemaCfg} {env : Env} {cat : SchemaCatalog} {cls : Nat → SchRes Sch}

/-! ### Types, given the classes for which there is a schema -/

inductive GivenSchema (env : Env) (cat : SchemaCatalog) (S : Nat → Prop) : Bool → Bool → Ty → Prop
  | leaf {n a t} : t ∈ scalarTys ∨ t ∈ [Ty.bareList, .bareSet, .bareTuple, .bareDict] → GivenSchema env cat S n a t
  | list {n a t} : GivenSchema env cat S n n t → GivenSchema env cat S n a (.list t)
  | set {n a t} : GivenSchema env cat S n n t → GivenSchema env cat S n a (.set t)
  | tuple {n a ts} : (∀ t ∈ ts, GivenSchema env cat S n n t) → GivenSchema env cat S n a (.tuple ts)
  | dict {n a k t} : k ≠ .other →
      (∀ e, k = .enum e → ∃ ed, env.enums[e]? = some ed ∧ ∀ m ∈ ed.members, ∀ f, m.2 ≠ .float f) →
      GivenSchema env cat S n n t → GivenSchema env cat S n a (.dict k t)
  | union {n a ts} : 2 < ts.length ∨ Ty.none ∉ ts → (∀ t ∈ ts, GivenSchema env cat S n false t) →
      GivenSchema env cat S n a (.union ts)
  | annotated {n a t ms} : GivenSchema env cat S n true t → GivenSchema env cat S n a (.annotated t ms)
  | literal {n a l} : (∀ e m, l ≠ .enum e m) → GivenSchema env cat S n a (.literal [l])
  | named {a k} : IsDefined env k → GivenSchema env cat S true a k.toTy
  | reference {k e} : lookupKey k cat.byType = some e → GivenSchema env cat S false false k.toTy
  | enum {a e ed} : env.enums[e]? = some ed → ed.members ≠ [] →
      (∀ m ∈ ed.members, ∀ m' ∈ ed.members, scalarTypeName m.2 = scalarTypeName m'.2) → GivenSchema env cat S false a (.enum e)
  | cls {a c} : S c → GivenSchema env cat S false a (.cls c)

theorem GivenSchema.mono {S S' : Nat → Prop} (hS : ∀ c, S c → S' c) {n a : Bool} {t : Ty} (h : GivenSchema env cat S n a t) :
    GivenSchema env cat S' n a t := by
  induction h with
  | leaf h => exact .leaf h
  | list _ ih => exact .list ih
  | set _ ih => exact .set ih
  | tuple _ ih => exact .tuple ih
  | dict h1 h2 _ ih => exact .dict h1 h2 ih
  | union h _ ih => exact .union h ih
  | annotated _ ih => exact .annotated ih
  | literal h => exact .literal h
  | named h => exact .named h
  | reference h => exact .reference h
  | enum h1 h2 h3 => exact .enum h1 h2 h3
  | cls h => exact .cls (hS _ h)

theorem isDefined_iff {k : RegKey} : IsDefined env k ↔ ∃ n, k.typeName env = some n := by
  cases k with
  | enum e =>
    simp only [RegKey.typeName]
    cases h : env.enums[e]? with
    | none => exact ⟨fun h' => (by cases h'; simp_all), fun ⟨_, h⟩ => by cases h⟩
    | some ed => exact ⟨fun _ => ⟨_, rfl⟩, fun _ => .enum h⟩
  | cls c =>
    simp only [RegKey.typeName]
    cases h : env.classes[c]? with
    | none => exact ⟨fun h' => (by cases h'; simp_all), fun ⟨_, h⟩ => by cases h⟩
    | some cd => exact ⟨fun _ => ⟨_, rfl⟩, fun _ => .cls h⟩

theorem nameSchema_ok {skip : Bool} {k : RegKey} : (∃ p, nameSchema cfg env cat skip k = .ok p) ↔ IsDefined env k := by
  rw [isDefined_iff]
  unfold nameSchema
  cases k.typeName env with
  | none => exact ⟨fun ⟨_, h⟩ => (by cases h), fun ⟨_, h⟩ => (by cases h)⟩
  | some n =>
    refine ⟨fun _ => ⟨n, rfl⟩, fun _ => ?_⟩
    dsimp only
    split <;> exact ⟨_, rfl⟩

theorem pyStr_of_made : ∀ {ms : List (Str × Scalar)} {names : List Str}, mapRes (fun m => m.2.pyStr) ms = .ok names →
    ∀ m ∈ ms, ∀ f, m.2 ≠ .float f := by
  intro ms
  induction ms with
  | nil => intro _ _ m hm; cases hm
  | cons m ms ih =>
    intro names h m' hm' f hf
    simp only [mapRes] at h
    cases h1 : m.2.pyStr with
    | error e => rw [h1] at h; cases h
    | ok n =>
      rw [h1] at h
      cases h2 : mapRes (fun m : Str × Scalar => m.2.pyStr) ms with
      | error e => simp only [h2] at h; cases h
      | ok ns =>
        rcases List.mem_cons.1 hm' with rfl | hm'
        · rw [hf] at h1; cases h1
        · exact ih h2 m' hm' f hf

theorem dictSchema_ok {k : KeyTy} {s s' : Sch} (h : dictSchema env k s = .ok s') :
    ∀ e, k = .enum e → ∃ ed, env.enums[e]? = some ed ∧ ∀ m ∈ ed.members, ∀ f, m.2 ≠ .float f := by
  rintro e rfl
  unfold dictSchema at h
  dsimp only at h
  cases he : env.enums[e]? with
  | none => rw [he] at h; cases h
  | some ed =>
    rw [he] at h
    dsimp only at h
    cases hn : mapRes (fun m : Str × Scalar => m.2.pyStr) ed.members with
    | error e => rw [hn] at h; cases h
    | ok ns => exact ⟨ed, rfl, pyStr_of_made hn⟩

theorem enumSchema_ok {e : Nat} {s : Sch} (h : enumSchema env e = .ok s) : ∃ ed, env.enums[e]? = some ed ∧ ed.members ≠ [] ∧
    ∀ m ∈ ed.members, ∀ m' ∈ ed.members, scalarTypeName m.2 = scalarTypeName m'.2 := by
  unfold enumSchema at h
  cases he : env.enums[e]? with
  | none => rw [he] at h; cases h
  | some ed =>
    rw [he] at h
    dsimp only at h
    split at h
    · rename_i hu
      refine ⟨ed, rfl, ?_, ?_⟩
      · intro hn; rw [hn] at hu; cases hu
      · cases hm : ed.members with
        | nil => intro m h; cases h
        | cons m0 ms =>
          rw [hm] at hu
          simp only [List.map_cons, scalarsUniform, List.all_eq_true, decide_eq_true_eq, List.mem_map] at hu
          have : ∀ m ∈ m0 :: ms, scalarTypeName m.2 = scalarTypeName m0.2 := by
            intro m hm
            rcases List.mem_cons.1 hm with rfl | hm
            · rfl
            · exact hu _ ⟨m, hm, rfl⟩
          intro m hm m' hm'
          rw [this m hm, this m' hm']
    · cases h

theorem SchRes.ok_of_map {f : α → Res β} {r : SchRes α} {p : β × List TypeUse} (h : r.map f = .ok p) :
    ∃ a us, r = .ok (a, us) ∧ ∃ b, f a = .ok b := by
  obtain ⟨b, us⟩ := p
  obtain ⟨a, h1, h2⟩ := SchRes.map_ok.1 h
  exact ⟨a, us, h1, b, h2⟩

theorem SchRes.map_of_ok {f : α → Res β} {r : SchRes α} (h : ∃ p, r = .ok p) (hf : ∀ a, ∃ b, f a = .ok b) :
    ∃ p, r.map f = .ok p := by
  obtain ⟨⟨a, us⟩, rfl⟩ := h
  obtain ⟨b, hb⟩ := hf a
  exact ⟨(b, us), by simp only [SchRes.map, hb]⟩

mutual
theorem given_of_ok {S : Nat → Prop} (hS : ∀ c p, cls c = .ok p → S c) : ∀ (t : Ty) (n a : Bool) (p : Sch × List TypeUse),
    tySchema cfg env cat cls n a t = .ok p → GivenSchema env cat S n a t
  | .annotated t ms, n, a, p, h => by
    simp only [tySchema] at h
    cases hs : simpleSchema t with
    | some s =>
      refine .annotated (.leaf (Or.inl ?_))
      cases t <;> first | (simp only [simpleSchema] at hs; cases hs; done) | simp [scalarTys]
    | none => rw [hs] at h; exact .annotated (given_of_ok hS t n true p h)
  | .enum e, n, a, p, h => by
    simp only [tySchema] at h
    cases n with
    | true =>
      rw [if_pos rfl] at h
      exact .named (k := .enum e) (nameSchema_ok.1 ⟨p, h⟩)
    | false =>
      rw [if_neg (by decide)] at h
      split at h
      · rename_i entry he
        cases a with
        | true => cases he
        | false => exact .reference (k := .enum e) he
      · cases he : enumSchema env e with
        | error er => rw [he] at h; cases h
        | ok s =>
          obtain ⟨ed, h1, h2, h3⟩ := enumSchema_ok he
          exact .enum h1 h2 h3
  | .cls c, n, a, p, h => by
    simp only [tySchema] at h
    cases n with
    | true =>
      rw [if_pos rfl] at h
      exact .named (k := .cls c) (nameSchema_ok.1 ⟨p, h⟩)
    | false =>
      rw [if_neg (by decide)] at h
      split at h
      · rename_i entry he
        cases a with
        | true => cases he
        | false => exact .reference (k := .cls c) he
      · exact .cls (hS c p h)
  | .union ts, n, a, p, h => by
    simp only [tySchema] at h
    split at h
    · rename_i hc
      obtain ⟨ss, us, h1, -⟩ := SchRes.ok_of_map h
      refine .union ?_ (givens_of_ok hS ts n false _ h1)
      simp only [Bool.or_eq_true, decide_eq_true_eq, Bool.not_eq_true', List.any_eq_false] at hc
      rcases hc with hc | hc
      · exact Or.inl hc
      · exact Or.inr fun hm => hc _ hm rfl
    · cases h
  | .list t, n, a, p, h => by
    simp only [tySchema] at h
    obtain ⟨s, us, h1, -⟩ := SchRes.ok_of_map h
    exact .list (given_of_ok hS t n n _ h1)
  | .set t, n, a, p, h => by
    simp only [tySchema] at h
    obtain ⟨s, us, h1, -⟩ := SchRes.ok_of_map h
    exact .set (given_of_ok hS t n n _ h1)
  | .dict k t, n, a, p, h => by
    simp only [tySchema] at h
    split at h
    · cases h
    · rename_i hk
      obtain ⟨s, us, h1, _, h2⟩ := SchRes.ok_of_map h
      exact .dict hk (dictSchema_ok h2) (given_of_ok hS t n n _ h1)
  | .tuple ts, n, a, p, h => by
    simp only [tySchema] at h
    obtain ⟨ss, us, h1, -⟩ := SchRes.ok_of_map h
    exact .tuple (givens_of_ok hS ts n n _ h1)
  | .literal ls, n, a, p, h => by
    simp only [tySchema] at h
    split at h
    · rename_i l
      refine .literal fun e m hl => ?_
      subst hl
      cases h
    · cases h
  | .none, n, a, _, _ | .bool, n, a, _, _ | .int, n, a, _, _ | .float, n, a, _, _ | .str, n, a, _, _ | .bytes, n, a, _, _
  | .datetime, n, a, _, _ | .date, n, a, _, _ | .time, n, a, _, _ | .timedelta, n, a, _, _ | .uuid, n, a, _, _
  | .ipv4, n, a, _, _ | .ipv6, n, a, _, _ => .leaf (Or.inl (by simp [scalarTys]))
  | .bareList, n, a, _, _ | .bareSet, n, a, _, _ | .bareTuple, n, a, _, _ | .bareDict, n, a, _, _ =>
    .leaf (Or.inr (by simp))
theorem givens_of_ok {S : Nat → Prop} (hS : ∀ c p, cls c = .ok p → S c) :
    ∀ (ts : List Ty) (n a : Bool) (p : List Sch × List TypeUse),
    tySchemas cfg env cat cls n a ts = .ok p → ∀ t ∈ ts, GivenSchema env cat S n a t
  | [], _, _, _, _ => fun t ht => by cases ht
  | t :: ts, n, a, p, h => fun t' ht' => by
    simp only [tySchemas] at h
    cases h1 : tySchema cfg env cat cls n a t with
    | error e => rw [h1] at h; cases h
    | ok q =>
      rw [h1] at h
      cases h2 : tySchemas cfg env cat cls n a ts with
      | error e => simp only [h2] at h; cases h
      | ok qs =>
        rcases List.mem_cons.1 ht' with ht' | ht'
        · rw [ht']; exact given_of_ok hS t n a q h1
        · exact givens_of_ok hS ts n a qs h2 t' ht'
end

theorem tySchemas_exist {n a : Bool} : ∀ {ts : List Ty}, (∀ t ∈ ts, ∃ p, tySchema cfg env cat cls n a t = .ok p) →
    ∃ p, tySchemas cfg env cat cls n a ts = .ok p := by
  intro ts
  induction ts with
  | nil => intro _; exact ⟨_, rfl⟩
  | cons t ts ih =>
    intro h
    obtain ⟨⟨s, us⟩, h1⟩ := h t (by simp)
    obtain ⟨⟨ss, us'⟩, h2⟩ := ih fun t ht => h t (by simp [ht])
    exact ⟨(s :: ss, us ++ us'), by simp only [tySchemas, h1, h2]⟩

theorem ok_of_given {S : Nat → Prop} (hS : ∀ c, S c → ∃ p, cls c = .ok p) {n a : Bool} {t : Ty}
    (h : GivenSchema env cat S n a t) : ∃ p, tySchema cfg env cat cls n a t = .ok p := by
  induction h with
  | @leaf n a t h =>
    simp only [scalarTys, List.mem_cons, List.not_mem_nil, or_false] at h
    rcases h with (rfl | rfl | rfl | rfl | rfl | rfl | rfl | rfl | rfl | rfl | rfl | rfl | rfl) | rfl | rfl | rfl | rfl <;>
      exact ⟨_, by simp only [tySchema, simpleSchema]; rfl⟩
  | list _ ih => simp only [tySchema]; exact SchRes.map_of_ok ih fun _ => ⟨_, rfl⟩
  | set _ ih => simp only [tySchema]; exact SchRes.map_of_ok ih fun _ => ⟨_, rfl⟩
  | tuple _ ih => simp only [tySchema]; exact SchRes.map_of_ok (tySchemas_exist ih) fun _ => ⟨_, rfl⟩
  | @dict n a k t ho hk _ ih =>
    simp only [tySchema, if_neg ho]
    refine SchRes.map_of_ok ih fun s => ?_
    unfold dictSchema
    split
    · rename_i e
      obtain ⟨ed, he, hf⟩ := hk e rfl
      obtain ⟨ns, hns⟩ := pyStr_made hf
      rw [he]
      dsimp only
      rw [hns]
      dsimp only
      split <;> exact ⟨_, rfl⟩
    · exact ⟨_, rfl⟩
  | @union n a ts h _ ih =>
    simp only [tySchema]
    rw [if_pos]
    · exact SchRes.map_of_ok (tySchemas_exist ih) fun _ => ⟨_, rfl⟩
    · simp only [Bool.or_eq_true, decide_eq_true_eq, Bool.not_eq_true', List.any_eq_false]
      rcases h with h | h
      · exact Or.inl h
      · refine Or.inr fun t ht hn => h ?_
        cases t <;> simp [Ty.isNone] at hn
        exact ht
  | @annotated n a t ms _ ih =>
    simp only [tySchema]
    split
    · split <;> exact ⟨_, rfl⟩
    · exact ih
  | @literal n a l h =>
    simp only [tySchema, litSchema]
    cases l with
    | enum e m => exact absurd rfl (h e m)
    | _ => exact ⟨_, rfl⟩
  | @named a k h =>
    obtain ⟨p, hp⟩ := nameSchema_ok (cfg := cfg) (cat := cat) (skip := a).2 h
    cases k <;> exact ⟨p, by simp only [RegKey.toTy, tySchema]; rw [if_pos trivial]; exact hp⟩
  | @reference k e h =>
    cases k <;> simp only [RegKey.toTy, tySchema] <;> rw [if_neg (by decide), if_neg (by decide), h] <;> exact ⟨_, rfl⟩
  | enum h1 h2 h3 =>
    obtain ⟨s, hs⟩ := enum_made h1 h2 h3
    simp only [tySchema, hs]
    rw [if_neg (by decide)]
    split <;> exact ⟨_, rfl⟩
  | cls h =>
    simp only [tySchema]
    rw [if_neg (by decide)]
    split
    · exact ⟨_, rfl⟩
    · exact hS _ h

/-! ### Classes -/

/-- There is a schema for a class, if there are for those of `S`. -/
def ClassGiven (env : Env) (cat : SchemaCatalog) (S : Nat → Prop) (c : Nat) : Prop :=
  ∃ cd, env.classes[c]? = some cd ∧
    (∀ f ∈ cd.hints, f.IsString cd.kind → (∃ k, f.ty = k.toTy ∧ IsDefined env k) ∨ f.ty ∈ [Ty.bool, .int, .float, .str, .bytes]) ∧
    (∀ f ∈ cd.hints, ¬ f.IsString cd.kind → f.HasNames cd.kind → GivenSchema env cat S true false f.ty.required) ∧
    (∀ f ∈ cd.hints, ¬ f.IsString cd.kind → ¬ f.HasNames cd.kind → GivenSchema env cat S false false f.ty.required) ∧
    ∀ f ∈ cd.hints, ∀ v, f.Shows cd.kind v → ∃ j, objectToJson env v = .ok j

theorem isString_iff {kind : ClassKind} {f : FieldDef} : f.IsString kind ↔ strField kind f = true := by
  cases kind <;> simp [FieldDef.IsString, strField]

theorem hasNames_iff {kind : ClassKind} {f : FieldDef} : f.HasNames kind ↔ fwdField kind f = true := by
  cases kind <;> simp [FieldDef.HasNames, fwdField]

theorem shows_iff {kind : ClassKind} {f : FieldDef} {v : Val} :
    f.Shows kind v ↔ classAttr kind f = some v ∧ v.hasJsonDefault = true := by
  have h1 : classAttr kind f = some v ↔ f.dflt = .value v ∧ ∀ typed, kind ≠ .namedTuple typed := by
    unfold classAttr
    cases kind with
    | namedTuple t => simp
    | _ =>
      dsimp only
      cases f.dflt with
      | value w => simp
      | _ => simp
  rw [h1, FieldDef.Shows, and_assoc]
  refine and_congr_right fun _ => and_congr_right fun _ => ?_
  cases v <;> simp [Val.hasJsonDefault]

theorem withDefault_exists {kind : ClassKind} {f : FieldDef} {s : Sch} :
    (∃ s', withDefault env kind f s = .ok s') ↔ ∀ v, f.Shows kind v → ∃ j, objectToJson env v = .ok j := by
  simp only [shows_iff]
  unfold withDefault
  cases hc : classAttr kind f with
  | none => exact ⟨fun _ v h => (by cases h.1), fun _ => ⟨_, rfl⟩⟩
  | some v =>
    dsimp only
    by_cases hj : v.hasJsonDefault = true
    · rw [if_pos hj]
      cases ho : objectToJson env v with
      | error e =>
        refine ⟨fun ⟨_, h⟩ => (by cases h), fun h => ?_⟩
        obtain ⟨j, hj⟩ := h v ⟨rfl, hj⟩
        rw [ho] at hj; cases hj
      | ok j =>
        refine ⟨fun _ w hw => ?_, fun _ => ⟨_, rfl⟩⟩
        cases hw.1
        exact ⟨j, ho⟩
    · rw [if_neg hj]
      refine ⟨fun _ w hw => ?_, fun _ => ⟨_, rfl⟩⟩
      cases hw.1
      exact absurd hw.2 hj

theorem strSchema_exists {t : Ty} : (∃ p, strSchema cfg env t = .ok p) ↔
    (∃ k, t = k.toTy ∧ IsDefined env k) ∨ t ∈ [Ty.bool, .int, .float, .str, .bytes] := by
  have toTy_cls : ∀ {k : RegKey} {c}, Ty.cls c = k.toTy → k = .cls c := by rintro (_ | _) c h <;> first | (cases h; rfl) | cases h
  have toTy_enum : ∀ {k : RegKey} {c}, Ty.enum c = k.toTy → k = .enum c := by rintro (_ | _) c h <;> first | (cases h; rfl) | cases h
  cases t with
  | cls c =>
    simp only [strSchema]
    cases h : env.classes[c]? with
    | none =>
      refine ⟨fun ⟨_, h⟩ => (by cases h), fun h' => ?_⟩
      rcases h' with ⟨k, hk, hd⟩ | h'
      · rw [toTy_cls hk] at hd; cases hd; simp_all
      · simp at h'
    | some cd => exact ⟨fun _ => Or.inl ⟨.cls c, rfl, .cls h⟩, fun _ => ⟨_, rfl⟩⟩
  | enum e =>
    simp only [strSchema]
    cases h : env.enums[e]? with
    | none =>
      refine ⟨fun ⟨_, h⟩ => (by cases h), fun h' => ?_⟩
      rcases h' with ⟨k, hk, hd⟩ | h'
      · rw [toTy_enum hk] at hd; cases hd; simp_all
      · simp at h'
    | some cd => exact ⟨fun _ => Or.inl ⟨.enum e, rfl, .enum h⟩, fun _ => ⟨_, rfl⟩⟩
  | bool | int | float | str | bytes => exact ⟨fun _ => Or.inr (by simp), fun _ => ⟨_, rfl⟩⟩
  | _ =>
    refine ⟨fun ⟨_, h⟩ => (by simp only [strSchema] at h; cases h), fun h => ?_⟩
    rcases h with ⟨k, hk, -⟩ | h
    · cases k <;> cases hk
    · simp at h

theorem propSchema_exists {kind : ClassKind} {f : FieldDef} : (∃ p, propSchema cfg env cat cls kind f = .ok p) ↔
    (f.IsString kind → (∃ k, f.ty = k.toTy ∧ IsDefined env k) ∨ f.ty ∈ [Ty.bool, .int, .float, .str, .bytes]) ∧
    (¬ f.IsString kind → f.HasNames kind → ∃ p, tySchema cfg env cat cls true false f.ty.required = .ok p) ∧
    (¬ f.IsString kind → ¬ f.HasNames kind → ∃ p, tySchema cfg env cat cls false false f.ty.required = .ok p) ∧
    ∀ v, f.Shows kind v → ∃ j, objectToJson env v = .ok j := by
  rw [isString_iff, hasNames_iff]
  unfold propSchema
  have key : ∀ r : SchRes Sch, (∃ p, r.map (fun s => withDefault env kind f s) = .ok p) ↔ (∃ p, r = .ok p) ∧
      ∀ v, f.Shows kind v → ∃ j, objectToJson env v = .ok j := by
    intro r
    constructor
    · rintro ⟨p, hp⟩
      obtain ⟨s, us, h1, h2⟩ := SchRes.ok_of_map hp
      exact ⟨⟨_, h1⟩, withDefault_exists.1 h2⟩
    · rintro ⟨h1, h2⟩
      exact SchRes.map_of_ok h1 fun s => withDefault_exists.2 h2
  rw [key, ← strSchema_exists (cfg := cfg)]
  cases hs : strField kind f with
  | true => simp
  | false =>
    cases hf : fwdField kind f <;> simp

theorem propSchemas_exist {kind : ClassKind} : ∀ {fs : List FieldDef} (acc : List (Str × Json)),
    (∃ p, propSchemas cfg env cat cls kind fs acc = .ok p) ↔ ∀ f ∈ fs, ∃ p, propSchema cfg env cat cls kind f = .ok p := by
  intro fs
  induction fs with
  | nil => intro acc; exact ⟨fun _ f hf => (by cases hf), fun _ => ⟨_, rfl⟩⟩
  | cons f fs ih =>
    intro acc
    simp only [propSchemas, List.forall_mem_cons]
    cases h1 : propSchema cfg env cat cls kind f with
    | error e => exact ⟨fun ⟨_, h⟩ => (by cases h), fun h => by obtain ⟨_, h⟩ := h.1; cases h⟩
    | ok p =>
      obtain ⟨s, us⟩ := p
      dsimp only
      rw [← ih (upsert (schemaProp kind f) (.obj s) acc)]
      cases h2 : propSchemas cfg env cat cls kind fs (upsert (schemaProp kind f) (.obj s) acc) with
      | error e => exact ⟨fun ⟨_, h⟩ => (by cases h), fun h => by obtain ⟨_, h⟩ := h.2; cases h⟩
      | ok q => exact ⟨fun _ => ⟨⟨_, rfl⟩, ⟨_, rfl⟩⟩, fun _ => ⟨_, rfl⟩⟩

/-- The classes for which there is a schema at a depth of `n`. -/
def SchemaAt (cfg : SchemaCfg) (env : Env) (cat : SchemaCatalog) (n c : Nat) : Prop := ∃ p, clsSchema cfg env cat n c = .ok p

theorem given_iff {n : Nat} {b a : Bool} {t : Ty} : (∃ p, tySchema cfg env cat (clsSchema cfg env cat n) b a t = .ok p) ↔
    GivenSchema env cat (SchemaAt cfg env cat n) b a t :=
  ⟨fun ⟨p, hp⟩ => given_of_ok (fun _ p h => ⟨p, h⟩) t b a p hp, ok_of_given fun _ h => h⟩

theorem depth_succ {n c : Nat} : SchemaAt cfg env cat (n + 1) c ↔ ClassGiven env cat (SchemaAt cfg env cat n) c := by
  unfold SchemaAt ClassGiven
  simp only [clsSchema]
  cases hc : env.classes[c]? with
  | none => exact ⟨fun ⟨_, h⟩ => (by cases h), fun ⟨_, h, _⟩ => by cases h⟩
  | some cd =>
    dsimp only
    have : (∃ p, (propSchemas cfg env cat (clsSchema cfg env cat n) cd.kind cd.hints []).map (fun ps =>
        (.ok (classSchema ps ((cd.hints.filter (schemaRequired cd.kind)).map (schemaProp cd.kind))) : Res Sch)) = .ok p) ↔
        ∃ p, propSchemas cfg env cat (clsSchema cfg env cat n) cd.kind cd.hints [] = .ok p :=
      ⟨fun ⟨p, hp⟩ => (by obtain ⟨s, us, h, -⟩ := SchRes.ok_of_map hp; exact ⟨_, h⟩),
        fun h => SchRes.map_of_ok h fun _ => ⟨_, rfl⟩⟩
    rw [this, propSchemas_exist]
    simp only [propSchema_exists, given_iff]
    constructor
    · intro h
      exact ⟨cd, rfl, fun f hf => (h f hf).1, fun f hf => (h f hf).2.1, fun f hf => (h f hf).2.2.1, fun f hf => (h f hf).2.2.2⟩
    · rintro ⟨cd', h0, h1, h2, h3, h4⟩
      cases h0
      exact fun f hf => ⟨h1 f hf, h2 f hf, h3 f hf, h4 f hf⟩

theorem ClassGiven.mono {S S' : Nat → Prop} (hS : ∀ c, S c → S' c) {c : Nat} (h : ClassGiven env cat S c) :
    ClassGiven env cat S' c := by
  obtain ⟨cd, h0, h1, h2, h3, h4⟩ := h
  exact ⟨cd, h0, h1, fun f hf ha hb => (h2 f hf ha hb).mono hS, fun f hf ha hb => (h3 f hf ha hb).mono hS, h4⟩

theorem depth_mono_succ : ∀ {n c : Nat}, SchemaAt cfg env cat n c → SchemaAt cfg env cat (n + 1) c := by
  intro n
  induction n with
  | zero => rintro c ⟨p, hp⟩; simp only [clsSchema] at hp; cases hp
  | succ n ih => intro c h; exact depth_succ.2 ((depth_succ.1 h).mono fun _ => ih)

theorem depth_mono {n m : Nat} (h : n ≤ m) {c : Nat} (hc : SchemaAt cfg env cat n c) : SchemaAt cfg env cat m c := by
  induction h with
  | refl => exact hc
  | step _ ih => exact depth_mono_succ ih

theorem depth_lt {n c : Nat} (h : SchemaAt cfg env cat n c) : c < env.classes.length := by
  cases n with
  | zero => obtain ⟨p, hp⟩ := h; simp only [clsSchema] at hp; cases hp
  | succ n =>
    obtain ⟨cd, h0, -⟩ := depth_succ.1 h
    exact (List.getElem?_eq_some_iff.1 h0).1

theorem depth_stable {n : Nat} (h : ∀ c, SchemaAt cfg env cat (n + 1) c → SchemaAt cfg env cat n c) {m c : Nat} (hnm : n ≤ m)
    (hc : SchemaAt cfg env cat m c) : SchemaAt cfg env cat n c := by
  induction hnm generalizing c with
  | refl => exact hc
  | @step m _ ih => exact h c (depth_succ.2 ((depth_succ.1 hc).mono fun _ h => ih h))

open Classical in
/-- Either the classes at depth `n` are all that there are, or there are `n` at least. -/
theorem depth_grows (n : Nat) : (∀ m c, SchemaAt cfg env cat m c → SchemaAt cfg env cat n c) ∨
    n ≤ ((List.range env.classes.length).filter fun c => decide (SchemaAt cfg env cat n c)).length := by
  induction n with
  | zero => exact Or.inr (Nat.zero_le _)
  | succ n ih =>
    by_cases hst : ∀ c, SchemaAt cfg env cat (n + 1) c → SchemaAt cfg env cat n c
    · refine Or.inl fun m c hc => depth_mono_succ ?_
      rcases Nat.le_total n m with h | h
      · exact depth_stable hst h hc
      · exact depth_mono h hc
    · obtain ⟨c, hc⟩ := Classical.not_forall.1 hst
      obtain ⟨hc1, hc2⟩ := Classical.not_imp.1 hc
      rcases ih with ih | ih
      · exact absurd (ih _ _ hc1) hc2
      · refine Or.inr (Nat.lt_of_le_of_lt ih ?_)
        have key : ∀ l : List Nat, c ∈ l → (l.filter fun c => decide (SchemaAt cfg env cat n c)).length <
            (l.filter fun c => decide (SchemaAt cfg env cat (n + 1) c)).length := by
          have le : ∀ l : List Nat, (l.filter fun c => decide (SchemaAt cfg env cat n c)).length ≤
              (l.filter fun c => decide (SchemaAt cfg env cat (n + 1) c)).length := by
            intro l
            induction l with
            | nil => simp
            | cons d l ih =>
              simp only [List.filter_cons, decide_eq_true_eq]
              by_cases h1 : SchemaAt cfg env cat n d
              · rw [if_pos h1, if_pos (depth_mono_succ h1)]; simpa using ih
              · rw [if_neg h1]; split
                · simp only [List.length_cons]; omega
                · exact ih
          intro l hl
          induction l with
          | nil => cases hl
          | cons d l ih =>
            simp only [List.filter_cons, decide_eq_true_eq]
            rcases List.mem_cons.1 hl with rfl | hl
            · rw [if_neg hc2, if_pos hc1]
              simp only [List.length_cons]
              have := le l
              omega
            · have := ih hl
              by_cases h1 : SchemaAt cfg env cat n d
              · rw [if_pos h1, if_pos (depth_mono_succ h1)]; simpa using this
              · rw [if_neg h1]; split
                · simp only [List.length_cons]; omega
                · exact this
        exact key _ (List.mem_range.2 (depth_lt hc1))

/-- A nesting of as many classes as there are is enough. -/
theorem depth_enough {m c : Nat} (h : SchemaAt cfg env cat m c) : SchemaAt cfg env cat env.classes.length c := by
  rcases depth_grows (cfg := cfg) (env := env) (cat := cat) env.classes.length with h1 | h1
  · exact h1 m c h
  · classical
    have hlen : ((List.range env.classes.length).filter fun c => decide (SchemaAt cfg env cat env.classes.length c)).length =
        (List.range env.classes.length).length :=
      Nat.le_antisymm (List.length_filter_le _ _) (by rw [List.length_range]; exact h1)
    have := List.length_filter_eq_length_iff.1 hlen c (List.mem_range.2 (depth_lt h))
    simpa using this

/-! ### The least relation -/

theorem hasSchema_of_given {n : Nat} : ∀ {b a : Bool} {t : Ty}, GivenSchema env cat (SchemaAt cfg env cat n) b a t →
    HasSchema env cat b a t := by
  have lift : ∀ {S : Nat → Prop}, (∀ c a, S c → HasSchema env cat false a (.cls c)) → ∀ {b a : Bool} {t : Ty},
      GivenSchema env cat S b a t → HasSchema env cat b a t := by
    intro S hS b a t h
    induction h with
    | leaf h => exact .leaf h
    | list _ ih => exact .list ih
    | set _ ih => exact .set ih
    | tuple _ ih => exact .tuple ih
    | dict h1 h2 _ ih => exact .dict h1 h2 ih
    | union h _ ih => exact .union h ih
    | annotated _ ih => exact .annotated ih
    | literal h => exact .literal h
    | named h => exact .named h
    | reference h => exact .reference h
    | enum h1 h2 h3 => exact .enum h1 h2 h3
    | cls h => exact hS _ _ h
  intro b a t
  refine lift ?_
  clear b a t
  induction n with
  | zero => rintro c a ⟨p, hp⟩; simp only [clsSchema] at hp; cases hp
  | succ n ih =>
    intro c a h
    obtain ⟨cd, h0, h1, h2, h3, h4⟩ := depth_succ.1 h
    exact .cls h0 h1 (fun f hf ha hb => lift ih (h2 f hf ha hb)) (fun f hf ha hb => lift ih (h3 f hf ha hb)) h4

theorem given_of_hasSchema {b a : Bool} {t : Ty} (h : HasSchema env cat b a t) :
    GivenSchema env cat (SchemaAt cfg env cat env.classes.length) b a t := by
  induction h with
  | leaf h => exact .leaf h
  | list _ ih => exact .list ih
  | set _ ih => exact .set ih
  | tuple _ ih => exact .tuple ih
  | dict h1 h2 _ ih => exact .dict h1 h2 ih
  | union h _ ih => exact .union h ih
  | annotated _ ih => exact .annotated ih
  | literal h => exact .literal h
  | named h => exact .named h
  | reference h => exact .reference h
  | enum h1 h2 h3 => exact .enum h1 h2 h3
  | cls h0 h1 _ _ h4 ih2 ih3 => exact .cls (depth_enough (depth_succ.2 ⟨_, h0, h1, ih2, ih3, h4⟩))

theorem typeToSchema_exists (cfg : SchemaCfg) (env : Env) (cat : SchemaCatalog) (force : Bool) (t : Ty) :
    (∃ p, typeToSchema cfg env cat force t = .ok p) ↔ HasSchema env cat false force t :=
  given_iff.trans ⟨hasSchema_of_given, given_of_hasSchema⟩

end Verif
