import Verif.Lemmas.Mirror
import Verif.Spec.Rebuild
/-!
# Types of two programs whose values are written alike: in both directions
-/
namespace Verif

/-- Types of two programs with the same values, as far as can be seen from JSON. -/
inductive Twin (A B : Env) : Ty → Ty → Prop
  | leaf {t} : t ∈ plainTys → Twin A B t t
  | literal {l} : (∀ e m, l ≠ Lit.enum e m) → l ≠ .none → Twin A B (.literal [l]) (.literal [l])
  | annotatedL {t ms u} : Twin A B t u → Twin A B (.annotated t ms) u
  | annotatedR {t ms u} : Twin A B t u → Twin A B t (.annotated u ms)
  | list {t u} : Twin A B t u → Twin A B (.list t) (.list u)
  | enum {e e' ed ed'} : A.enums[e]? = some ed → B.enums[e']? = some ed' → ed.toJson = none → ed'.toJson = none →
      ed.members.map (·.2) = ed'.members.map (·.2) → (∀ m ∈ ed.members, ∃ s, m.2 = .str s) → Twin A B (.enum e) (.enum e')
  | cls {c c' cd cd' q q'} : A.classes[c]? = some cd → B.classes[c']? = some cd' → cd.kind = .dataclass q →
      cd'.kind = .dataclass q' → cd.toJson = none → cd'.toJson = none → cd.fields.length = cd'.fields.length →
      (cd.fields.map (writeProp cd.kind)).Nodup →
      (∀ (i : Nat) f f', cd.fields[i]? = some f → cd'.fields[i]? = some f' →
        writeProp cd.kind f = writeProp cd'.kind f' ∧ f.ty.isOptional = f'.ty.isOptional ∧ f.fwd = false ∧ f'.fwd = false) →
      (∀ (i : Nat) f f', cd.fields[i]? = some f → cd'.fields[i]? = some f' → Twin A B f.ty.required f'.ty.required) →
      Twin A B (.cls c) (.cls c')

theorem isOptional_made {o : Bool} {t u : Ty} (h : t = if o then .union [.none, u] else u) (hu : o = false → u.isOptional = false) :
    t.isOptional = o := by
  cases o with
  | true => rw [h]; rfl
  | false => rw [h]; simpa using hu rfl

theorem required_not_optional {t : Ty} (h : t.isOptional = false) : t.required = t := by simp [Ty.required, h]

theorem props_eq {l l' : List FieldDef} {k k' : ClassKind} (hl : l.length = l'.length)
    (h : ∀ (i : Nat) f f', l[i]? = some f → l'[i]? = some f' → writeProp k f = writeProp k' f') :
    l.map (writeProp k) = l'.map (writeProp k') := by
  apply List.ext_getElem?
  intro i
  simp only [List.getElem?_map]
  cases hi : l[i]? with
  | none =>
    have : l'[i]? = none := by rw [List.getElem?_eq_none_iff] at hi ⊢; omega
    simp [this]
  | some f =>
    obtain ⟨f', hi'⟩ := exists_get hl hi
    simp [hi', h i f f' hi hi']

theorem Twin.symm {A B : Env} {t u : Ty} (h : Twin A B t u) : Twin B A u t := by
  induction h with
  | leaf h => exact .leaf h
  | literal h1 h2 => exact .literal h1 h2
  | annotatedL _ ih => exact .annotatedR ih
  | annotatedR _ ih => exact .annotatedL ih
  | list _ ih => exact .list ih
  | enum h1 h2 h3 h4 h5 h6 =>
    refine .enum h2 h1 h4 h3 h5.symm fun m hm => ?_
    obtain ⟨m', hm', he⟩ := List.mem_map.1 (show m.2 ∈ _ from h5 ▸ List.mem_map_of_mem (f := fun x : Str × Scalar => x.2) hm)
    obtain ⟨s, hs⟩ := h6 m' hm'
    exact ⟨s, by rw [← he, hs]⟩
  | cls h1 h2 hk hk' ht ht' hl hn hf _ ih =>
    refine .cls h2 h1 hk' hk ht' ht hl.symm (props_eq hl (fun i f f' hi hi' => (hf i f f' hi hi').1) ▸ hn) ?_ ?_
    · intro i f f' hi hi'
      obtain ⟨a1, a2, a3, a4⟩ := hf i f' f hi' hi
      exact ⟨a1.symm, a2.symm, a4, a3⟩
    · exact fun i f f' hi hi' => ih i f' f hi' hi

theorem Twin.groundA {A B : Env} {t u : Ty} (h : Twin A B t u) : Ground A t := by
  induction h with
  | leaf h => exact .leaf h
  | literal => exact .literal
  | annotatedL _ ih => exact .annotated ih
  | annotatedR _ ih => exact ih
  | list _ ih => exact .list ih
  | enum h => exact .enum h
  | cls h1 h2 h3 _ _ _ hl _ hx _ ih =>
    refine .cls h1 h3 ?_ ?_ <;> intro f hf <;> obtain ⟨i, hi⟩ := List.getElem?_of_mem hf <;> obtain ⟨f', hf'⟩ := exists_get hl hi
    · exact (hx i f f' hi hf').2.2.1
    · exact (ih i f f' hi hf').of_required

theorem Twin.not_none {A B : Env} {t u : Ty} (h : Twin A B t u) : ¬ HasTy A .none t := by
  induction h with
  | leaf h =>
    simp only [plainTys, List.mem_cons, List.not_mem_nil, or_false] at h
    intro hv; cases hv <;> simp at h
  | @literal l _ h =>
    intro hv; cases hv with
    | @literal _ _ l' h1 h2 => rw [List.mem_singleton] at h1; subst h1; cases l' <;> simp [Lit.toVal] at h2 h
  | annotatedL _ ih => exact fun hv => by cases hv with | annotated hv => exact ih hv
  | annotatedR _ ih => exact ih
  | list => intro hv; cases hv
  | enum => intro hv; cases hv
  | cls => intro hv; cases hv

theorem hasTy_of_required {env : Env} {v : Val} {t : Ty} (h : HasTy env v t.required) : HasTy env v t := by
  have key : ∀ ts : List Ty, HasTy env v (Ty.unwrapOpt (.union ts)) → HasTy env v (.union ts) := by
    intro ts h
    simp only [Ty.unwrapOpt] at h
    split at h
    · rename_i t ht
      have : t ∈ ts.filter (fun t => !t.isNone) := by rw [ht]; simp
      exact .union (List.mem_filter.1 this).1 h
    · cases h with
      | union hm h => exact .union (List.mem_filter.1 hm).1 h
  unfold Ty.required at h
  split at h
  · rename_i ho
    cases t with
    | union ts => exact key ts h
    | annotated t ms =>
      cases t with
      | union ts => simp only [Ty.unwrapOptional] at h; cases h with | annotated h => exact .annotated (key ts h)
      | _ => simp [Ty.isOptional, Ty.unwrapAnn, Ty.unionArgs] at ho
    | _ => simp [Ty.isOptional, Ty.unwrapAnn, Ty.unionArgs] at ho
  · exact h

/-- Every value that can be written has a counterpart that is written alike. -/
theorem Twin.image {A B : Env} (hA : A.Ok) (hB : B.Ok) {t u : Ty} (h : Twin A B t u) : ∀ v, HasTy A v t → Encodable v →
    ∃ w j, HasTy B w u ∧ Encodable w ∧ objectToJson A v = .ok j ∧ objectToJson B w = .ok j := by
  induction h with
  | leaf h =>
    intro v hv he
    obtain ⟨h1, h2⟩ := objectToJson_leaf (B := B) h hv
    obtain ⟨j, h3, _⟩ := scalar_roundtrip A false (plain_scalar h) hv he
    exact ⟨v, j, h1, he, h3, h2 ▸ h3⟩
  | @literal l hl _ =>
    intro v hv he
    cases hv with
    | @literal _ _ l' h1 h2 =>
      rw [List.mem_singleton] at h1
      subst h1 h2
      cases l' with
      | enum e m => exact absurd rfl (hl e m)
      | _ => exact ⟨_, _, .literal (List.mem_singleton.2 rfl) rfl, he, rfl, rfl⟩
  | annotatedL _ ih => intro v hv; cases hv with | annotated hv => exact ih v hv
  | annotatedR _ ih =>
    intro v hv he
    obtain ⟨w, j, h1, h2⟩ := ih v hv he
    exact ⟨w, j, .annotated h1, h2⟩
  | @list t u _ ih =>
    intro v hv he
    cases hv with
    | @list vs _ hvs =>
      have hel : ∀ v ∈ vs, Encodable v := by cases he with | leaf h => cases h | list h => exact h
      obtain ⟨ws, xs, h1, h2, h3⟩ := mapRes_same (f := objectToJson A) (g := objectToJson B)
        (P := fun w => HasTy B w u ∧ Encodable w) (vs := vs) fun v hv => by
          obtain ⟨w, j, g1, g2, g3, g4⟩ := ih v (hvs v hv) (hel v hv)
          exact ⟨w, j, ⟨g1, g2⟩, g3, g4⟩
      exact ⟨.list ws, .arr xs, .list fun w hw => (h1 w hw).1, .list fun w hw => (h1 w hw).2, by rw [dyn_list, h2]; rfl,
        by rw [dyn_list, h3]; rfl⟩
  | @enum e e' ed ed' h1 h2 h3 h4 h5 h6 =>
    intro v hv he
    cases hv with
    | @enum _ m _ h7 h8 =>
      rw [h1] at h7; cases h7
      have hlen : ed.members.length = ed'.members.length := by simpa using congrArg List.length h5
      have hm := List.getElem?_eq_getElem h8
      have hm' := List.getElem?_eq_getElem (l := ed'.members) (i := m) (by omega)
      have hv : (ed.members[m]).2 = (ed'.members[m]'(by omega)).2 := by
        have := congrArg (fun l => l[m]?) h5
        simpa [hm, hm'] using this
      refine ⟨.enum e' m, (ed.members[m]).2.toJson, .enum h2 (by omega), .leaf rfl (by simp) (by simp) (by simp), ?_, ?_⟩
      · simp [objectToJson, dumps, typeOf, serCreate, createWith, h1, gen, genD, genShape, genEnum, h3, enumValue, hm]
      · simp [objectToJson, dumps, typeOf, serCreate, createWith, h2, gen, genD, genShape, genEnum, h4, enumValue, hm', hv]
  | @cls c c' cd cd' q q' h1 h2 hk hk' ht ht' hl hn hf hm ih =>
    intro v hv he
    have nk : cd.kind ≠ .namedTuple false := by rw [hk]; simp
    have nk' : cd'.kind ≠ .namedTuple false := by rw [hk']; simp
    have tw := Twin.cls h1 h2 hk hk' ht ht' hl hn hf hm
    have gA : Ground A (.cls c) := tw.groundA
    have gB : Ground B (.cls c') := tw.symm.groundA
    obtain ⟨fs, rfl, hfs, hty⟩ := hasTy_cls_inv h1 nk (by rw [hk]; simp) hv
    have hel : ∀ kv ∈ fs, Encodable kv.2 := by cases he with | leaf h => cases h | obj h => exact h
    have hprops := props_eq hl (fun i f f' hi hi' => (hf i f f' hi hi').1)
    obtain ⟨fs', ps, g1, g2, g3, g4, g5⟩ := mirror_fields (A := A) (B := B) (k := cd.kind) (k' := cd'.kind) hl hfs (by
      intro i f f' w hi hi' hw
      obtain ⟨a1, a2, -⟩ := hf i f f' hi hi'
      refine ⟨a1, ?_⟩
      have hwt := hty i f w hi hw
      have hfm := List.mem_of_getElem? hi
      have hfm' := List.mem_of_getElem? hi'
      by_cases hn : w.2 = .none
      · refine .inl ⟨hn, ?_⟩
        rw [hn] at hwt
        have ho : f.ty.isOptional = true := by
          cases ho : f.ty.isOptional with
          | true => rfl
          | false =>
            have := (hm i f f' hi hi').not_none
            rw [required_not_optional ho] at this
            exact absurd hwt this
        exact hasTy_none_optional (a2 ▸ ho)
      · refine .inr ⟨hn, ?_⟩
        obtain ⟨w', j, b1, b2, b3, b4⟩ := ih i f f' hi hi' w.2 (hasTy_required_of hn hwt) (hel w (List.mem_of_getElem? hw))
        have hw' : HasTy B w' f'.ty := hasTy_of_required b1
        refine ⟨w', j, ?_, hw', b2, ?_, ?_⟩
        · rintro rfl
          exact (hm i f f' hi hi').symm.not_none b1
        · rw [gen_field h1 ht nk gA.serCreate hfm hwt]; exact b3
        · rw [gen_field h2 ht' nk' gB.serCreate hfm' hw']; exact b4)
    refine ⟨.obj c' fs', .obj ps, ?_, .obj g3, ?_, ?_⟩
    · refine .cls h2 g1 ?_
      rw [hints_eq_fields nk']
      exact g2
    · exact (objectToJson_standard hA h1 ht nk (by rw [hk]; simp) hn hfs).2 ⟨gA.serCreate, ps, rfl, g4⟩
    · exact (objectToJson_standard hB h2 ht' nk' (by rw [hk']; simp) (by rw [← hprops]; exact hn) g1).2
        ⟨gB.serCreate, ps, rfl, g5⟩

/-! ### Reading -/

theorem Twin.invertible {A B : Env} {t u : Ty} (h : Twin A B t u) :
    Invertible A (fun c => ∃ b, Twin A B (.cls c) (.cls b)) t := by
  induction h with
  | leaf h => exact .scalar (plain_scalar h)
  | @literal l hl _ =>
    refine .literal ⟨l.ty, by simp, by simp⟩ fun e m hm => ?_
    rw [List.mem_singleton] at hm
    exact absurd hm.symm (hl e m)
  | annotatedL _ ih => exact .annotated ih
  | annotatedR _ ih => exact ih
  | list _ ih => exact .list ih
  | @enum e e' ed ed' h1 h2 h3 h4 h5 h6 =>
    refine .enum ⟨ed, h1, h3, fun p hp => ?_⟩
    obtain ⟨s, hs⟩ := h6 p hp
    rw [hs]
    simp
  | cls h1 h2 hk hk' ht ht' hl hn hf hm _ => exact .cls ⟨_, .cls h1 h2 hk hk' ht ht' hl hn hf hm⟩

theorem Twin.classInvertible {A B : Env} (hr : ReadsBack A) {c : Nat} (h : ∃ b, Twin A B (.cls c) (.cls b)) :
    ClassInvertible A (fun c => ∃ b, Twin A B (.cls c) (.cls b)) c := by
  obtain ⟨b, h⟩ := h
  have gA := h.groundA
  generalize hb : Ty.cls b = t at h
  generalize hu : Ty.cls c = u at h
  cases h with
  | leaf h => subst hu; simp [plainTys] at h
  | literal | annotatedR | list | enum => cases hb
  | annotatedL => cases hu
  | @cls c0 c' cd cd' q q' h1 h2 hk hk' ht ht' hl hn hf hm =>
    cases hu
    have nk : cd.kind ≠ .namedTuple false := by rw [hk]; simp
    obtain ⟨r1, r2⟩ := hr cd (List.mem_of_getElem? h1)
    have hget : ∀ f ∈ cd.fields, ∃ (i : Nat) (f' : FieldDef), cd.fields[i]? = some f ∧ cd'.fields[i]? = some f' := by
      intro f hf
      obtain ⟨i, hi⟩ := List.getElem?_of_mem hf
      obtain ⟨f', hi'⟩ := exists_get hl hi
      exact ⟨i, f', hi, hi'⟩
    refine .standard cd h1 ht ?_ nk (by rw [hk]; simp) gA.serCreate hn (fun f hf => (r2 f hf).1) ?_ ?_
    · simp [ClassDef.custom, r1, hk]
    · intro f hf
      obtain ⟨i, f', hi, hi'⟩ := hget f hf
      rw [hk]
      exact (hm i f f' hi hi').invertible
    · intro f hf hnone
      obtain ⟨i, f', hi, hi'⟩ := hget f hf
      refine (r2 f hf).2 ?_
      cases ho : f.ty.isOptional with
      | true => rfl
      | false =>
        have := (hm i f f' hi hi').not_none
        rw [required_not_optional ho] at this
        exact absurd hnone this

/-- What is written for a value of the one type is read by the other one, and written alike. -/
theorem Twin.exchange {A B : Env} (hA : A.Ok) (hB : B.Ok) (hr : ReadsBack B) {t u : Ty} (h : Twin A B t u) (v : Val)
    (hv : HasTy A v t) (he : Encodable v) (skip : Bool) :
    ∃ j w, objectToJson A v = .ok j ∧ loads B skip u j = .ok w ∧ HasTy B w u ∧ objectToJson B w = .ok j := by
  obtain ⟨w, j, h1, h2, h3, h4⟩ := h.image hA hB v hv he
  obtain ⟨j', h5, h6⟩ := C11_roundtrip_partial B hB _ (fun c hc => Twin.classInvertible hr hc) u h.symm.invertible w h1 h2 skip
  rw [h4] at h5
  cases h5
  exact ⟨j, w, h3, h6, h1, h4⟩

theorem Mirror.twin {A B : Env} {t u : Ty} (h : Mirror A B t u) : Twin A B t u := by
  induction h with
  | leaf h => exact .leaf h
  | literal h1 h2 => exact .literal h1 h2
  | annotatedL _ ih => exact .annotatedL ih
  | annotatedR _ ih => exact .annotatedR ih
  | list _ ih => exact .list ih
  | enum h1 h2 h3 h4 h5 h6 => exact .enum h1 h2 h3 h4 h5 h6
  | cls h1 h2 hk hk' ht ht' hf' hl hn hf hm ih =>
    refine .cls h1 h2 hk hk' ht ht' hl hn ?_ ih
    intro i f f' hi hi'
    obtain ⟨a1, a2, a3, a4, a5, a6⟩ := hf i f f' hi hi'
    refine ⟨a1.trans a2.symm, (isOptional_made a5 fun ho => ?_).symm, a6⟩
    cases hx : f'.ty.required.isOptional with
    | false => rfl
    | true => exact absurd (hasTy_none_optional hx) (hm i f f' hi hi').not_none.2

end Verif
