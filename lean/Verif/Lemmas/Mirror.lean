import Verif.Lemmas.Recursion
import Verif.Props.C48_Recursion
import Verif.Props.C11_RoundTrip
/-!
# Types of two programs whose values are written alike
-/
namespace Verif

/-- Types of the standard library that have a schema from which they are made again. -/
def plainTys : List Ty := [.bool, .int, .float, .str, .datetime, .date, .time, .timedelta, .uuid]

/-- The type of the second program holds values that are written like those of the type of the first one. -/
inductive Mirror (A B : Env) : Ty → Ty → Prop
  | leaf {t} : t ∈ plainTys → Mirror A B t t
  | literal {l} : (∀ e m, l ≠ Lit.enum e m) → l ≠ .none → Mirror A B (.literal [l]) (.literal [l])
  | annotatedL {t ms u} : Mirror A B t u → Mirror A B (.annotated t ms) u
  | annotatedR {t ms u} : Mirror A B t u → Mirror A B t (.annotated u ms)
  | list {t u} : Mirror A B t u → Mirror A B (.list t) (.list u)
  | enum {e e' ed ed'} : A.enums[e]? = some ed → B.enums[e']? = some ed' → ed.toJson = none → ed'.toJson = none →
      ed.members.map (·.2) = ed'.members.map (·.2) → (∀ m ∈ ed.members, ∃ s, m.2 = .str s) → Mirror A B (.enum e) (.enum e')
  | cls {c c' cd cd' q} : A.classes[c]? = some cd → B.classes[c']? = some cd' → cd.kind = .dataclass q →
      cd'.kind = .dataclass false → cd.toJson = none → cd'.toJson = none → cd'.fromJson = none →
      cd.fields.length = cd'.fields.length →
      (cd.fields.map (writeProp cd.kind)).Nodup →
      (∀ (i : Nat) f f', cd.fields[i]? = some f → cd'.fields[i]? = some f' → writeProp cd.kind f = f'.name ∧
        writeProp cd'.kind f' = f'.name ∧ fieldProp cd'.kind f' = f'.name ∧ f'.dflt = .missing ∧
        (f'.ty = if f.ty.isOptional then .union [.none, f'.ty.required] else f'.ty.required) ∧ f.fwd = false ∧ f'.fwd = false) →
      (∀ (i : Nat) f f', cd.fields[i]? = some f → cd'.fields[i]? = some f' → Mirror A B f.ty.required f'.ty.required) →
      Mirror A B (.cls c) (.cls c')

/-! ### Serializers -/

/-- Types whose serializers can be created. -/
inductive Ground (env : Env) : Ty → Prop
  | leaf {t} : t ∈ plainTys → Ground env t
  | literal {l} : Ground env (.literal [l])
  | annotated {t ms} : Ground env t → Ground env (.annotated t ms)
  | list {t} : Ground env t → Ground env (.list t)
  | enum {e ed} : env.enums[e]? = some ed → Ground env (.enum e)
  | union {ts} : Ground env (.union ts)
  | cls {c cd q} : env.classes[c]? = some cd → cd.kind = .dataclass q → (∀ f ∈ cd.fields, f.fwd = false) →
      (∀ f ∈ cd.fields, Ground env f.ty) → Ground env (.cls c)

theorem Ground.of_required {env : Env} {t : Ty} (h : Ground env t.required) : Ground env t := by
  unfold Ty.required at h
  split at h
  · rename_i ho
    unfold Ty.isOptional at ho
    cases t with
    | union ts => exact .union
    | annotated t ms =>
      cases t with
      | union ts => exact .annotated .union
      | _ => simp [Ty.unwrapAnn, Ty.unionArgs] at ho
    | _ => simp [Ty.unwrapAnn, Ty.unionArgs] at ho
  · exact h

theorem Ground.creates {env : Env} {t : Ty} (h : Ground env t) : ∃ n, createWith env (createCls env n) t = .ok () := by
  induction h with
  | leaf h =>
    simp only [plainTys, List.mem_cons, List.not_mem_nil, or_false] at h
    rcases h with rfl | rfl | rfl | rfl | rfl | rfl | rfl | rfl | rfl <;> exact ⟨0, rfl⟩
  | literal => exact ⟨0, by simp [createWith, litsUniform]⟩
  | annotated _ ih => simpa only [createWith] using ih
  | list _ ih => simpa only [createWith] using ih
  | enum h => exact ⟨0, by simp [createWith, h]⟩
  | union => exact ⟨0, by simp [createWith]⟩
  | @cls c cd q hc hk hw _ ih =>
    have : ∀ fs : List FieldDef, (∀ f ∈ fs, f ∈ cd.fields) → ∃ n, ∀ f ∈ fs, createWith env (createCls env n) f.ty = .ok () := by
      intro fs
      induction fs with
      | nil => exact fun _ => ⟨0, by simp⟩
      | cons f fs ihf =>
        intro hm
        obtain ⟨n, hn⟩ := ihf fun g hg => hm g (by simp [hg])
        obtain ⟨m, hm⟩ := ih f (hm f (by simp))
        refine ⟨max m n, fun g hg => ?_⟩
        rcases List.mem_cons.1 hg with rfl | hg
        · exact createWith_mono (fun c h => createCls_mono _ _ c (Nat.le_max_left _ _) h) _ hm
        · exact createWith_mono (fun c h => createCls_mono _ _ c (Nat.le_max_right _ _) h) _ (hn g hg)
    obtain ⟨n, hn⟩ := this cd.fields fun _ h => h
    refine ⟨n + 1, ?_⟩
    simp only [createWith, createCls, hc]
    rw [forRes_ok]
    intro f hf
    have hf : f ∈ cd.fields := by
      unfold ClassDef.serFields at hf
      split at hf
      · cases hf
      · rw [hints_eq_fields (by rw [hk]; simp)] at hf; exact hf
    rw [seen_of_plain (hw f hf)]
    exact hn f hf

theorem Ground.static {env : Env} {t : Ty} (h : Ground env t) {c : Nat} (hs : Static t c) : Ground env (.cls c) := by
  induction h with
  | leaf h =>
    simp only [plainTys, List.mem_cons, List.not_mem_nil, or_false] at h
    rcases h with rfl | rfl | rfl | rfl | rfl | rfl | rfl | rfl | rfl <;> cases hs
  | literal => cases hs
  | annotated _ ih => cases hs with | annotated hs => exact ih hs
  | list _ ih => cases hs with | list hs => exact ih hs
  | enum h => cases hs
  | union => cases hs
  | cls h1 h2 h3 h4 _ => cases hs; exact .cls h1 h2 h3 h4

theorem Ground.needed {env : Env} {t : Ty} (h : Ground env t) {c : Nat} (hs : Needed env t c) : Ground env (.cls c) := by
  induction hs with
  | here hs => exact h.static hs
  | next _ hn ih =>
    obtain ⟨cd, hc, _, f, hf, hst⟩ := hn
    cases ih with
    | leaf h => simp [plainTys] at h
    | cls h1 h2 _ h3 =>
      rw [hc] at h1; cases h1
      rw [hints_eq_fields (by rw [h2]; simp)] at hf
      exact (h3 f hf).static hst

theorem Ground.serCreate {env : Env} {t : Ty} (h : Ground env t) : serCreate env t = .ok () := by
  have hs : Scoped env t := by
    intro c hc
    cases h.needed hc with
    | leaf h => simp [plainTys] at h
    | cls h1 => exact ⟨_, h1⟩
  obtain ⟨n, hn⟩ := h.creates
  have hne : Verif.serCreate env t ≠ .error .recursion := by
    intro he
    rw [C48_depth env t hs he n] at hn
    cases hn
  rcases Nat.le_total n env.classes.length with hl | hl
  · exact createWith_mono (fun c h => createCls_mono _ _ c hl h) _ hn
  · have := createWith_stable (env := env) (fun c => createCls_stable hl c) t hne
    rw [hn] at this
    exact this.symm

theorem exists_get {l : List α} {m : List β} (h : l.length = m.length) {i : Nat} {x : α} (hx : l[i]? = some x) :
    ∃ y, m[i]? = some y := by
  have := (List.getElem?_eq_some_iff.1 hx).1
  exact ⟨m[i], List.getElem?_eq_getElem (by omega)⟩

theorem Mirror.groundA {A B : Env} {t u : Ty} (h : Mirror A B t u) : Ground A t := by
  induction h with
  | leaf h => exact .leaf h
  | literal => exact .literal
  | annotatedL _ ih => exact .annotated ih
  | annotatedR _ ih => exact ih
  | list _ ih => exact .list ih
  | enum h => exact .enum h
  | cls h1 h2 h3 _ _ _ _ hl _ hx _ ih =>
    refine .cls h1 h3 ?_ ?_ <;> intro f hf <;> obtain ⟨i, hi⟩ := List.getElem?_of_mem hf <;> obtain ⟨f', hf'⟩ := exists_get hl hi
    · exact (hx i f f' hi hf').2.2.2.2.2.1
    · exact (ih i f f' hi hf').of_required

theorem Mirror.groundB {A B : Env} {t u : Ty} (h : Mirror A B t u) : Ground B u := by
  induction h with
  | leaf h => exact .leaf h
  | literal => exact .literal
  | annotatedL _ ih => exact ih
  | annotatedR _ ih => exact .annotated ih
  | list _ ih => exact .list ih
  | enum _ h => exact .enum h
  | cls h1 h2 _ h3 _ _ _ hl _ hx _ ih =>
    refine .cls h2 h3 ?_ ?_ <;> intro f' hf <;> obtain ⟨i, hi⟩ := List.getElem?_of_mem hf <;> obtain ⟨f, hf'⟩ := exists_get hl.symm hi
    · exact (hx i f f' hf' hi).2.2.2.2.2.2
    · exact (ih i f f' hf' hi).of_required

/-! ### Values -/

theorem Mirror.not_none {A B : Env} {t u : Ty} (h : Mirror A B t u) : ¬ HasTy A .none t ∧ ¬ HasTy B .none u := by
  induction h with
  | leaf h =>
    simp only [plainTys, List.mem_cons, List.not_mem_nil, or_false] at h
    constructor <;> intro hv <;> cases hv <;> simp at h
  | @literal l _ h =>
    constructor <;> intro hv <;> cases hv with
    | @literal _ _ l' h1 h2 => rw [List.mem_singleton] at h1; subst h1; cases l' <;> simp [Lit.toVal] at h2 h
  | annotatedL _ ih => exact ⟨fun hv => by cases hv with | annotated hv => exact ih.1 hv, ih.2⟩
  | annotatedR _ ih => exact ⟨ih.1, fun hv => by cases hv with | annotated hv => exact ih.2 hv⟩
  | list => constructor <;> intro hv <;> cases hv
  | enum => constructor <;> intro hv <;> cases hv
  | cls => constructor <;> intro hv <;> cases hv

theorem mirror_fields {A B : Env} {k k' : ClassKind} : ∀ {fds fds' : List FieldDef} {fs : List (Str × Val)},
    fds.length = fds'.length → fs.map Prod.fst = fds.map FieldDef.name →
    (∀ (i : Nat) f f' w, fds[i]? = some f → fds'[i]? = some f' → fs[i]? = some w → writeProp k f = writeProp k' f' ∧
      ((w.2 = .none ∧ HasTy B .none f'.ty) ∨ (w.2 ≠ .none ∧ ∃ w' x, w' ≠ .none ∧ HasTy B w' f'.ty ∧ Encodable w' ∧
        gen A w.2 f.ty = .ok x ∧ gen B w' f'.ty = .ok x))) →
    ∃ fs' ps, fs'.map Prod.fst = fds'.map FieldDef.name ∧
      (∀ (i : Nat) f' w', fds'[i]? = some f' → fs'[i]? = some w' → HasTy B w'.2 f'.ty) ∧ (∀ kv ∈ fs', Encodable kv.2) ∧
      WritesFields A k fds fs ps ∧ WritesFields B k' fds' fs' ps := by
  intro fds
  induction fds with
  | nil =>
    intro fds' fs hl hn _
    cases fds' with
    | cons => simp at hl
    | nil =>
      cases fs with
      | cons => simp at hn
      | nil => exact ⟨[], [], rfl, by simp, by simp, .nil, .nil⟩
  | cons f fds ih =>
    intro fds' fs hl hn h
    cases fds' with
    | nil => simp at hl
    | cons f' fds' =>
      cases fs with
      | nil => simp at hn
      | cons w fs =>
        obtain ⟨n, w⟩ := w
        simp only [List.map_cons, List.cons.injEq] at hn
        obtain ⟨rfl, hn⟩ := hn
        obtain ⟨fs', ps, h1, h2, h3, h4, h5⟩ := ih (fds' := fds') (fs := fs) (by simpa using hl) hn
          fun i g g' y hg hg' hy => h (i + 1) g g' y (by simpa using hg) (by simpa using hg') (by simpa using hy)
        obtain ⟨hp, hc⟩ := h 0 f f' (f.name, w) rfl rfl rfl
        rcases hc with ⟨hw, ht⟩ | ⟨hw, w', x, hw', ht, he, g1, g2⟩
        · simp only at hw
          subst hw
          refine ⟨(f'.name, .none) :: fs', ps, by simp [h1], ?_, ?_, .skip h4, .skip h5⟩
          · rintro (_ | i) g y hg hy
            · cases hg; cases hy; exact ht
            · exact h2 i g y (by simpa using hg) (by simpa using hy)
          · intro kv hkv
            rcases List.mem_cons.1 hkv with rfl | hkv
            · exact .leaf rfl (by simp) (by simp) (by simp)
            · exact h3 kv hkv
        · refine ⟨(f'.name, w') :: fs', (writeProp k f, x) :: ps, by simp [h1], ?_, ?_, .put hw g1 h4, ?_⟩
          · rintro (_ | i) g y hg hy
            · cases hg; cases hy; exact ht
            · exact h2 i g y (by simpa using hg) (by simpa using hy)
          · intro kv hkv
            rcases List.mem_cons.1 hkv with rfl | hkv
            · exact he
            · exact h3 kv hkv
          · rw [hp]; exact .put hw' g2 h5

theorem mapRes_same {f : α → Res γ} : ∀ {vs : List α} {g : β → Res γ} {P : β → Prop},
    (∀ v ∈ vs, ∃ w x, P w ∧ f v = .ok x ∧ g w = .ok x) → ∃ ws xs, (∀ w ∈ ws, P w) ∧ mapRes f vs = .ok xs ∧ mapRes g ws = .ok xs
  | [], _, _, _ => ⟨[], [], by simp, rfl, rfl⟩
  | v :: vs, g, P, h => by
    obtain ⟨ws, xs, h1, h2, h3⟩ := mapRes_same (vs := vs) (g := g) (P := P) fun v hv => h v (by simp [hv])
    obtain ⟨w, x, h4, h5, h6⟩ := h v (by simp)
    refine ⟨w :: ws, x :: xs, ?_, by simp [mapRes, h5, h2], by simp [mapRes, h6, h3]⟩
    intro y hy
    rcases List.mem_cons.1 hy with rfl | hy
    · exact h4
    · exact h1 y hy

theorem objectToJson_leaf {A B : Env} {v : Val} {t : Ty} (ht : t ∈ plainTys) (hv : HasTy A v t) :
    HasTy B v t ∧ objectToJson A v = objectToJson B v := by
  cases hv with
  | bool => exact ⟨.bool, rfl⟩
  | int => exact ⟨.int, rfl⟩
  | float => exact ⟨.float, rfl⟩
  | str => exact ⟨.str, rfl⟩
  | datetime h => exact ⟨.datetime h, rfl⟩
  | date h => exact ⟨.date h, rfl⟩
  | time h => exact ⟨.time h, rfl⟩
  | timedelta h => exact ⟨.timedelta h, rfl⟩
  | uuid h => exact ⟨.uuid h, rfl⟩
  | _ => simp [plainTys] at ht

theorem plain_scalar {t : Ty} (h : t ∈ plainTys) : t ∈ scalarTys := by
  simp only [plainTys, List.mem_cons, List.not_mem_nil, or_false] at h
  rcases h with rfl | rfl | rfl | rfl | rfl | rfl | rfl | rfl | rfl <;> simp [scalarTys]

/-- Every value that can be written has a counterpart that is written alike. -/
theorem Mirror.image {A B : Env} (hA : A.Ok) (hB : B.Ok) {t u : Ty} (h : Mirror A B t u) : ∀ v, HasTy A v t → Encodable v →
    ∃ w j, HasTy B w u ∧ Encodable w ∧ objectToJson A v = .ok j ∧ objectToJson B w = .ok j := by
  induction h with
  | leaf h =>
    intro v hv he
    obtain ⟨h1, h2⟩ := objectToJson_leaf (B := B) h hv
    obtain ⟨j, h3, _⟩ := scalar_roundtrip A false (plain_scalar h) hv he
    exact ⟨v, j, h1, he, h3, h2 ▸ h3⟩
  | @literal l hl _ =>
    intro v hv he
    cases hv with
    | @literal _ _ l' h1 h2 =>
      rw [List.mem_singleton] at h1
      subst h1 h2
      cases l' with
      | enum e m => exact absurd rfl (hl e m)
      | _ => exact ⟨_, _, .literal (List.mem_singleton.2 rfl) rfl, he, rfl, rfl⟩
  | annotatedL _ ih => intro v hv; cases hv with | annotated hv => exact ih v hv
  | annotatedR _ ih =>
    intro v hv he
    obtain ⟨w, j, h1, h2⟩ := ih v hv he
    exact ⟨w, j, .annotated h1, h2⟩
  | @list t u _ ih =>
    intro v hv he
    cases hv with
    | @list vs _ hvs =>
      have hel : ∀ v ∈ vs, Encodable v := by cases he with | leaf h => cases h | list h => exact h
      obtain ⟨ws, xs, h1, h2, h3⟩ := mapRes_same (f := objectToJson A) (g := objectToJson B)
        (P := fun w => HasTy B w u ∧ Encodable w) (vs := vs) fun v hv => by
          obtain ⟨w, j, g1, g2, g3, g4⟩ := ih v (hvs v hv) (hel v hv)
          exact ⟨w, j, ⟨g1, g2⟩, g3, g4⟩
      exact ⟨.list ws, .arr xs, .list fun w hw => (h1 w hw).1, .list fun w hw => (h1 w hw).2, by rw [dyn_list, h2]; rfl,
        by rw [dyn_list, h3]; rfl⟩
  | @enum e e' ed ed' h1 h2 h3 h4 h5 h6 =>
    intro v hv he
    cases hv with
    | @enum _ m _ h7 h8 =>
      rw [h1] at h7; cases h7
      have hlen : ed.members.length = ed'.members.length := by simpa using congrArg List.length h5
      have hm := List.getElem?_eq_getElem h8
      have hm' := List.getElem?_eq_getElem (l := ed'.members) (i := m) (by omega)
      have hv : (ed.members[m]).2 = (ed'.members[m]'(by omega)).2 := by
        have := congrArg (fun l => l[m]?) h5
        simpa [hm, hm'] using this
      refine ⟨.enum e' m, (ed.members[m]).2.toJson, .enum h2 (by omega), .leaf rfl (by simp) (by simp) (by simp), ?_, ?_⟩
      · simp [objectToJson, dumps, typeOf, serCreate, createWith, h1, gen, genD, genShape, genEnum, h3, enumValue, hm]
      · simp [objectToJson, dumps, typeOf, serCreate, createWith, h2, gen, genD, genShape, genEnum, h4, enumValue, hm', hv]
  | @cls c c' cd cd' q h1 h2 hk hk' ht ht' hf' hl hn hf hm ih =>
    intro v hv he
    have nk : cd.kind ≠ .namedTuple false := by rw [hk]; simp
    have nk' : cd'.kind ≠ .namedTuple false := by rw [hk']; simp
    have gA : Ground A (.cls c) := (Mirror.cls h1 h2 hk hk' ht ht' hf' hl hn hf hm).groundA
    have gB : Ground B (.cls c') := (Mirror.cls h1 h2 hk hk' ht ht' hf' hl hn hf hm).groundB
    obtain ⟨fs, rfl, hfs, hty⟩ := hasTy_cls_inv h1 nk (by rw [hk]; simp) hv
    have hel : ∀ kv ∈ fs, Encodable kv.2 := by cases he with | leaf h => cases h | obj h => exact h
    have hprops : (cd'.fields.map (writeProp cd'.kind)) = cd.fields.map (writeProp cd.kind) := by
      apply List.ext_getElem?
      intro i
      simp only [List.getElem?_map]
      cases hi : cd.fields[i]? with
      | none =>
        have : cd'.fields[i]? = none := by rw [List.getElem?_eq_none_iff] at hi ⊢; omega
        simp [this]
      | some f =>
        obtain ⟨f', hi'⟩ := exists_get hl hi
        obtain ⟨a1, a2, -⟩ := hf i f f' hi hi'
        simp [hi', a1, a2]
    obtain ⟨fs', ps, g1, g2, g3, g4, g5⟩ := mirror_fields (A := A) (B := B) (k := cd.kind) (k' := cd'.kind) hl hfs (by
      intro i f f' w hi hi' hw
      obtain ⟨a1, a2, a3, a4, a5, -⟩ := hf i f f' hi hi'
      refine ⟨a1.trans a2.symm, ?_⟩
      have hwt := hty i f w hi hw
      have hfm := List.mem_of_getElem? hi
      have hfm' := List.mem_of_getElem? hi'
      by_cases hn : w.2 = .none
      · refine .inl ⟨hn, ?_⟩
        rw [hn] at hwt
        have ho : f.ty.isOptional = true := by
          cases ho : f.ty.isOptional with
          | true => rfl
          | false =>
            have := (hm i f f' hi hi').not_none.1
            rw [show f.ty.required = f.ty by simp [Ty.required, ho]] at this
            exact absurd hwt this
        rw [a5, ho]
        exact .union (t := .none) (by simp) .none
      · refine .inr ⟨hn, ?_⟩
        obtain ⟨w', j, b1, b2, b3, b4⟩ := ih i f f' hi hi' w.2 (hasTy_required_of hn hwt) (hel w (List.mem_of_getElem? hw))
        have hw' : HasTy B w' f'.ty := by
          rw [a5]
          split
          · exact .union (by simp) b1
          · exact b1
        refine ⟨w', j, ?_, hw', b2, ?_, ?_⟩
        · rintro rfl
          exact (hm i f f' hi hi').not_none.2 b1
        · rw [gen_field h1 ht nk gA.serCreate hfm hwt]; exact b3
        · rw [gen_field h2 ht' nk' gB.serCreate hfm' hw']; exact b4)
    refine ⟨.obj c' fs', .obj ps, ?_, .obj g3, ?_, ?_⟩
    · refine .cls h2 g1 ?_
      rw [hints_eq_fields nk']
      exact g2
    · exact (objectToJson_standard hA h1 ht nk (by rw [hk]; simp) hn hfs).2 ⟨gA.serCreate, ps, rfl, g4⟩
    · exact (objectToJson_standard hB h2 ht' nk' (by rw [hk']; simp) (by rw [hprops]; exact hn) g1).2
        ⟨gB.serCreate, ps, rfl, g5⟩

/-! ### The round trip in the second program -/

theorem Mirror.invertible {A B : Env} {t u : Ty} (h : Mirror A B t u) :
    Invertible B (fun c => ∃ b, Mirror A B (.cls b) (.cls c)) u := by
  induction h with
  | leaf h => exact .scalar (plain_scalar h)
  | @literal l hl _ =>
    refine .literal ⟨l.ty, by simp, by simp⟩ fun e m hm => ?_
    rw [List.mem_singleton] at hm
    exact absurd hm.symm (hl e m)
  | annotatedL _ ih => exact ih
  | annotatedR _ ih => exact .annotated ih
  | list _ ih => exact .list ih
  | @enum e e' ed ed' h1 h2 h3 h4 h5 h6 =>
    refine .enum ⟨ed', h2, h4, fun p hp => ?_⟩
    have : p.2 ∈ ed.members.map (·.2) := h5 ▸ List.mem_map_of_mem hp
    obtain ⟨m, hm, he⟩ := List.mem_map.1 this
    obtain ⟨s, hs⟩ := h6 m hm
    rw [← he, hs]
    simp
  | cls h1 h2 hk hk' ht ht' hf' hl hn hf hm _ => exact .cls ⟨_, .cls h1 h2 hk hk' ht ht' hf' hl hn hf hm⟩

theorem Mirror.classInvertible {A B : Env} {c : Nat} (h : ∃ b, Mirror A B (.cls b) (.cls c)) :
    ClassInvertible B (fun c => ∃ b, Mirror A B (.cls b) (.cls c)) c := by
  obtain ⟨b, h⟩ := h
  have gB := h.groundB
  generalize ht : Ty.cls b = t at h
  generalize hu : Ty.cls c = u at h
  cases h with
  | leaf h => subst hu; simp [plainTys] at h
  | literal | annotatedL | list | enum => cases ht
  | annotatedR => cases hu
  | @cls c0 c' cd cd' q h1 h2 hk hk' ht ht' hf' hl hn hf hm =>
    cases hu
    have nk' : cd'.kind ≠ .namedTuple false := by rw [hk']; simp
    have hget : ∀ f' ∈ cd'.fields, ∃ (i : Nat) (f : FieldDef), cd.fields[i]? = some f ∧ cd'.fields[i]? = some f' := by
      intro f' hf'
      obtain ⟨i, hi⟩ := List.getElem?_of_mem hf'
      obtain ⟨f, hi'⟩ := exists_get hl.symm hi
      exact ⟨i, f, hi', hi⟩
    refine .standard cd' h2 ht' ?_ nk' (by rw [hk']; simp) gB.serCreate ?_ ?_ ?_ ?_
    · simp [ClassDef.custom, hf', hk']
    · have : (cd'.fields.map (writeProp cd'.kind)) = cd.fields.map (writeProp cd.kind) := by
        apply List.ext_getElem?
        intro i
        simp only [List.getElem?_map]
        cases hi : cd.fields[i]? with
        | none =>
          have : cd'.fields[i]? = none := by rw [List.getElem?_eq_none_iff] at hi ⊢; omega
          simp [this]
        | some f =>
          obtain ⟨f', hi'⟩ := exists_get hl hi
          obtain ⟨a1, a2, -⟩ := hf i f f' hi hi'
          simp [hi', a1, a2]
      rw [this]; exact hn
    · intro f' hf'
      obtain ⟨i, f, hi, hi'⟩ := hget f' hf'
      obtain ⟨a1, a2, a3, -⟩ := hf i f f' hi hi'
      rw [a2, a3]
    · intro f' hf'
      obtain ⟨i, f, hi, hi'⟩ := hget f' hf'
      rw [hk']
      exact (hm i f f' hi hi').invertible
    · intro f' hf' hnone
      obtain ⟨i, f, hi, hi'⟩ := hget f' hf'
      obtain ⟨-, -, -, a4, a5, -⟩ := hf i f f' hi hi'
      have : f'.ty.isOptional = true := by
        rw [a5] at hnone ⊢
        split at hnone
        · rename_i ho; rw [if_pos ho]; rfl
        · exact absurd hnone (hm i f f' hi hi').not_none.2
      rw [hk']
      simp [absentValue, a4, this]

/-- What is written for a value of the first type is read by the second one, and written alike. -/
theorem Mirror.roundtrip {A B : Env} (hA : A.Ok) (hB : B.Ok) {t u : Ty} (h : Mirror A B t u) (v : Val) (hv : HasTy A v t)
    (he : Encodable v) (skip : Bool) :
    ∃ j w, objectToJson A v = .ok j ∧ loads B skip u j = .ok w ∧ HasTy B w u ∧ objectToJson B w = .ok j := by
  obtain ⟨w, j, h1, h2, h3, h4⟩ := h.image hA hB v hv he
  obtain ⟨j', h5, h6⟩ := C11_roundtrip_partial B hB _ (fun c hc => Mirror.classInvertible hc) u h.invertible w h1 h2 skip
  rw [h4] at h5
  cases h5
  exact ⟨j, w, h3, h6, h1, h4⟩

end Verif
