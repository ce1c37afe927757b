import Verif.Lemmas.ClassBuildTr
/-!
# Types made from schemas without unions
-/
namespace Verif

/-- Types without unions other than those with `None`, and without fields that are read under another name. -/
inductive Simple (env : Env) : Ty → Prop
  | leaf {t} : t ∈ [Ty.bool, .int, .float, .str, .datetime, .date, .time, .timedelta, .uuid, .ipv4, .ipv6] → Simple env t
  | literal {l} : (∀ e m, l ≠ Lit.enum e m) → Simple env (.literal [l])
  | enum {e ed} : env.enums[e]? = some ed → Simple env (.enum e)
  | annotated {t ms} : t ∈ [Ty.int, .float, .str] → aliasIn ms = Option.none → Simple env (.annotated t ms)
  | list {t} : Simple env t → Simple env (.list t)
  | cls {c cd} : env.classes[c]? = some cd → cd.kind = .dataclass false → cd.fromJson = Option.none →
      (∀ f ∈ cd.fields, fieldProp cd.kind f = f.name) → (∀ f ∈ cd.fields, Simple env (fieldTy cd.kind f)) → Simple env (.cls c)

theorem Simple.plain {env : Env} {t : Ty} (h : Simple env t) : Plain env t := by
  induction h with
  | leaf h => exact .leaf h
  | literal h => exact .literal h
  | enum h => exact .enum h
  | annotated h _ =>
    refine .annotated (.leaf ?_)
    simp only [List.mem_cons, List.not_mem_nil, or_false] at h
    rcases h with rfl | rfl | rfl <;> simp
  | list _ ih => exact .list ih
  | cls h1 h2 h3 h4 _ ih => exact .cls h1 h2 h3 h4 ih

theorem Simple.mono {A B : Env} {t : Ty} (h : Simple A t) (hg : Grows A B) : Simple B t := by
  induction h with
  | leaf h => exact .leaf h
  | literal h => exact .literal h
  | enum h => obtain ⟨m, hm⟩ := hg.enums _ _ h; exact .enum hm
  | annotated h h' => exact .annotated h h'
  | list _ ih => exact .list ih
  | cls h1 h2 h3 h4 _ ih => obtain ⟨m, hm⟩ := hg.classes _ _ h1; exact .cls hm h2 h3 h4 ih

theorem Simple.piece {env : Env} {t : Ty} (h : Simple env t) : Piece t := by
  cases h with
  | leaf h => exact piece_leaf h
  | annotated h _ =>
    simp only [List.mem_cons, List.not_mem_nil, or_false] at h
    rcases h with rfl | rfl | rfl <;> exact ⟨rfl, rfl, rfl⟩
  | _ => exact ⟨rfl, rfl, rfl⟩

theorem Simple.alias {env : Env} {t : Ty} (h : Simple env t) : t.alias = Option.none := by
  cases h with
  | leaf h =>
    simp only [List.mem_cons, List.not_mem_nil, or_false] at h
    rcases h with rfl | rfl | rfl | rfl | rfl | rfl | rfl | rfl | rfl | rfl | rfl <;> rfl
  | annotated _ h => exact h
  | _ => rfl

theorem Tame.sub {s x : Json} (h : Tame s) (hx : x.Within s) : Tame x := fun kvs hk => h kvs (hk.trans hx)

/-- What stays true while types are made. -/
structure StOk (st : BuildSt) : Prop where
  tidy : st.env.Tidy
  attrs : ∀ k T, lookupKey k st.attrs = some T → Simple st.env T

/-- What is true of a node. -/
def NodeSimple (cfg : BuildCfg) (n : TNode) : Prop :=
  ∀ s ctx st d st', Denotes n s → Tame s → StOk st → nodeToTypedef cfg n ctx st = .ok (d, st') →
    Grows st.env st'.env ∧ StOk st' ∧ Simple st'.env d.ty

theorem pyEnumUnique_pairwise {cls : Str} {vs ms : List (Str × Scalar)} (h : pyEnumUnique cls vs = .ok ms) :
    ms.Pairwise (fun a b => a.2.pyEq b.2 = false) := by
  unfold pyEnumUnique at h
  split at h
  · cases h
  rename_i ms' as h1
  split at h
  · rename_i ha
    cases h
    unfold pyEnum at h1
    split at h1
    · cases h1
    rename_i l hl
    split at h1
    · cases h1
    have h1 := Except.ok.inj h1
    have has : as = [] := by simpa using ha
    subst has
    have hp := splitAliases_snd [] l .nil (by rw [h1])
    rw [splitAliases_ok [] l hp] at h1
    cases h1
    exact hp
  · cases h

theorem checkFieldNames_nodup {cfg : BuildCfg} {ns seen : List Str} (h : checkFieldNames cfg seen ns = .ok ()) :
    ns.Nodup ∧ ∀ n ∈ ns, n ∉ seen := by
  induction ns generalizing seen with
  | nil => simp
  | cons n ns ih =>
    unfold checkFieldNames at h
    split at h
    · cases h
    split at h
    · cases h
    split at h
    · cases h
    rename_i hseen
    split at h
    · cases h
    obtain ⟨h1, h2⟩ := ih h
    refine ⟨List.nodup_cons.2 ⟨fun hm => h2 n hm (by simp), h1⟩, fun m hm => ?_⟩
    rcases List.mem_cons.1 hm with rfl | hm
    · exact hseen
    · exact fun hs => h2 m hm (by simp [hs])

/-! ### Leaves -/

theorem int_toTy {env : Env} (t : IntType) : Simple env t.toTy := by
  cases t with
  | int => exact .leaf (by simp [IntType.toTy])
  | lit i => exact .literal (by simp)
  | _ => exact .annotated (by simp) rfl

theorem number_simple {env : Env} {f : Option Str} {a b c : Option PyFloat} {t : Ty} (h : numberType f a b c = .ok t) :
    Simple env t := by
  unfold numberType at h
  split at h
  · cases h; exact .annotated (by simp) rfl
  split at h
  · cases h; exact .annotated (by simp) rfl
  split at h
  · cases h
  split at h
  · cases h
  split at h
  · cases h
  · cases h; exact .leaf (by simp)

theorem StOk.set {st : BuildSt} (h : StOk st) {E : Env} (hE : E.Tidy) (hg : Grows st.env E) {ctx : Str} {t : Ty} (ht : Simple E t)
    {p : List Ty} : StOk ⟨E, upsert ctx t st.attrs, p⟩ := by
  refine ⟨hE, fun k T hk => ?_⟩
  simp only [lookupKey_upsert] at hk
  split at hk
  · cases hk; exact ht
  · exact (h.attrs k T hk).mono hg

theorem stringType_simple {cfg : BuildCfg} {ctx : Str} {st st' : BuildSt} {f : Option Str} {e : Option (List Str)}
    {m : Option Int} {t : Ty} (ho : StOk st) (h : stringType cfg ctx st f e m = .ok (t, st')) :
    Grows st.env st'.env ∧ StOk st' ∧ Simple st'.env t := by
  unfold stringType at h
  split at h
  · rename_i t' hf
    cases h
    obtain ⟨p, hp, hm⟩ := formatType_mem hf
    refine ⟨.refl _, ho, .leaf ?_⟩
    simp [textFormats] at hm
    rcases hm with ⟨_, rfl⟩ | ⟨_, rfl⟩ | ⟨_, rfl⟩ | ⟨_, rfl⟩ | ⟨_, rfl⟩ | ⟨_, rfl⟩ | ⟨_, rfl⟩ <;> simp
  · split at h
    · rename_i vs
      unfold makeEnum at h
      split at h
      · cases h
      split at h
      · cases h
      rename_i ms hms
      cases h
      have hg : Grows st.env { st.env with enums := st.env.enums ++ [{ module := cfg.modName, name := ctx, members := ms }] } :=
        ⟨fun c cd h => ⟨_, h⟩, fun e ed h => ⟨ed.module, getElem?_concat_lt h⟩⟩
      have hs : Simple { st.env with enums := st.env.enums ++ [{ module := cfg.modName, name := ctx, members := ms }] }
          (.enum st.env.enums.length) := .enum (by simp; rfl)
      refine ⟨hg, ho.set (E := { st.env with enums := st.env.enums ++ [{ module := cfg.modName, name := ctx, members := ms }] })
        ⟨?_, ho.tidy.fields, ho.tidy.setOrder⟩ hg hs, hs⟩
      intro ed hed
      rcases List.mem_append.1 hed with hed | hed
      · exact ho.tidy.enums ed hed
      · simp only [List.mem_singleton] at hed
        subst hed
        exact pyEnumUnique_pairwise hms
    · split at h
      · cases h; exact ⟨.refl _, ho, .annotated (by simp) rfl⟩
      · cases h
      · cases h; exact ⟨.refl _, ho, .leaf (by simp)⟩

/-! ### Fields -/

/-- What is true of fields. -/
def FieldSimple (env : Env) (f : FieldDef) : Prop :=
  fieldProp (.dataclass false) f = f.name ∧ Simple env (fieldTy (.dataclass false) f)

theorem propField_simple {env : Env} {req : List Str} {name : Str} {d : TypeDef} {f : FieldDef} (hd : Simple env d.ty)
    (hn : fieldToProperty name Option.none = name) (h : propField req name d = .ok f) : FieldSimple env f := by
  unfold propField at h
  split at h
  · cases h
  rename_i t ht
  cases h
  have hp := hd.piece
  split at ht
  · cases ht
    refine ⟨?_, ?_⟩
    · simp only [fieldProp, hd.alias]; exact hn
    · simp only [fieldTy, Ty.required, hp.2.1]; exact hd
  · have hu : pyUnion [.none, d.ty] = .ok (.union [.none, d.ty]) := by
      have hne : Ty.same .none d.ty = false := by
        have := hp.2.2
        cases hdt : d.ty <;> rw [hdt] at this <;> first | with_unfolding_all rfl | exact absurd this (by simp [Ty.isNone])
      simp only [pyUnion, flattenUnions_eq, List.flatMap_cons, hp.1, List.flatMap_nil]
      simp [pieces, dedupTys, hne]
    rw [hu] at ht
    cases ht
    refine ⟨?_, ?_⟩
    · simp only [fieldProp, Ty.alias]; exact hn
    · have hdn := hp.2.2
      simp only [fieldTy]
      have : (Ty.union [.none, d.ty]).required = d.ty := by
        simp only [Ty.required, Ty.isOptional, Ty.unwrapOptional, Ty.unwrapAnn, Ty.unionArgs]
        have hnn : Ty.none.isNone = true := rfl
        simp [Ty.unwrapOpt, hdn, hnn]
      rw [this]; exact hd

theorem props_simple {cfg : BuildCfg} {ps : List (Str × TNode)} (hn : ∀ p ∈ ps, NodeSimple cfg p.2) (ctx : Str) (req : List Str) :
    ∀ xs st fs st', DenotesD ps xs → (∀ x ∈ xs, Tame x.2) → (∀ x ∈ xs, fieldToProperty x.1 Option.none = x.1) → StOk st →
      propTypedefs cfg ps ctx req st = .ok (fs, st') →
      Grows st.env st'.env ∧ StOk st' ∧ ∀ f ∈ fs, FieldSimple st'.env f := by
  induction ps with
  | nil =>
    intro xs st fs st' _ _ _ ho h
    cases h
    exact ⟨.refl _, ho, by simp⟩
  | cons p ps ih =>
    obtain ⟨k, n⟩ := p
    intro xs st fs st' hd ht hp ho h
    cases xs with
    | nil => exact hd.elim
    | cons x xs =>
      obtain ⟨l, x⟩ := x
      obtain ⟨rfl, hd1, hd2⟩ := hd
      simp only [propTypedefs] at h
      split at h
      · cases h
      rename_i d1 st1 h1
      split at h
      · cases h
      rename_i f hf
      split at h
      · cases h
      rename_i fs1 st2 h2
      cases h
      obtain ⟨g1, g2, g3⟩ := hn (k, n) (by simp) x _ st d1 st1 hd1 (ht (k, x) (by simp)) ho h1
      obtain ⟨k1, k2, k3⟩ := ih (fun n hm => hn n (by simp [hm])) xs st1 fs1 _ hd2 (fun x hx => ht x (by simp [hx]))
        (fun x hx => hp x (by simp [hx])) g2 h2
      refine ⟨g1.trans k1, k2, fun f' hf' => ?_⟩
      rcases List.mem_cons.1 hf' with rfl | hf'
      · have := propField_simple g3 (hp (k, x) (by simp)) hf
        exact ⟨this.1, this.2.mono k1⟩
      · exact k3 f' hf'

/-! ### All nodes -/

theorem obj_simple {cfg : BuildCfg} {ps : List (Str × TNode)} (hn : ∀ p ∈ ps, NodeSimple cfg p.2) (a req) :
    NodeSimple cfg (.obj (some ps) a req) := by
  intro s ctx st d st' hd ht ho h
  obtain ⟨kvs, xs, rfl, _, hx, hdx, _, _⟩ := hd
  simp only [nodeToTypedef] at h
  split at h
  · cases h
  split at h
  · cases h
  rename_i fs st1 h1
  obtain ⟨g1, g2, g3⟩ := props_simple hn ctx (req.getD []) xs st fs st1 hdx
    (fun x hm => ht.sub (Json.Within.trans (.obj hm .self) (within_lookup hx))) ((ht kvs .self).2 xs hx) ho h1
  unfold makeDataclass at h
  split at h
  · cases h
  rename_i hc
  split at h
  · cases h
  split at h
  · cases h
  cases h
  have hg : Grows st1.env { st1.env with classes := st1.env.classes ++ [{ module := cfg.modName, name := ctx, kind := .dataclass false, fields := defaultsLast fs }] } :=
    ⟨fun c cd h => ⟨cd.module, getElem?_concat_lt h⟩, fun e ed h => ⟨_, h⟩⟩
  have hs : Simple { st1.env with classes := st1.env.classes ++ [{ module := cfg.modName, name := ctx, kind := .dataclass false, fields := defaultsLast fs }] }
      (.cls st1.env.classes.length) := by
    refine .cls (cd := { module := cfg.modName, name := ctx, kind := .dataclass false, fields := defaultsLast fs }) (by simp) rfl rfl ?_ ?_
    · exact fun f hf => (g3 f ((defaultsLast_perm fs).mem_iff.1 hf)).1
    · exact fun f hf => (g3 f ((defaultsLast_perm fs).mem_iff.1 hf)).2.mono hg
  refine ⟨g1.trans hg, g2.set (E := { st1.env with classes := st1.env.classes ++ [{ module := cfg.modName, name := ctx, kind := .dataclass false, fields := defaultsLast fs }] })
    ⟨g2.tidy.enums, ?_, g2.tidy.setOrder⟩ hg hs, hs⟩
  intro cd hcd
  rcases List.mem_append.1 hcd with hcd | hcd
  · exact g2.tidy.fields cd hcd
  · simp only [List.mem_singleton] at hcd
    subst hcd
    exact (checkFieldNames_nodup hc).1

theorem node_simple (cfg : BuildCfg) (n : TNode) : NodeSimple cfg n := by
  generalize hsz : sizeOf n = sz
  induction sz using Nat.strongRecOn generalizing n with
  | _ sz ih =>
    subst hsz
    cases n with
    | ref r =>
      intro s ctx st d st' hd hs ho h
      simp only [nodeToTypedef, refTypedef] at h
      split at h
      · cases h
      split at h
      · rename_i t ht
        cases h
        exact ⟨.refl _, ho, ho.attrs _ _ ht⟩
      · cases h
    | bool c dv =>
      intro s ctx st d st' hd hs ho h
      simp only [nodeToTypedef, boolTypedef] at h
      split at h
      · cases h; exact ⟨.refl _, ho, .literal (by simp)⟩
      · obtain ⟨h1, rfl⟩ := typeWithDefault_ok h
        rw [h1]
        exact ⟨.refl _, ho, .leaf (by simp)⟩
    | int =>
      intro s ctx st d st' hd hs ho h
      simp only [nodeToTypedef, intTypedef] at h
      split at h
      · cases h
      · cases h; exact ⟨.refl _, ho, .literal (by simp)⟩
      · obtain ⟨h1, rfl⟩ := typeWithDefault_ok h
        rw [h1]
        exact ⟨.refl _, ho, int_toTy _⟩
    | num =>
      intro s ctx st d st' hd hs ho h
      simp only [nodeToTypedef, numTypedef] at h
      split at h
      · cases h
      split at h
      · cases h
      rename_i t ht
      obtain ⟨h1, rfl⟩ := typeWithDefault_ok h
      rw [h1]
      exact ⟨.refl _, ho, number_simple ht⟩
    | str =>
      intro s ctx st d st' hd hs ho h
      simp only [nodeToTypedef, strTypedef] at h
      split at h
      · cases h; exact ⟨.refl _, ho, .literal (by simp)⟩
      split at h
      · cases h
      rename_i t st1 ht
      obtain ⟨h1, rfl⟩ := typeWithDefault_ok h
      rw [h1]
      exact stringType_simple ho ht
    | arr n =>
      intro s ctx st d st' hd hs ho h
      obtain ⟨kvs, x, rfl, _, hx, hdx⟩ := hd
      simp only [nodeToTypedef] at h
      split at h
      · cases h
      rename_i d1 st1 h1
      obtain ⟨g1, g2, g3⟩ := ih _ (by simp) n rfl x ctx st d1 st1 hdx (hs.sub (within_lookup hx)) ho h1
      unfold listTypedef at h
      split at h
      · cases h
      · cases h; exact ⟨g1, g2, .list g3⟩
    | obj ps a req =>
      cases ps with
      | none => intro s ctx st d st' _ _ _ h; cases h
      | some ps =>
        refine obj_simple (fun p hp => ih _ ?_ p.2 rfl) a req
        have := List.sizeOf_lt_of_mem hp
        obtain ⟨k, n⟩ := p
        simp at this ⊢
        omega
    | oneOf ns =>
      intro s ctx st d st' hd hs _ _
      obtain ⟨kvs, xs, rfl, hx, _⟩ := hd
      rw [(hs kvs .self).1] at hx
      cases hx

/-! ### Definitions -/

theorem setModule_tidy {cfg : BuildCfg} {st st' : BuildSt} {t : Ty} (ho : st.env.Tidy) (h : setModule cfg st t = .ok st') :
    st'.env.Tidy := by
  have key : ∀ {α : Type} (g : α → α) (l : List α) (i : Nat) (x : α), x ∈ l.modify i g → ∃ y ∈ l, x = y ∨ x = g y := by
    intro α g l i x hx
    obtain ⟨k, hk⟩ := List.mem_iff_getElem?.1 hx
    rw [List.getElem?_modify] at hk
    cases hl : l[k]? with
    | none => rw [hl] at hk; cases hk
    | some y =>
      rw [hl] at hk
      simp only [Option.map_eq_map, Option.map_some, Option.some.injEq] at hk
      refine ⟨y, List.mem_of_getElem? hl, ?_⟩
      split at hk
      · exact .inr hk.symm
      · exact .inl hk.symm
  cases t <;> simp only [setModule, reduceCtorEq, Except.ok.injEq] at h <;> subst h
  case cls c =>
    refine ⟨ho.enums, fun cd hcd => ?_, ho.setOrder⟩
    obtain ⟨y, hy, rfl | rfl⟩ := key _ _ _ _ hcd
    · exact ho.fields _ hy
    · exact ho.fields y hy
  case enum c =>
    refine ⟨fun ed hed => ?_, ho.fields, ho.setOrder⟩
    obtain ⟨y, hy, rfl | rfl⟩ := key _ _ _ _ hed
    · exact ho.enums _ hy
    · exact ho.enums y hy
  all_goals exact ho

theorem definitions_simple {cfg : BuildCfg} (ds : List (Str × TNode)) :
    ∀ xs st st', DenotesD ds xs → (∀ x ∈ xs, Tame x.2) → StOk st → buildDefinitions cfg ds st = .ok st' → StOk st' := by
  induction ds with
  | nil => intro xs st st' _ _ ho h; cases h; exact ho
  | cons p ds ih =>
    obtain ⟨name, n⟩ := p
    intro xs st st' hd ht ho h
    cases xs with
    | nil => exact hd.elim
    | cons x xs =>
      obtain ⟨l, x⟩ := x
      obtain ⟨rfl, hdx, hds⟩ := hd
      simp only [buildDefinitions] at h
      split at h
      · cases h
      rename_i d1 st1 h1
      split at h
      · cases h
      split at h
      · cases h
      rename_i st2 h2
      obtain ⟨g1, g2, g3⟩ := node_simple cfg n x name st d1 st1 hdx (ht (name, x) (by simp)) ho h1
      obtain ⟨m1, m2⟩ := setModule_ok h2
      refine ih xs _ st' hds (fun x hx => ht x (by simp [hx])) ?_ h
      rw [m2]
      exact g2.set (setModule_tidy g2.tidy h2) m1 (g3.mono m1)

/-- The type made from a schema without unions is simple, and the program stays tidy. -/
theorem schemaToType_simple {cfg : BuildCfg} {name : Str} {schema : Json} {env : Env} {t : Ty} {st : BuildSt} (hw : schema.Wf)
    (ht : Tame schema) (he : env.Tidy) (h : schemaToType cfg name schema ⟨env, [], []⟩ = .ok (t, st)) :
    st.env.Tidy ∧ Simple st.env t := by
  unfold schemaToType at h
  split at h
  · cases h
  rename_i top htop
  split at h
  · cases h
  rename_i st1 hst1
  split at h
  · cases h
  rename_i d st2 hd
  cases h
  obtain ⟨hden, kvs, rfl, hdefs⟩ := readTop_denotes hw htop
  have ho : StOk st1 := by
    have h0 : StOk ⟨env, [], []⟩ := ⟨he, fun _ _ h => by cases h⟩
    cases htd : top.definitions with
    | none => rw [htd] at hst1; cases hst1; exact h0
    | some ds =>
      obtain ⟨xs, hx, hdx⟩ := hdefs ds htd
      rw [htd] at hst1
      exact definitions_simple _ xs _ _ hdx (fun x hm => ht.sub (Json.Within.trans (.obj hm .self) (within_lookup hx))) h0 hst1
  obtain ⟨-, g2, g3⟩ := node_simple cfg top.node (.obj kvs) name st1 d st hden ht ho hd
  exact ⟨g2.tidy, g3⟩

end Verif
