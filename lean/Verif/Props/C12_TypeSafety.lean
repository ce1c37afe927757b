import Verif.Props.C17_C18_Unknown
import Verif.Props.C15_Containers
import Verif.Props.C24_C25_LiteralEnum
import Verif.Props.C01_C02_Duration
import Verif.Props.C05_C06_C07_DateTime
import Verif.Props.C08_Uuid
import Verif.Spec.Typing
/-!
# C12: deserialization only returns values of the requested type
-/
namespace Verif

theorem hasTy_unwrapOpt {env : Env} {v : Val} {t : Ty} (h : HasTy env v t.unwrapOpt) : HasTy env v t := by
  unfold Ty.unwrapOpt at h
  split at h
  · rename_i ts
    have hsub : ∀ u, u ∈ ts.filter (fun t => !t.isNone) → u ∈ ts := fun u hu => (List.mem_filter.1 hu).1
    split at h
    · rename_i u hu
      exact .union (hsub u (by rw [hu]; simp)) h
    · cases h with
      | union hm h => exact .union (hsub _ hm) h
  · exact h

theorem hasTy_required {env : Env} {v : Val} {t : Ty} (h : HasTy env v t.required) : HasTy env v t := by
  unfold Ty.required at h
  split at h
  · unfold Ty.unwrapOptional at h
    split at h
    · cases h with
      | annotated h => exact .annotated (hasTy_unwrapOpt h)
    · exact hasTy_unwrapOpt h
  · exact h

theorem hasTy_none_optional {env : Env} {t : Ty} (h : t.isOptional = true) : HasTy env .none t := by
  have hu : ∀ t : Ty, (match t.unionArgs with | some ts => ts.any Ty.isNone | none => false) = true → HasTy env .none t := by
    intro t h
    cases t <;> simp [Ty.unionArgs] at h
    rename_i ts
    obtain ⟨u, hm, hn⟩ := h
    cases u <;> simp [Ty.isNone] at hn
    exact .union hm .none
  unfold Ty.isOptional at h
  cases t with
  | annotated t ms => exact .annotated (hu t h)
  | _ => exact hu _ h

theorem enumLookup_ok {env : Env} {e : Nat} {j : Json} {v : Val} (h : enumLookup env e j = .ok v) :
    ∃ ed m, env.enums[e]? = some ed ∧ m < ed.members.length ∧ v = .enum e m := by
  unfold enumLookup at h
  split at h
  · cases h
  · rename_i ed he
    split at h
    · cases h
    · split at h
      · rename_i m hm
        cases h
        obtain ⟨x, hx, _⟩ := findIdx?_some hm
        exact ⟨ed, m, he, (List.getElem?_eq_some_iff.1 hx).1, rfl⟩
      · split at h <;> cases h

theorem litMem_toVal {vals : List Lit} {l0 : Lit} {v : Val} (hs : ∀ l ∈ vals, l0.sameTy l = true)
    (hv : match l0 with
      | .none => v = .none
      | .bool _ => ∃ b, v = .bool b
      | .int _ => ∃ i, v = .int i
      | .str _ => ∃ s, v = .str s
      | .enum e _ => ∃ m, v = .enum e m)
    (h : litMem vals v = true) : ∃ l ∈ vals, v = l.toVal := by
  obtain ⟨l, hl, h'⟩ := List.any_eq_true.1 h
  clear h
  have h := h'
  clear h'
  refine ⟨l, hl, ?_⟩
  have hst := hs l hl
  cases l0 <;> cases l <;> simp only [Lit.sameTy, decide_eq_true_eq] at hst <;>
    first
    | exact absurd hst (by decide)
    | skip
  · exact hv
  · obtain ⟨b, rfl⟩ := hv
    rename_i b1 b2
    cases b <;> cases b2 <;> first | rfl | (simp [Lit.scalar, Val.scalar, Scalar.pyEq, Scalar.asInt] at h)
  · obtain ⟨i, rfl⟩ := hv
    simp [Lit.scalar, Val.scalar, Scalar.pyEq, Scalar.asInt] at h
    rw [h]; rfl
  · obtain ⟨s, rfl⟩ := hv
    simp [Lit.scalar, Val.scalar, Scalar.pyEq] at h
    rw [h]; rfl
  · obtain ⟨m, rfl⟩ := hv
    simp at h
    rw [h.1, h.2]; rfl

theorem parsePairs_typed {env : Env} {k : KeyTy} {d : Deser} {P : Val → Prop} :
    ∀ (fs : List (Str × Json × (Deser → Res Val))) (acc out : List (Key × Val)),
      (∀ f ∈ fs, ∀ v, f.2.2 d = .ok v → P v) → (∀ kv ∈ acc, KeyHasTy env kv.1 k ∧ P kv.2) → (acc.map Prod.fst).Nodup →
      parsePairs env k d acc fs = .ok out → (∀ kv ∈ out, KeyHasTy env kv.1 k ∧ P kv.2) ∧ (out.map Prod.fst).Nodup := by
  intro fs
  induction fs with
  | nil => intro acc out _ h1 h2 h; simp only [parsePairs] at h; cases h; exact ⟨h1, h2⟩
  | cons f fs ih =>
    intro acc out hf h1 h2 h
    obtain ⟨s, j, f⟩ := f
    simp only [parsePairs] at h
    cases hkey : parseKey env k s with
    | error e => rw [hkey] at h; cases h
    | ok key =>
      rw [hkey] at h
      simp only at h
      cases hv : f d with
      | error e => rw [hv] at h; cases h
      | ok v =>
        rw [hv] at h
        refine ih _ out (fun g hg => hf g (by simp [hg])) ?_ (upsert_nodup h2) h
        intro kv hkv
        rcases upsert_mem hkv with rfl | hkv
        · refine ⟨?_, hf _ List.mem_cons_self v hv⟩
          cases k with
          | str => simp only [parseKey] at hkey; cases hkey; trivial
          | enum e =>
            obtain ⟨ed, m, name, h3, h4, rfl⟩ := parseKey_enum_ok hkey
            exact ⟨rfl, ed, h3, (List.getElem?_eq_some_iff.1 h4).1⟩
          | int | other => simp [parseKey] at hkey
        · exact h1 kv hkv

/-- Whenever `json_to_object(T, data)` returns a value, it is a value of type `T`. -/
theorem C12_type_safe (env : Env) (hk : env.Ok) (ht : env.Typed) (skip : Bool) (t : Ty) (j : Json) (v : Val)
    (h : loads env skip t j = .ok v) : HasTy env v t := by
  revert v
  refine json_ty_induction (P := fun j t => ∀ v, loads env skip t j = .ok v → HasTy env v t) ?_ j t
  intro j t ihj iht v h
  have hsup := loads_ok_supported h
  have leaf : ∀ {α : Type} (f : Str → Res α) (mk : α → Val) (j : Json) (v : Val), strLeaf f mk j = .ok v →
      ∃ s a, j = .str s ∧ f s = .ok a ∧ v = mk a := by
    intro α f mk j v h
    cases j <;> simp only [strLeaf] at h <;> first | cases h | skip
    rename_i s
    split at h
    · rename_i a ha; cases h; exact ⟨s, a, rfl, ha, rfl⟩
    · cases h
  cases t with
  | none =>
    cases j <;> first | (cases h; exact .none) | cases h
  | bool => cases j <;> first | (cases h; exact .bool) | cases h
  | int => cases j <;> first | (cases h; exact .int) | cases h
  | float =>
    have h' : parseFloat j = .ok v := by rw [loads_of_compile (d := .float) rfl, parse_eq] at h; exact h
    cases j <;> simp only [parseFloat] at h' <;> first | cases h' | skip
    · split at h' <;> cases h'; exact .float
    · split at h' <;> cases h'; exact .float
    · exact .float
  | str => cases j <;> first | (cases h; exact .str) | cases h
  | bytes =>
    rw [loads_of_compile (d := .bytes) rfl, parse_eq] at h
    obtain ⟨s, a, rfl, h1, rfl⟩ := leaf b64Decode .bytes j v h
    exact .bytes
  | datetime =>
    rw [loads_of_compile (d := .datetime) rfl, parse_eq] at h
    obtain ⟨s, a, rfl, h1, rfl⟩ := leaf dtParse .datetime j v h
    exact .datetime (C05_parse_valid s a h1)
  | date =>
    rw [loads_of_compile (d := .date) rfl, parse_eq] at h
    obtain ⟨s, a, rfl, h1, rfl⟩ := leaf dateFromIso .date j v h
    exact .date (C07_date_valid s a h1)
  | time =>
    rw [loads_of_compile (d := .time) rfl, parse_eq] at h
    obtain ⟨s, a, rfl, h1, rfl⟩ := leaf timeFromIso .time j v h
    exact .time (C07_time_valid s a h1)
  | timedelta =>
    rw [loads_of_compile (d := .timedelta) rfl, parse_eq] at h
    obtain ⟨s, a, rfl, h1, rfl⟩ := leaf tdParse .timedelta j v h
    exact .timedelta ((C02_parse_ok_iff s a).1 h1).1
  | uuid =>
    rw [loads_of_compile (d := .uuid) rfl, parse_eq] at h
    obtain ⟨s, a, rfl, h1, rfl⟩ := leaf uuidParse .uuid j v h
    exact .uuid (C08_parse_range s a h1)
  | ipv4 =>
    rw [loads_of_compile (d := .ipv4) rfl, parse_eq] at h
    obtain ⟨s, a, rfl, h1, rfl⟩ := leaf ipv4Parse .ipv4 j v h
    exact .ipv4 (C09_ipv4_range s a h1)
  | ipv6 =>
    rw [loads_of_compile (d := .ipv6) rfl, parse_eq] at h
    obtain ⟨s, ⟨n, sc⟩, rfl, h1, rfl⟩ := leaf ipv6Parse (fun p => .ipv6 p.1 p.2) j v h
    have := C09_ipv6_range s n sc h1
    exact .ipv6 this.1 this.2
  | bareList | bareDict | bareSet | bareTuple => obtain ⟨d, hd⟩ := hsup; cases hd
  | list t =>
    obtain ⟨xs, vs, rfl, rfl, ha⟩ := (C15_list env skip t (supported_list hsup) j v).1 h
    refine .list fun w hw => ?_
    obtain ⟨x, hx, hl⟩ := ha.mem_right hw
    exact ihj x t (sizeOf_arr hx) w hl
  | set t =>
    obtain ⟨xs, vs, rfl, ha, hh⟩ := (C15_set_ok env skip t (supported_set hsup) j).1 ⟨v, h⟩
    obtain ⟨ws, rfl, hsub, _, hp⟩ := C15_set_members env skip t (supported_set hsup) xs vs ha v h
    refine .set (fun w hw => ?_) (fun w hw => hh w (hsub.subset hw)) hp
    obtain ⟨x, hx, hl⟩ := ha.mem_right (hsub.subset hw)
    exact ihj x t (sizeOf_arr hx) w hl
  | tuple ts =>
    obtain ⟨xs, vs, rfl, rfl, h1, h2, h3⟩ := (C15_tuple env skip ts (supported_tuple hsup) j v).1 h
    refine .tuple h2 ?_
    intro i w u hw hu
    have hi : i < xs.length := by
      have := (List.getElem?_eq_some_iff.1 hu).1
      omega
    exact ihj xs[i] u (sizeOf_arr (by simp)) w (h3 i xs[i] u w (by simp [hi]) hu hw)
  | dict k t =>
    have hd : ∃ d, compile env t = .ok d ∧ checkKeyTy env k = .ok () := by
      obtain ⟨d, hd⟩ := hsup
      simp only [compile] at hd
      cases hk' : checkKeyTy env k with
      | error e => rw [hk'] at hd; cases hd
      | ok u =>
        rw [hk'] at hd
        cases hc : compile env t with
        | error e => rw [hc] at hd; cases hd
        | ok d => exact ⟨d, rfl, rfl⟩
    obtain ⟨d, hd, hkey⟩ := hd
    have hcomp : compile env (.dict k t) = .ok (.dict k d) := by simp [compile, hd, hkey]
    rw [loads_of_compile hcomp, parse_eq] at h
    cases j with
    | obj kvs =>
      simp only [parseD, kidsOf, parseDictK] at h
      split at h
      · rename_i out ho
        cases h
        have := parsePairs_typed (P := fun w => HasTy env w t) _ [] out ?_ (by simp) (by simp) ho
        · exact .dict this.2 (fun kv hkv => (this.1 kv hkv).1) (fun kv hkv => (this.1 kv hkv).2)
        · intro f hf w hw
          obtain ⟨p, hp, rfl⟩ := List.mem_map.1 hf
          exact ihj p.2 t (sizeOf_obj hp) w (by rw [loads_of_compile hd]; exact hw)
      · cases h
    | _ => cases h
  | union ts =>
    obtain ⟨t, htm, h1⟩ := union_member_of_ok hk h
    exact .union htm (iht t (sizeOf_mem_union htm) v h1)
  | annotated t ms => exact .annotated (iht t (by simp; omega) v h)
  | literal ls =>
    obtain ⟨d, hd⟩ := hsup
    rw [loads_of_compile hd] at h
    simp only [compile, compileLit] at hd
    cases ls with
    | nil => cases hd
    | cons l0 r =>
      simp only at hd
      split at hd
      · rename_i hu
        cases hld : litDeser env l0 with
        | error e => rw [hld] at hd; cases hd
        | ok d0 =>
          rw [hld] at hd
          cases hd
          rw [parse_literal] at h
          cases hp : parse env (fullHeap env skip) j d0 with
          | error e => rw [hp] at h; cases h
          | ok w =>
            rw [hp] at h
            simp only at h
            split at h
            · rename_i hm
              cases h
              have hall : ∀ l ∈ l0 :: r, l0.sameTy l = true := by
                intro l hl
                rcases List.mem_cons.1 hl with rfl | hl
                · cases l <;> simp [Lit.sameTy]
                · exact List.all_eq_true.1 hu l hl
              obtain ⟨l, hl, rfl⟩ := litMem_toVal hall (v := v) (by
                cases l0 with
                | none => cases hld; cases j <;> first | (cases hp; rfl) | cases hp
                | bool b => cases hld; cases j <;> first | (cases hp; exact ⟨_, rfl⟩) | cases hp
                | int i => cases hld; cases j <;> first | (cases hp; exact ⟨_, rfl⟩) | cases hp
                | str s => cases hld; cases j <;> first | (cases hp; exact ⟨_, rfl⟩) | cases hp
                | enum e m =>
                  have hc : compile env (.enum e) = .ok d0 := hld
                  rw [← loads_of_compile hc] at hp
                  simp only [litDeser] at hld
                  cases he : env.enums[e]? with
                  | none => simp [tyKey, he] at hld
                  | some ed =>
                    rw [loads_enum hk skip he] at hp
                    obtain ⟨_, m, _, _, rfl⟩ := enumLookup_ok hp
                    exact ⟨m, rfl⟩) hm
              exact .literal hl rfl
            · cases h
      · cases hd
  | enum e =>
    obtain ⟨d, hd⟩ := hsup
    cases he : env.enums[e]? with
    | none => simp [compile, tyKey, he] at hd
    | some ed =>
      rw [loads_enum hk skip he] at h
      obtain ⟨ed, m, h1, h2, rfl⟩ := enumLookup_ok h
      exact .enum h1 h2
  | cls c =>
    obtain ⟨cd, hc, hcu | hr⟩ := readable_of_ok hk h
    · cases hf : cd.fromJson with
      | none => unfold ClassDef.custom at hcu; rw [hf] at hcu; split at hcu <;> cases hcu
      | some f =>
        rw [loads_custom hk skip hc hcu hf] at h
        exact ht.hook c cd f j v hc hf h
    · obtain ⟨kvs, vs, rfl, rfl, ha, _⟩ := (loads_cls_ok_iff hk skip hr j v).1 h
      have hfields : cd.hints = cd.fields := by
        unfold ClassDef.hints
        split
        · rename_i hkind; rw [hr.typed hkind]
        · rfl
      refine .cls hc ?_ ?_
      · rw [← hfields]
        clear h
        generalize cd.hints = hs at ha
        induction ha with
        | nil => rfl
        | cons h1 _ ih => simp [h1.1, ih]
      · intro i f w hf hw
        obtain ⟨w', hw', h1, h2⟩ := ha.get i f hf
        rw [hw] at hw'; cases hw'
        have hfm : f ∈ cd.fields := by rw [← hfields]; exact List.mem_of_getElem? hf
        have habs : ∀ u, absentValue cd.kind f = some u → HasTy env u f.ty := by
          intro u hu
          have hd := ht.dflt cd (List.mem_of_getElem? hc) f hfm u
          unfold absentValue at hu
          split at hu
          · rename_i hfd; cases hu; exact hd (.inl hfd)
          · rename_i hfd; cases hu; exact hd (.inr hfd)
          · split at hu <;> cases hu; rename_i ho; exact hasTy_none_optional ho
          · split at hu <;> cases hu; rename_i ho; exact hasTy_none_optional ho
          · cases hu
        unfold readField at h2
        cases hl : lookupKey (fieldProp cd.kind f) kvs with
        | none =>
          rw [hl] at h2
          simp only at h2
          split at h2
          · rename_i u hu; cases h2; exact habs _ hu
          · cases h2
        | some x =>
          have hrec : loads env skip (fieldTy cd.kind f) x = .ok w.2 → HasTy env w.2 f.ty := by
            intro h3
            have := ihj x _ (sizeOf_obj (lookupKey_some_mem hl)) _ h3
            unfold fieldTy at this
            split at this
            · exact this
            · exact hasTy_required this
          rw [hl] at h2
          cases x <;> simp only at h2 <;> first | exact hrec h2 | skip
          split at h2
          · rename_i u hu; cases h2; exact habs _ hu
          · cases h2

/-- The hypothesis on defaults is needed: a field `x: int = None` gives an object with an attribute that is not an
integer. -/
theorem C12_default_not_checked :
    ∃ env : Env, env.Ok ∧ ∃ v, loads env false (.cls 0) (.obj []) = .ok v ∧ ¬ HasTy env v (.cls 0) := by
  refine ⟨⟨[], [{ module := c!"m", name := c!"A", kind := .dataclass false, fields :=
    [{ name := c!"x", ty := .int, dflt := .value .none }] }], id⟩,
    ⟨by simp, by simp, by simp, fun _ => .refl _⟩, _, rfl, ?_⟩
  intro h
  cases h with
  | cls hc _ h3 =>
    cases hc
    cases h3 0 _ _ rfl rfl
  | untyped hc hk => cases hc; cases hk

/-! ### The hypotheses are met -/

private def exItem : ClassDef :=
  { module := c!"m", name := c!"Item", kind := .dataclass false, fields :=
    [{ name := c!"size", ty := .union [.int, .none], dflt := .value .none }, { name := c!"at", ty := .date }] }
private def exEnv : Env := ⟨[], [exItem], id⟩
example : exEnv.Ok := ⟨by simp [exEnv], by simp [exEnv], by simp [exEnv, exItem], fun _ => .refl _⟩
example : exEnv.Typed := by
  constructor
  · intro cd hcd f hf v hv
    rcases List.mem_singleton.1 hcd with rfl
    simp only [exItem, List.mem_cons, List.not_mem_nil, or_false] at hf
    rcases hf with rfl | rfl
    · rcases hv with h | h <;> cases h
      exact .union (t := .none) (by simp) .none
    · rcases hv with h | h <;> cases h
  · intro c cd f j v hc hf
    have := List.mem_of_getElem? hc
    rcases List.mem_singleton.1 this with rfl
    cases hf
example : loads exEnv false (.list (.cls 0)) (.arr [.obj [(c!"at", .str c!"2020-02-29")]]) =
    .ok (.list [.obj 0 [(c!"size", .none), (c!"at", .date ⟨2020, 2, 29⟩)]]) := rfl

end Verif
