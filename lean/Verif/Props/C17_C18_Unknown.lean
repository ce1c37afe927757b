import Verif.Props.C16_C20_Classes
import Verif.Spec.Kinds
/-!
# C17: unknown properties; C18: ignored properties have no influence
-/
namespace Verif

/-- Induction on JSON values by size, then on types by size. -/
theorem json_ty_induction {P : Json → Ty → Prop}
    (h : ∀ j t, (∀ j' t', sizeOf j' < sizeOf j → P j' t') → (∀ t', sizeOf t' < sizeOf t → P j t') → P j t) :
    ∀ j t, P j t := by
  have : ∀ n j, sizeOf j = n → ∀ m t, sizeOf t = m → P j t := by
    intro n
    induction n using Nat.strongRecOn with
    | _ n ihn =>
      intro j hj m
      induction m using Nat.strongRecOn with
      | _ m ihm =>
        intro t ht
        refine h j t ?_ ?_
        · intro j' t' hlt; exact ihn (sizeOf j') (by omega) j' rfl _ t' rfl
        · intro t' hlt; exact ihm (sizeOf t') (by omega) t' rfl
  intro j t
  exact this _ j rfl _ t rfl

theorem sizeOf_arr {x : Json} {xs : List Json} (h : x ∈ xs) : sizeOf x < sizeOf (Json.arr xs) := by
  have := List.sizeOf_lt_of_mem h
  simp; omega

theorem sizeOf_obj {kv : Str × Json} {kvs : List (Str × Json)} (h : kv ∈ kvs) : sizeOf kv.2 < sizeOf (Json.obj kvs) := by
  have := List.sizeOf_lt_of_mem h
  obtain ⟨k, x⟩ := kv
  simp at this ⊢; omega

theorem sizeOf_mem_union {t : Ty} {ts : List Ty} (h : t ∈ ts) : sizeOf t < sizeOf (Ty.union ts) := by
  have := List.sizeOf_lt_of_mem h
  simp; omega

/-- A class that was read successfully without `from_json` is readable. -/
theorem readable_of_ok {env : Env} (hk : env.Ok) {skip : Bool} {c : Nat} {j : Json} {v : Val}
    (h : loads env skip (.cls c) j = .ok v) :
    ∃ cd, env.classes[c]? = some cd ∧ (cd.custom = true ∨ Readable env c cd) := by
  unfold loads at h
  cases hc : env.classes[c]? with
  | none => simp [compile, tyKey, hc] at h
  | some cd =>
    refine ⟨cd, rfl, ?_⟩
    rw [compile_cls hc] at h
    simp only at h
    rw [parse_ref] at h
    simp only [parseRef, fullHeap_cls hk skip hc, classEntry] at h
    cases hcu : cd.custom with
    | true => simp
    | false =>
      right
      simp only [hcu, Bool.false_eq_true, if_false] at h
      cases hf : compileFields env cd with
      | error e =>
        rw [hf] at h
        cases j <;> simp [kidsOf, parseCls] at h
      | ok fds =>
        refine ⟨hc, hcu, ?_, supported_of_compileFields hf⟩
        intro hkind
        rw [hf] at h
        cases hfe : cd.fields with
        | nil => rfl
        | cons a b =>
          exfalso
          have hcreate : ∀ vs, createObj env c vs = .error .typeError := by
            intro vs; simp [createObj, hc, hkind, hfe]
          cases j <;> simp only [kidsOf, parseCls] at h
          case obj kvs =>
            split at h
            · cases h
            · rw [hcreate] at h
              split at h <;> cases h
          all_goals cases h

/-! ### C17 -/

/-- Wherever a class is read from this data as type `t`, all properties are known.  For a union, this is about the member
that gave the result. -/
inductive Strict (env : Env) : Ty → Json → Prop
  | scalar {t j} : t ∈ scalarTys → Strict env t j
  | literal {ls j} : Strict env (.literal ls) j
  | enum {e j} : Strict env (.enum e) j
  | list {t xs} : (∀ x ∈ xs, Strict env t x) → Strict env (.list t) (.arr xs)
  | set {t xs} : (∀ x ∈ xs, Strict env t x) → Strict env (.set t) (.arr xs)
  | tuple {ts xs} : (∀ p ∈ xs.zip ts, Strict env p.2 p.1) → Strict env (.tuple ts) (.arr xs)
  | dict {k t kvs} : (∀ kv ∈ kvs, Strict env t kv.2) → Strict env (.dict k t) (.obj kvs)
  | union {ts t j v} : t ∈ ts → loads env false (.union ts) j = .ok v → loads env false t j = .ok v → Strict env t j →
      Strict env (.union ts) j
  | annotated {t ms j} : Strict env t j → Strict env (.annotated t ms) j
  | custom {c cd j} : env.classes[c]? = some cd → cd.custom = true → Strict env (.cls c) j
  | cls {c cd kvs} : env.classes[c]? = some cd → OnlyKnown cd kvs →
      (∀ f ∈ cd.hints, ∀ x, Present kvs (fieldProp cd.kind f) x → Strict env (fieldTy cd.kind f) x) →
      Strict env (.cls c) (.obj kvs)

theorem loads_ok_supported {env : Env} {skip : Bool} {t : Ty} {j : Json} {v : Val} (h : loads env skip t j = .ok v) :
    Supported env t := by
  unfold loads at h
  split at h
  · cases h
  · rename_i d hd; exact ⟨d, hd⟩

theorem union_member_of_ok {env : Env} (hk : env.Ok) {skip : Bool} {ts : List Ty} {j : Json} {v : Val}
    (h : loads env skip (.union ts) j = .ok v) : ∃ t ∈ ts, loads env skip t j = .ok v := by
  by_cases ht : ∃ p, IsTag env ts p
  · obtain ⟨kvs, c, p, x, l, _, hm, _, _, _, _, hl⟩ := C22_never_other env hk skip ts ht j v h
    exact ⟨.cls c, hm, hl⟩
  · have hnil : discProps env ts = [] := by
      cases hd : discProps env ts with
      | nil => rfl
      | cons p ps => exact absurd ⟨p, mem_discProps.1 (by rw [hd]; simp)⟩ ht
    have hs : ∀ t ∈ ts, Supported env t := by
      obtain ⟨d, hd⟩ := loads_ok_supported h
      simp only [compile] at hd
      rw [if_pos hnil] at hd
      split at hd
      · rename_i ds hds
        intro t htm
        obtain ⟨d', _, h2⟩ := (compileL_ok.1 hds).mem_left htm
        exact ⟨d', h2⟩
      · cases hd
    obtain ⟨pre, t, post, rfl, h1, _⟩ :=
      (C21_ok_iff env skip ts ((discProps_nil_iff env ts).1 hnil) hs j v).1 h
    exact ⟨t, by simp, h1⟩

theorem supported_list {env : Env} {t : Ty} (h : Supported env (.list t)) : Supported env t := by
  obtain ⟨d, hd⟩ := h
  simp only [compile] at hd
  split at hd
  · rename_i d' hd'; exact ⟨d', hd'⟩
  · cases hd

theorem supported_set {env : Env} {t : Ty} (h : Supported env (.set t)) : Supported env t := by
  obtain ⟨d, hd⟩ := h
  simp only [compile] at hd
  split at hd
  · rename_i d' hd'; exact ⟨d', hd'⟩
  · cases hd

theorem supported_dict {env : Env} {k : KeyTy} {t : Ty} (h : Supported env (.dict k t)) :
    ∃ d, compile env t = .ok d ∧ compile env (.dict k t) = .ok (.dict k d) := by
  obtain ⟨d, hd⟩ := h
  have hd0 := hd
  simp only [compile] at hd
  split at hd
  · cases hd
  · split at hd
    · rename_i d' hd'; cases hd; exact ⟨d', hd', hd0⟩
    · cases hd

theorem supported_tuple {env : Env} {ts : List Ty} (h : Supported env (.tuple ts)) : ∀ t ∈ ts, Supported env t := by
  obtain ⟨d, hd⟩ := h
  simp only [compile] at hd
  split at hd
  · rename_i ds hds
    intro t ht
    obtain ⟨d', _, h2⟩ := (compileL_ok.1 hds).mem_left ht
    exact ⟨d', h2⟩
  · cases hd

/-- Items of a dictionary that was read. -/
theorem dict_items_of_ok {env : Env} {skip : Bool} {k : KeyTy} {t : Ty} {j : Json} {v : Val}
    (h : loads env skip (.dict k t) j = .ok v) :
    ∃ kvs, j = .obj kvs ∧ ∀ kv ∈ kvs, ∃ w, loads env skip t kv.2 = .ok w := by
  obtain ⟨d, hd, hc⟩ := supported_dict (loads_ok_supported h)
  rw [loads_of_compile hc, parse_eq] at h
  cases j with
  | obj kvs =>
    refine ⟨kvs, rfl, ?_⟩
    simp only [parseD, kidsOf, parseDictK] at h
    split at h
    · rename_i out ho
      clear h
      simp only [loads_of_compile hd]
      generalize ([] : List (Key × Val)) = acc at ho
      induction kvs generalizing acc with
      | nil => intro kv hkv; cases hkv
      | cons a kvs ih =>
        simp only [List.map_cons, parsePairs] at ho
        split at ho
        · cases ho
        · split at ho
          · cases ho
          · rename_i w hw
            intro kv hkv
            rcases List.mem_cons.1 hkv with rfl | hkv
            · exact ⟨w, hw⟩
            · exact ih _ ho kv hkv
    · cases h
  | _ => cases h

/-- With default options, success implies that every property is the JSON name of a field, at every level where a class
is read. -/
theorem C17_strict (env : Env) (hk : env.Ok) (t : Ty) (j : Json) (v : Val) (h : loads env false t j = .ok v) :
    Strict env t j := by
  revert v
  refine json_ty_induction (P := fun j t => ∀ v, loads env false t j = .ok v → Strict env t j) ?_ j t
  intro j t ihj iht v h
  cases t with
  | list t =>
    obtain ⟨xs, vs, rfl, rfl, ha⟩ := (C15_list env false t (supported_list (loads_ok_supported h)) j v).1 h
    refine .list fun x hx => ?_
    obtain ⟨w, _, hw⟩ := ha.mem_left hx
    exact ihj x t (sizeOf_arr hx) w hw
  | set t =>
    obtain ⟨xs, vs, rfl, ha, _⟩ := (C15_set_ok env false t (supported_set (loads_ok_supported h)) j).1 ⟨v, h⟩
    refine .set fun x hx => ?_
    obtain ⟨w, _, hw⟩ := ha.mem_left hx
    exact ihj x t (sizeOf_arr hx) w hw
  | tuple ts =>
    obtain ⟨xs, vs, rfl, rfl, h1, h2, h3⟩ :=
      (C15_tuple env false ts (supported_tuple (loads_ok_supported h)) j v).1 h
    refine .tuple ?_
    rintro ⟨x, t⟩ hp
    obtain ⟨i, hi⟩ := List.getElem?_of_mem hp
    rw [List.getElem?_zip_eq_some] at hi
    have hlt : i < vs.length := by
      have := (List.getElem?_eq_some_iff.1 hi.2).1; omega
    exact ihj x t (sizeOf_arr (List.mem_of_getElem? hi.1)) _ (h3 i x t vs[i] hi.1 hi.2 (by simp [hlt]))
  | dict k t =>
    obtain ⟨kvs, rfl, ha⟩ := dict_items_of_ok h
    refine .dict fun kv hkv => ?_
    obtain ⟨w, hw⟩ := ha kv hkv
    exact ihj kv.2 t (sizeOf_obj hkv) w hw
  | union ts =>
    obtain ⟨t, ht, h1⟩ := union_member_of_ok hk h
    exact .union ht h h1 (iht t (sizeOf_mem_union ht) v h1)
  | annotated t ms => exact .annotated (iht t (by simp; omega) v h)
  | literal ls => exact .literal
  | enum e => exact .enum
  | cls c =>
    obtain ⟨cd, hc, hcu | hr⟩ := readable_of_ok hk h
    · exact .custom hc hcu
    · obtain ⟨kvs, vs, rfl, rfl, ha, hkn⟩ := (loads_cls_ok_iff hk false hr j v).1 h
      refine .cls hc (hkn.resolve_left (by simp)) ?_
      intro f hf x hx
      obtain ⟨w, _, _, hw⟩ := ha.mem_left hf
      unfold readField at hw
      rw [hx.1] at hw
      have hw' : loads env false (fieldTy cd.kind f) x = .ok w.2 := by
        cases x <;> first | exact absurd rfl hx.2 | exact hw
      exact ihj x _ (sizeOf_obj (lookupKey_some_mem hx.1)) _ hw'
  | bareList => cases loads_ok_supported h with | intro d hd => cases hd
  | bareDict => cases loads_ok_supported h with | intro d hd => cases hd
  | bareSet => cases loads_ok_supported h with | intro d hd => cases hd
  | bareTuple => cases loads_ok_supported h with | intro d hd => cases hd
  | _ => exact .scalar (by simp [scalarTys])

/-- At the top level: an unknown property is always an error. -/
theorem C17_class (env : Env) (hk : env.Ok) (c : Nat) (cd : ClassDef) (hr : Readable env c cd) (kvs : List (Str × Json))
    (kv : Str × Json) (hm : kv ∈ kvs) (hu : ∀ f ∈ cd.hints, fieldProp cd.kind f ≠ kv.1) :
    (∃ e, loads env false (.cls c) (.obj kvs) = .error e) ∧
    ((∀ f ∈ cd.hints, ∃ v, readField env false cd.kind f kvs = .ok v) →
      loads env false (.cls c) (.obj kvs) = .error .jsonKey) := by
  have hno : ¬ OnlyKnown cd kvs := fun h => by
    obtain ⟨f, hf, he⟩ := h kv hm
    exact hu f hf he
  constructor
  · cases h : loads env false (.cls c) (.obj kvs) with
    | error e => exact ⟨e, rfl⟩
    | ok v =>
      obtain ⟨kvs', vs, he, _, _, hkn⟩ := (loads_cls_ok_iff hk false hr _ v).1 h
      cases he
      exact absurd (hkn.resolve_left (by simp)) hno
  · intro hall
    rw [loads_cls_obj hk false hr]
    cases hm : mapRes (readNamed env false cd.kind kvs) cd.hints with
    | error e =>
      obtain ⟨_, f, _, hh, hf, _⟩ := (mapRes_error_iff _ _ _).1 hm
      obtain ⟨v, hv⟩ := hall f (by rw [hh]; simp)
      simp [readNamed, hv] at hf
    | ok vs =>
      simp only
      rw [if_neg]
      rintro (h | h)
      · cases h
      · exact hno h

/-! ### C18 -/

/-- Types that are never read from a JSON object. -/
def NotFromObj : Ty → Prop
  | .dict _ _ | .union _ | .annotated _ _ | .cls _ => False
  | _ => True

/-- Types that are never read from a JSON array. -/
def NotFromArr : Ty → Prop
  | .list _ | .set _ | .tuple _ | .union _ | .annotated _ _ | .cls _ => False
  | _ => True

/-- The two JSON values differ only in properties that belong to no field of the class for which they are read. -/
inductive Agree (env : Env) : Ty → Json → Json → Prop
  | refl {t j} : Agree env t j j
  | list {t xs ys} : xs.length = ys.length →
      (∀ (i : Nat) x y, xs[i]? = some x → ys[i]? = some y → Agree env t x y) → Agree env (.list t) (.arr xs) (.arr ys)
  | set {t xs ys} : xs.length = ys.length →
      (∀ (i : Nat) x y, xs[i]? = some x → ys[i]? = some y → Agree env t x y) → Agree env (.set t) (.arr xs) (.arr ys)
  | tuple {ts xs ys} : xs.length = ys.length →
      (∀ (i : Nat) t x y, ts[i]? = some t → xs[i]? = some x → ys[i]? = some y → Agree env t x y) →
      Agree env (.tuple ts) (.arr xs) (.arr ys)
  | dict {k t kvs kvs'} : kvs.map (·.1) = kvs'.map (·.1) →
      (∀ (i : Nat) x y, kvs[i]? = some x → kvs'[i]? = some y → Agree env t x.2 y.2) →
      Agree env (.dict k t) (.obj kvs) (.obj kvs')
  | annotated {t ms j j'} : Agree env t j j' → Agree env (.annotated t ms) j j'
  /-- for a union: as any member, and the tags are the same -/
  | union {ts kvs kvs'} : (∀ p, IsTag env ts p → lookupKey p kvs = lookupKey p kvs') →
      (∀ t ∈ ts, Agree env t (.obj kvs) (.obj kvs')) → Agree env (.union ts) (.obj kvs) (.obj kvs')
  | unionArr {ts xs ys} : (∀ t ∈ ts, Agree env t (.arr xs) (.arr ys)) → Agree env (.union ts) (.arr xs) (.arr ys)
  /-- types (of other members of a union) that are not read from objects -/
  | notObj {t kvs kvs'} : NotFromObj t → Agree env t (.obj kvs) (.obj kvs')
  /-- types (of other members of a union) that are not read from arrays -/
  | notArr {t xs ys} : NotFromArr t → Agree env t (.arr xs) (.arr ys)
  | cls {c cd kvs kvs'} : env.classes[c]? = some cd → cd.custom = false →
      (∀ f ∈ cd.hints, lookupKey (fieldProp cd.kind f) kvs = none ↔ lookupKey (fieldProp cd.kind f) kvs' = none) →
      (∀ f ∈ cd.hints,
        lookupKey (fieldProp cd.kind f) kvs = some .null ↔ lookupKey (fieldProp cd.kind f) kvs' = some .null) →
      (∀ f ∈ cd.hints, ∀ x y, Present kvs (fieldProp cd.kind f) x → Present kvs' (fieldProp cd.kind f) y →
        Agree env (fieldTy cd.kind f) x y) →
      Agree env (.cls c) (.obj kvs) (.obj kvs')

theorem enumLookup_obj (env : Env) (e : Nat) (j j' : Json) (h : j.scalar = none) (h' : j'.scalar = none) :
    enumLookup env e j = enumLookup env e j' := by
  unfold enumLookup
  rw [h, h']

theorem loads_enum_any {env : Env} (hk : env.Ok) (skip : Bool) (e : Nat) (j j' : Json) (h : j.scalar = none)
    (h' : j'.scalar = none) : loads env skip (.enum e) j = loads env skip (.enum e) j' := by
  cases he : env.enums[e]? with
  | none => simp [loads, compile, tyKey, he]
  | some ed => rw [loads_enum hk skip he, loads_enum hk skip he]; exact enumLookup_obj env e j j' h h'

theorem parse_litDeser {env : Env} (hk : env.Ok) (skip : Bool) {l : Lit} {d : Deser} (hd : litDeser env l = .ok d)
    (j j' : Json) (h : j.scalar = none) (h' : j'.scalar = none) :
    parse env (fullHeap env skip) j d = parse env (fullHeap env skip) j' d := by
  cases l with
  | enum e m =>
    simp only [litDeser] at hd
    have hc : compile env (.enum e) = .ok d := hd
    rw [← loads_of_compile hc, ← loads_of_compile hc]
    exact loads_enum_any hk skip e j j' h h'
  | _ =>
    cases hd
    cases j <;> simp [Json.scalar] at h <;> cases j' <;> simp [Json.scalar] at h' <;> rfl

theorem loads_literal_any {env : Env} (hk : env.Ok) (skip : Bool) (ls : List Lit) (j j' : Json) (h : j.scalar = none)
    (h' : j'.scalar = none) : loads env skip (.literal ls) j = loads env skip (.literal ls) j' := by
  unfold loads
  simp only [compile, compileLit]
  cases ls with
  | nil => rfl
  | cons l r =>
    simp only
    by_cases hu : (r.all fun m => l.sameTy m) = true
    · simp only [hu, if_true]
      cases hd : litDeser env l with
      | error e => rfl
      | ok d =>
        simp only
        rw [parse_literal, parse_literal, parse_litDeser hk skip hd j j' h h']
    · simp only [hu]; rfl

theorem loads_union_congr {env : Env} {skip : Bool} {ts : List Ty} {j j' : Json} (hnil : discProps env ts = [])
    (h : ∀ t ∈ ts, loads env skip t j = loads env skip t j') :
    loads env skip (.union ts) j = loads env skip (.union ts) j' := by
  unfold loads
  simp only [compile, if_pos hnil]
  cases hd : compileL env ts with
  | error e => rfl
  | ok ds =>
    simp only
    have ha := compileL_ok.1 hd
    clear hd hnil
    induction ha with
    | nil => rw [parse_union_nil, parse_union_nil]
    | @cons t d ts ds h1 _ ih =>
      have ht := h t (by simp)
      rw [loads_of_compile h1, loads_of_compile h1] at ht
      rw [parse_union_cons, parse_union_cons, ht, ih (fun t ht => h t (by simp [ht]))]

theorem loads_list_congr {env : Env} {skip : Bool} {t : Ty} {xs ys : List Json} (hl : xs.length = ys.length)
    (h : ∀ (i : Nat) x y, xs[i]? = some x → ys[i]? = some y → loads env skip t x = loads env skip t y) :
    loads env skip (.list t) (.arr xs) = loads env skip (.list t) (.arr ys) ∧
    loads env skip (.set t) (.arr xs) = loads env skip (.set t) (.arr ys) := by
  unfold loads at h ⊢
  simp only [compile]
  cases hd : compile env t with
  | error e => exact ⟨rfl, rfl⟩
  | ok d =>
    rw [hd] at h
    simp only at h ⊢
    constructor
    · rw [parse_list_arr, parse_list_arr]
      have : mapRes (fun x => parse env (fullHeap env skip) x d) xs = mapRes (fun x => parse env (fullHeap env skip) x d) ys := by
        have ha := All2.of_get hl h
        clear h hl
        induction ha with
        | nil => rfl
        | cons h1 _ ih => simp only [mapRes, h1, ih]
      rw [this]
    · rw [parse_eq, parse_eq]
      simp only [parseD, kidsOf, parseSetK]
      have : ∀ acc, parseSetItems env d acc (xs.map (parse env (fullHeap env skip))) =
          parseSetItems env d acc (ys.map (parse env (fullHeap env skip))) := by
        have ha := All2.of_get hl h
        clear h hl
        induction ha with
        | nil => intro acc; rfl
        | cons h1 _ ih =>
          intro acc
          simp only [List.map_cons, parseSetItems, h1, ih]
      rw [this]

theorem loads_tuple_congr {env : Env} {skip : Bool} {ts : List Ty} {xs ys : List Json} (hl : xs.length = ys.length)
    (h : ∀ (i : Nat) t x y, ts[i]? = some t → xs[i]? = some x → ys[i]? = some y →
      loads env skip t x = loads env skip t y) :
    loads env skip (.tuple ts) (.arr xs) = loads env skip (.tuple ts) (.arr ys) := by
  have hcd : ∀ j, loads env skip (.tuple ts) j = match compileL env ts with
      | .ok ds => parse env (fullHeap env skip) j (.tuple ds) | .error e => .error e := by
    intro j
    unfold loads
    simp only [compile]
    cases compileL env ts <;> rfl
  rw [hcd, hcd]
  cases hd : compileL env ts with
  | error e => rfl
  | ok ds =>
    simp only
    have ha := compileL_ok.1 hd
    rw [parse_tuple_arr, parse_tuple_arr, hl]
    by_cases hlen : ys.length = ds.length
    · simp only [hlen, ne_eq, not_true, if_false]
      have : mapRes (fun p : Json × Deser => parse env (fullHeap env skip) p.1 p.2) (xs.zip ds) =
          mapRes (fun p : Json × Deser => parse env (fullHeap env skip) p.1 p.2) (ys.zip ds) := by
        have h2 : ∀ (i : Nat) d x y, ds[i]? = some d → xs[i]? = some x → ys[i]? = some y →
            parse env (fullHeap env skip) x d = parse env (fullHeap env skip) y d := by
          intro i d x y h3 h4 h5
          have hi : i < ts.length := by
            have := (List.getElem?_eq_some_iff.1 h3).1
            have := ha.length
            omega
          obtain ⟨d', h6, h7⟩ := ha.get i ts[i] (by simp [hi])
          rw [h3] at h6; cases h6
          have := h i ts[i] x y (by simp [hi]) h4 h5
          rw [loads_of_compile h7, loads_of_compile h7] at this
          exact this
        clear h ha hd hcd hlen
        induction ds generalizing xs ys with
        | nil => simp
        | cons d ds ih =>
          cases xs with
          | nil => cases ys with
            | nil => rfl
            | cons => simp at hl
          | cons x xs =>
            cases ys with
            | nil => simp at hl
            | cons y ys =>
              simp only [List.zip_cons_cons, mapRes, h2 0 d x y rfl rfl rfl]
              rw [ih (by simpa using hl) (fun i d x y h3 h4 h5 => h2 (i + 1) d x y (by simpa using h3)
                (by simpa using h4) (by simpa using h5))]
      rw [this]
    · simp only [hlen, ne_eq, not_false_eq_true, if_true]

theorem loads_dict_congr {env : Env} {skip : Bool} {k : KeyTy} {t : Ty} {kvs kvs' : List (Str × Json)}
    (hl : kvs.map (·.1) = kvs'.map (·.1))
    (h : ∀ (i : Nat) x y, kvs[i]? = some x → kvs'[i]? = some y → loads env skip t x.2 = loads env skip t y.2) :
    loads env skip (.dict k t) (.obj kvs) = loads env skip (.dict k t) (.obj kvs') := by
  have hlen : kvs.length = kvs'.length := by
    have := congrArg List.length hl; simpa using this
  have hkey : ∀ (i : Nat) x y, kvs[i]? = some x → kvs'[i]? = some y → x.1 = y.1 := by
    intro i x y hx hy
    have h1 : (kvs.map (·.1))[i]? = some x.1 := by simp [hx]
    have h2 : (kvs'.map (·.1))[i]? = some y.1 := by simp [hy]
    rw [hl, h2] at h1; exact (Option.some.inj h1).symm
  unfold loads at h ⊢
  simp only [compile]
  cases checkKeyTy env k with
  | error e => rfl
  | ok _ =>
    simp only
    cases hd : compile env t with
    | error e => rfl
    | ok d =>
      rw [hd] at h
      simp only at h ⊢
      rw [parse_eq, parse_eq]
      simp only [parseD, kidsOf, parseDictK]
      have : ∀ acc, parsePairs env k d acc (kvs.map fun p => (p.1, p.2, parse env (fullHeap env skip) p.2)) =
          parsePairs env k d acc (kvs'.map fun p => (p.1, p.2, parse env (fullHeap env skip) p.2)) := by
        have ha : All2 (fun (x y : Str × Json) => x.1 = y.1 ∧
            parse env (fullHeap env skip) x.2 d = parse env (fullHeap env skip) y.2 d) kvs kvs' :=
          All2.of_get hlen (fun i x y hx hy => ⟨hkey i x y hx hy, h i x y hx hy⟩)
        clear h hl hlen hkey
        induction ha with
        | nil => intro acc; rfl
        | cons h1 _ ih =>
          intro acc
          simp only [List.map_cons, parsePairs, h1.1, h1.2, ih]
      rw [this]

/-- With `skip_unassigned`, properties that belong to no field have no influence on the outcome, value or error. -/
theorem C18_no_influence (env : Env) (hk : env.Ok) (t : Ty) (j j' : Json) (h : Agree env t j j') :
    loads env true t j = loads env true t j' := by
  induction h with
  | refl => rfl
  | list hl _ ih => exact (loads_list_congr hl ih).1
  | set hl _ ih => exact (loads_list_congr hl ih).2
  | tuple hl _ ih => exact loads_tuple_congr hl ih
  | dict hl _ ih => exact loads_dict_congr hl ih
  | annotated _ ih => exact ih
  | @union ts kvs kvs' htag _ ih =>
    by_cases hnil : discProps env ts = []
    · exact loads_union_congr hnil ih
    · have ht : ∃ p, IsTag env ts p := by
        cases hd : discProps env ts with
        | nil => exact absurd hd hnil
        | cons p ps => exact ⟨p, mem_discProps.1 (by rw [hd]; simp)⟩
      by_cases hs : Supported env (.union ts)
      · obtain ⟨table, h1, _, h3⟩ := compile_tagged hk ht hs
        rw [loads_of_compile h1, loads_of_compile h1, parse_tagged, parse_tagged]
        simp only
        refine taggedLoop_congr (fun p hp => htag p ((tag_mem_iff hk).1 hp)) ?_
        intro p l k hmem
        obtain ⟨t, htm, _, htv, hkey⟩ := (h3 p l k).1 hmem
        obtain ⟨c, _, _, _, rfl, _⟩ := id htv
        rw [parse_key_eq_loads rfl hkey, parse_key_eq_loads rfl hkey]
        exact ih _ htm
      · have : ∀ j, loads env true (.union ts) j = loads env true (.union ts) .null := by
          intro j
          unfold loads
          cases h : compile env (.union ts) with
          | ok d => exact absurd ⟨d, h⟩ hs
          | error e => rfl
        rw [this, this (.obj kvs')]
  | @unionArr ts xs ys _ ih =>
    by_cases hnil : discProps env ts = []
    · exact loads_union_congr hnil ih
    · unfold loads
      simp only [compile, if_neg hnil]
      cases buildTags [] (tagItems env ts) with
      | error e => rfl
      | ok table => simp only; rw [parse_tagged, parse_tagged]
  | @notObj t kvs kvs' hn =>
    cases t with
    | literal ls => exact loads_literal_any hk true ls _ _ rfl rfl
    | enum e => exact loads_enum_any hk true e _ _ rfl rfl
    | list t =>
      unfold loads
      simp only [compile]
      cases compile env t with
      | error e => rfl
      | ok d => simp only; rw [parse_eq, parse_eq]; rfl
    | set t =>
      unfold loads
      simp only [compile]
      cases compile env t with
      | error e => rfl
      | ok d => simp only; rw [parse_eq, parse_eq]; rfl
    | tuple ts =>
      unfold loads
      simp only [compile]
      cases compileL env ts with
      | error e => rfl
      | ok d => simp only; rw [parse_eq, parse_eq]; rfl
    | dict | union | annotated | cls => exact absurd hn (by simp [NotFromObj])
    | _ => rfl
  | @notArr t xs ys hn =>
    cases t with
    | literal ls => exact loads_literal_any hk true ls _ _ rfl rfl
    | enum e => exact loads_enum_any hk true e _ _ rfl rfl
    | dict k t =>
      unfold loads
      simp only [compile]
      cases checkKeyTy env k with
      | error e => rfl
      | ok _ =>
        simp only
        cases compile env t with
        | error e => rfl
        | ok d => simp only; rw [parse_eq, parse_eq]; rfl
    | list | set | tuple | union | annotated | cls => exact absurd hn (by simp [NotFromArr])
    | _ => rfl
  | @cls c cd kvs kvs' hc hcu hnone hnull _ ih =>
    by_cases hr : Readable env c cd
    · rw [loads_cls_obj hk true hr, loads_cls_obj hk true hr]
      simp only [true_or, if_true]
      have : mapRes (readNamed env true cd.kind kvs) cd.hints = mapRes (readNamed env true cd.kind kvs') cd.hints := by
        refine mapRes_congr ?_
        intro f hf
        unfold readNamed
        have : readField env true cd.kind f kvs = readField env true cd.kind f kvs' := by
          have h1 := hnone f hf
          have h2 := hnull f hf
          unfold readField
          cases hx : lookupKey (fieldProp cd.kind f) kvs with
          | none => rw [h1.1 hx]
          | some x =>
            cases hy : lookupKey (fieldProp cd.kind f) kvs' with
            | none => rw [h1.2 hy] at hx; cases hx
            | some y =>
              by_cases hxn : x = .null
              · subst hxn
                rw [h2.1 hx] at hy; cases hy; rfl
              · by_cases hyn : y = .null
                · subst hyn
                  rw [h2.2 hy] at hx; cases hx; rfl
                · have := ih f hf x y ⟨hx, hxn⟩ ⟨hy, hyn⟩
                  cases x <;> first | exact absurd rfl hxn | skip
                  all_goals cases y <;> first | exact absurd rfl hyn | exact this
        rw [this]
      rw [this]
    · rw [loads_of_compile (compile_cls hc), loads_of_compile (compile_cls hc), parse_ref, parse_ref]
      simp only [parseRef, fullHeap_cls hk true hc, classEntry, hcu, Bool.false_eq_true, if_false]
      cases hf : compileFields env cd with
      | error e => rfl
      | ok fds =>
        -- an untyped named tuple with fields: has no annotated fields, and cannot be created
        have hnt : cd.kind = .namedTuple false ∧ cd.fields ≠ [] := by
          refine ⟨?_, ?_⟩
          · apply Classical.byContradiction
            intro hne
            exact hr ⟨hc, hcu, fun h => absurd h hne, supported_of_compileFields hf⟩
          · intro hne
            exact hr ⟨hc, hcu, fun _ => hne, supported_of_compileFields hf⟩
        have hh : cd.hints = [] := by simp [ClassDef.hints, hnt.1]
        have : fds = [] := by
          unfold compileFields at hf
          rw [hh] at hf
          cases hf; rfl
        subst this
        rfl

/-- In particular, adding, removing or changing one property that belongs to no field. -/
theorem C18_class (env : Env) (hk : env.Ok) (c : Nat) (cd : ClassDef) (hc : env.classes[c]? = some cd)
    (hcu : cd.custom = false) (kvs kvs' : List (Str × Json))
    (h : ∀ f ∈ cd.hints, lookupKey (fieldProp cd.kind f) kvs = lookupKey (fieldProp cd.kind f) kvs') :
    loads env true (.cls c) (.obj kvs) = loads env true (.cls c) (.obj kvs') := by
  refine C18_no_influence env hk _ _ _ (.cls hc hcu ?_ ?_ ?_)
  · intro f hf; rw [h f hf]
  · intro f hf; rw [h f hf]
  · intro f hf x y hx hy
    have := h f hf
    rw [hx.1, hy.1] at this
    cases this
    exact .refl

/-- C17, second part: with `skip_unassigned`, unknown properties never cause an error: the outcome is the one for the
data without them. -/
theorem C17_skip (env : Env) (hk : env.Ok) (c : Nat) (cd : ClassDef) (hc : env.classes[c]? = some cd)
    (hcu : cd.custom = false) (kvs known : List (Str × Json))
    (hkn : known = kvs.filter (fun kv => cd.hints.any (fun f => fieldProp cd.kind f = kv.1))) :
    loads env true (.cls c) (.obj kvs) = loads env true (.cls c) (.obj known) := by
  refine C18_class env hk c cd hc hcu kvs known ?_
  intro f hf
  subst hkn
  induction kvs with
  | nil => rfl
  | cons kv kvs ih =>
    obtain ⟨k, x⟩ := kv
    by_cases he : k = fieldProp cd.kind f
    · subst he
      have : (cd.hints.any fun g => decide (fieldProp cd.kind g = fieldProp cd.kind f)) = true :=
        List.any_eq_true.2 ⟨f, hf, by simp⟩
      rw [List.filter_cons_of_pos (by simpa using this)]
      simp [lookupKey]
    · simp only [List.filter_cons]
      split
      · simp only [lookupKey, he, if_false]; exact ih
      · simp only [lookupKey, he, if_false]; exact ih

/-! ### The hypotheses are met -/

private def exInner : ClassDef :=
  { module := c!"m", name := c!"Inner", kind := .dataclass false, fields := [{ name := c!"id", ty := .int }] }
private def exOuter : ClassDef :=
  { module := c!"m", name := c!"Outer", kind := .plain, fields := [{ name := c!"items", ty := .list (.cls 0) }] }
private def exEnv : Env := ⟨[], [exInner, exOuter], id⟩
private theorem exEnv_ok : exEnv.Ok :=
  ⟨by decide +kernel, by simp [exEnv], by simp [exEnv, exInner, exOuter], fun _ => .refl _⟩

/-- An unknown property in a class inside a list inside another class: rejected, or ignored with `skip_unassigned`. -/
example : loads exEnv false (.cls 1) (.obj [(c!"items", .arr [.obj [(c!"id", .int 1), (c!"x", .null)]])]) =
    .error .jsonKey := rfl
example : loads exEnv true (.cls 1) (.obj [(c!"items", .arr [.obj [(c!"id", .int 1), (c!"x", .null)]])]) =
    .ok (.obj 1 [(c!"items", .list [.obj 0 [(c!"id", .int 1)]])]) := rfl

example : Agree exEnv (.cls 1) (.obj [(c!"items", .arr [.obj [(c!"id", .int 1), (c!"x", .null)]])])
    (.obj [(c!"y", .int 2), (c!"items", .arr [.obj [(c!"id", .int 1)]])]) := by
  refine .cls (cd := exOuter) rfl rfl ?_ ?_ ?_
  · intro f hf; rcases List.mem_singleton.1 hf with rfl
    constructor <;> intro h <;> cases h
  · intro f hf; rcases List.mem_singleton.1 hf with rfl
    constructor <;> intro h <;> cases h
  · intro f hf x y hx hy
    rcases List.mem_singleton.1 hf with rfl
    cases hx.1
    cases hy.1
    refine .list rfl ?_
    intro i x y hx hy
    cases i with
    | succ i => simp at hx
    | zero =>
      cases hx; cases hy
      refine .cls (cd := exInner) rfl rfl ?_ ?_ ?_
      · intro f hf; rcases List.mem_singleton.1 hf with rfl
        constructor <;> intro h <;> cases h
      · intro f hf; rcases List.mem_singleton.1 hf with rfl
        constructor <;> intro h <;> cases h
      · intro f hf x y hx hy
        rcases List.mem_singleton.1 hf with rfl
        cases hx.1; cases hy.1
        exact .refl

end Verif
