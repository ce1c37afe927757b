import Verif.Spec.SchemaRead
import Verif.Lemmas.SchemaAccept
import Verif.Lemmas.ClassBuildValid
import Verif.Props.C12_TypeSafety
/-!
# Data that is valid for the schema of a type is read by the type
-/
namespace Verif

variable {vc : ValidatorCfg} {cfg : SchemaCfg} {env : Env} {cat : SchemaCatalog} {root : Json} {names : Str → Prop}

/-! ### Types -/

theorem supportedL {ts : List Ty} (h : ∀ t ∈ ts, Supported env t) : ∃ ds, compileL env ts = .ok ds := by
  induction ts with
  | nil => exact ⟨[], rfl⟩
  | cons t ts ih =>
    obtain ⟨d, hd⟩ := h t (by simp)
    obtain ⟨ds, hds⟩ := ih fun u hu => h u (by simp [hu])
    exact ⟨d :: ds, by simp only [compileL, hd, hds]⟩

theorem Dependable.supported (hk : env.Ok) {t : Ty} (h : Dependable env t) : Supported env t := by
  induction h with
  | leaf h =>
    simp only [List.mem_cons, List.not_mem_nil, or_false] at h
    rcases h with rfl | rfl | rfl | rfl | rfl | rfl | rfl | rfl | rfl <;> exact ⟨_, rfl⟩
  | literal h _ => exact supported_lit h
  | enum he _ => exact ⟨_, by simp only [compile, tyKey, he]; rfl⟩
  | annotated _ ih => obtain ⟨d, hd⟩ := ih; exact ⟨d, hd⟩
  | list _ ih => exact ih.list
  | set _ _ ih => obtain ⟨d, hd⟩ := ih; exact ⟨_, by simp only [compile, hd]; rfl⟩
  | tuple _ ih => obtain ⟨ds, hd⟩ := supportedL ih; exact ⟨_, by simp only [compile, hd]; rfl⟩
  | dictStr _ ih => obtain ⟨d, hd⟩ := ih; exact ⟨_, by simp only [compile, checkKeyTy, hd]; rfl⟩
  | dictEnum he hne _ hs _ ih =>
    obtain ⟨d, hd⟩ := ih
    have hsv : EnumDef.strValued _ = true := Bool.and_eq_true_iff.2 ⟨by simpa using hne, List.all_eq_true.2 fun m hm => by
      obtain ⟨x, hx⟩ := hs m hm
      simp only [hx]⟩
    exact ⟨_, by simp only [compile, checkKeyTy, he, hsv, if_true, hd]; rfl⟩
  | untagged hu _ _ ih => obtain ⟨ds, hc, _⟩ := compile_untagged hu ih; exact ⟨_, hc⟩
  | tagged ht ha _ _ => exact ((C23_ambiguous_iff env hk _ ht).2).2 ha
  | cls hc => exact ⟨_, compile_cls hc⟩

theorem ClassReads.fieldTy {cd : ClassDef} (h : ClassReads env cd) {f : FieldDef} (hf : f ∈ cd.hints) :
    fieldTy cd.kind f = f.ty.required := by
  have ha := h.absent f hf
  unfold Verif.fieldTy
  split
  · rename_i b hkd
    have ho : f.ty.isOptional = false := by
      cases ho : f.ty.isOptional with
      | false => rfl
      | true => exact absurd (by rw [hkd]; simp [IsRequired, absentValue]) (ha ho)
    simp [Ty.required, ho]
  · rfl

theorem ClassReads.readable (hk : env.Ok) {c : Nat} {cd : ClassDef} (hc : env.classes[c]? = some cd) (h : ClassReads env cd) :
    Readable env c cd where
  cls := hc
  standard := h.standard
  typed hkd := absurd (by simp [ClassDef.hints, hkd]) h.fields
  fields f hf := by
    rw [h.fieldTy hf]
    exact (h.types f hf).supported hk

/-! ### Members of sets -/

theorem setItem_hashable (hk : env.Ok) {t : Ty} (ht : setItem t = true) {j : Json} {v : Val} (h : loads env false t j = .ok v) :
    hashable env v = true := by
  have leaf : ∀ {α : Type} (f : Str → Res α) (mk : α → Val), strLeaf f mk j = .ok v → ∃ a, v = mk a := by
    intro α f mk h
    cases j <;> simp only [strLeaf, reduceCtorEq] at h
    split at h
    · cases h; exact ⟨_, rfl⟩
    · cases h
  revert ht
  generalize hsz : sizeOf t = sz
  induction sz using Nat.strongRecOn generalizing t with | _ sz ih =>
  intro ht
  cases t <;> simp only [setItem, reduceCtorEq] at ht
  case bool => cases j <;> cases h <;> rfl
  case int => cases j <;> cases h <;> rfl
  case float =>
    simp only [loads, compile, parse_eq, parseD] at h
    unfold parseFloat at h
    split at h
    · cases h; rfl
    · split at h <;> cases h; rfl
    · split at h <;> cases h; rfl
    · cases h
  case str => cases j <;> cases h <;> rfl
  case bytes => simp only [loads, compile, parse_eq, parseD] at h; obtain ⟨a, rfl⟩ := leaf _ _ h; rfl
  case datetime => simp only [loads, compile, parse_eq, parseD] at h; obtain ⟨a, rfl⟩ := leaf _ _ h; rfl
  case date => simp only [loads, compile, parse_eq, parseD] at h; obtain ⟨a, rfl⟩ := leaf _ _ h; rfl
  case time => simp only [loads, compile, parse_eq, parseD] at h; obtain ⟨a, rfl⟩ := leaf _ _ h; rfl
  case timedelta => simp only [loads, compile, parse_eq, parseD] at h; obtain ⟨a, rfl⟩ := leaf _ _ h; rfl
  case uuid => simp only [loads, compile, parse_eq, parseD] at h; obtain ⟨a, rfl⟩ := leaf _ _ h; rfl
  case annotated t ms => exact ih (sizeOf t) (by rw [← hsz]; simp; omega) (t := t) h rfl ht
  case enum e =>
    cases he : env.enums[e]? with
    | none => simp [loads, compile, tyKey, he] at h
    | some ed =>
      rw [loads_enum hk false he] at h
      obtain ⟨_, _, _, _, rfl⟩ := enumLookup_ok h
      rfl

/-! ### Unions -/

theorem validates_oneOf {ss : List Json} {v : Json} (h : Validates vc root (.obj [(c!"oneOf", .arr ss)]) v) :
    ∃ s ∈ ss, Validates vc root s v := by
  rw [validates_obj_iff] at h
  obtain ⟨n, hn⟩ := h _ (List.mem_singleton.2 rfl)
  replace hn : (match countO (ss.map fun s => validate vc root n s v) with | some n => some (n == 1) | none => none) = some true := hn
  split at hn
  · rename_i c hc
    have hc1 : c = 1 := by simpa using hn
    obtain ⟨s, hs, hv⟩ := List.mem_map.1 (countO_pos hc (by omega))
    exact ⟨s, hs, n, hv⟩
  · cases hn

/-- A union without tag reads what one of its members reads, if the members before the last are calm. -/
theorem untagged_reads (hk : env.Ok) {ts : List Ty} {t : Ty} (hun : Untagged env (ts ++ [t]))
    (hsup : ∀ u ∈ ts ++ [t], Supported env u) (hc : ∀ u ∈ ts, Calm env u) {j : Json} (hs : SmallInts j)
    (hn : ¬ Json.null.Within j) {u : Ty} (hu : u ∈ ts ++ [t]) (hr : Reads env u j) : Reads env (.union (ts ++ [t])) j := by
  obtain ⟨w, hw⟩ := hr
  cases hl : loads env false (.union (ts ++ [t])) j with
  | ok v => exact ⟨v, hl⟩
  | error e =>
    exfalso
    rcases (C21_error_iff env false _ hun hsup j e).1 hl with ⟨_, h⟩ | ⟨pre, x, post, heq, h1, h2, h3, h4⟩
    · rcases h u hu with h | h <;> rw [hw] at h <;> cases h
    · by_cases hx : x ∈ ts
      · rcases calm_loads hk (hc x hx) j hs hn e h3 with rfl | rfl
        · exact h1 rfl
        · exact h2 rfl
      · have hpost : post = [] := by
          cases post with
          | nil => rfl
          | cons y ys =>
            exfalso
            have : x ∈ (ts ++ [t]).dropLast := by rw [heq]; simp [List.dropLast_append_of_ne_nil]
            rw [List.dropLast_concat] at this
            exact hx this
        subst hpost
        obtain ⟨rfl, rfl⟩ : ts = pre ∧ t = x := by
          have := List.append_inj' heq rfl
          exact ⟨this.1, by simpa using this.2⟩
        rcases List.mem_append.1 hu with hu | hu
        · rcases h4 u hu with h | h <;> rw [hw] at h <;> cases h
        · rcases List.mem_singleton.1 hu with rfl
          rw [hw] at h3; cases h3

theorem dependable_lit {t : Ty} (ht : Dependable env t) {ls : List Lit} (h : t.litArgs = some ls) :
    ∃ l, (∀ x w, loads env false t x = .ok w → l.eqJson x = true) ∧ ls = [l] := by
  cases ht with
  | literal hl => cases h; exact ⟨_, fun x w hw => loads_lit_eq hl hw, rfl⟩
  | leaf hm => 
    simp only [List.mem_cons, List.not_mem_nil, or_false] at hm
    rcases hm with rfl | rfl | rfl | rfl | rfl | rfl | rfl | rfl | rfl <;> cases h
  | annotated ht' =>
    cases ht' with
    | literal hl => cases h; exact ⟨_, fun x w hw => loads_lit_eq hl hw, rfl⟩
    | leaf hm => 
      simp only [List.mem_cons, List.not_mem_nil, or_false] at hm
      rcases hm with rfl | rfl | rfl | rfl | rfl | rfl | rfl | rfl | rfl <;> cases h
    | _ => cases h
  | _ => cases h

/-- A union with tags reads what one of its members reads. -/
theorem tagged_reads (hk : env.Ok) (hcr : ∀ cd ∈ env.classes, ClassReads env cd) {ts : List Ty} (ht : ∃ p, IsTag env ts p)
    (ha : ¬ Ambiguous env ts) (hdf : ∀ p c cd f, IsTag env ts p → Ty.cls c ∈ ts → env.classes[c]? = some cd → f ∈ cd.hints →
      f.name = p → fieldProp cd.kind f = p ∧ IsRequired cd.kind f) {j : Json} {u : Ty} (hu : u ∈ ts) (hr : Reads env u j) :
    Reads env (.union ts) j := by
  have hsup : Supported env (.union ts) := ((C23_ambiguous_iff env hk _ ht).2).2 ha
  obtain ⟨p, hp⟩ := ht
  obtain ⟨c, cd, f, rfl, hc, hfm, rfl, hst, hlit⟩ := hp.2 u hu
  have hcc := hcr cd (List.mem_of_getElem? hc)
  have hrd := hcc.readable hk hc
  obtain ⟨v, hv⟩ := hr
  obtain ⟨kvs, vs, rfl, rfl, hall, _⟩ := (loads_cls_ok_iff hk false hrd j v).1 hv
  -- every tag is present with a literal of this class
  have hkey : ∀ q, IsTag env ts q → ∃ x, Present kvs q x ∧ ∃ l, TagValue env (.cls c) q l ∧ l.eqJson x = true := by
    intro q hq
    obtain ⟨c', cd', g, he, hc', hgm, rfl, hgs, hgl⟩ := hq.2 _ hu
    cases he
    rw [hc] at hc'; cases hc'
    obtain ⟨⟨wn, w⟩, _, _, hread⟩ := hall.mem_left hgm
    simp only at hread
    obtain ⟨hprop, habs⟩ := hdf g.name c cd g hq hu hc hgm rfl
    obtain ⟨ls, hls⟩ := Option.isSome_iff_exists.1 hgl
    have hnopt : g.ty.isOptional = false := by
      unfold Ty.litArgs at hls
      unfold Ty.isOptional
      cases hua : g.ty.unwrapAnn <;> rw [hua] at hls <;> simp at hls <;> rfl
    have hreq : g.ty.required = g.ty := by simp [Ty.required, hnopt]
    have hty : fieldTy cd.kind g = g.ty := by rw [hcc.fieldTy hgm, hreq]
    have hdep : Dependable env g.ty := hreq ▸ hcc.types g hgm
    unfold readField at hread
    rw [hprop, hty, habs] at hread
    simp only at hread
    split at hread
    · cases hread
    · cases hread
    · rename_i x hnull hx
      refine ⟨x, ⟨hx, fun h => hnull h⟩, ?_⟩
      obtain ⟨l, hl1, hl2⟩ := dependable_lit hdep hls
      subst hl2
      exact ⟨l, ⟨c, cd, g, [l], rfl, hc, hgm, rfl, hgs, hls, by simp⟩, hl1 x _ hread⟩
  obtain ⟨x, hx, _⟩ := hkey _ hp
  have := C22_selected env hk false ts hsup c hu kvs ⟨_, x, hp, hx⟩ (by
    intro q y hq hy
    obtain ⟨x', hx', h⟩ := hkey q hq
    have : x' = y := Option.some.inj (hx'.1.symm.trans hy.1)
    exact this ▸ h)
  exact ⟨_, this.trans hv⟩

/-! ### Literals and enumerations -/

theorem same_scalar {j : Json} {s : Scalar} (h : Json.same j s.toJson = true) : ∃ x, j.scalar = some x ∧ x.pyEq s = true := by
  have key : ∀ x : Scalar, j = x.toJson → j.scalar = some x → ∃ x, j.scalar = some x ∧ x.pyEq s = true := by
    rintro x rfl hx
    exact ⟨x, hx, same_pyEq h⟩
  cases j with
  | null => exact key .none rfl rfl
  | bool b => exact key (.bool b) rfl rfl
  | int i => exact key (.int i) rfl rfl
  | float f => exact key (.float f) rfl rfl
  | str x => exact key (.str x) rfl rfl
  | arr xs => cases s <;> simp [Json.same, Scalar.toJson] at h
  | obj kvs => cases s <;> simp [Json.same, Scalar.toJson] at h

theorem enum_reads (hk : env.Ok) {e : Nat} {ed : EnumDef} (he : env.enums[e]? = some ed) (hne : ∀ m ∈ ed.members, m.2 ≠ .none)
    {s : Sch} (hs : enumSchema env e = .ok s) {j : Json} (h : Validates vc root (.obj s) j) :
    ¬ Json.null.Within j ∧ Reads env (.enum e) j := by
  obtain ⟨ed', q, h2, h3, h4, h5⟩ := enumSchema_cases hs
  rw [he] at h2; cases h2
  rcases h5 with ⟨h5, _⟩ | ⟨_, rfl⟩
  · exact absurd h5 (hne q h3)
  · rw [validates_obj_iff] at h
    have hty := kwOk_type.1 (h _ (List.mem_cons_self ..))
    obtain ⟨n, hn⟩ := h (c!"enum", .arr (ed.members.map fun m => m.2.toJson)) (by simp)
    replace hn : ((ed.members.map fun m => m.2.toJson).any fun y => Json.same j y) = true := Option.some.inj hn
    simp only [List.any_map, List.any_eq_true, Function.comp] at hn
    obtain ⟨m, hm, hsame⟩ := hn
    obtain ⟨x, hx, hxm⟩ := same_scalar hsame
    refine ⟨?_, ?_⟩
    · refine noNull_scalar ?_ ?_ ?_
      · rintro rfl
        cases hmv : m.2 <;> rw [hmv] at hsame <;> simp [Scalar.toJson, Json.same] at hsame
        exact hne m hm hmv
      · rintro xs rfl; cases hx
      · rintro xs rfl; cases hx
    · unfold Reads
      rw [loads_enum hk false he]
      simp only [enumLookup, he, hx]
      have hsome : (ed.members.findIdx? (fun m => x.pyEq m.2)).isSome := by
        rw [List.findIdx?_isSome, List.any_eq_true]
        exact ⟨m, hm, hxm⟩
      obtain ⟨i, hi⟩ := Option.isSome_iff_exists.1 hsome
      rw [hi]
      exact ⟨_, rfl⟩

theorem lit_reads {l : Lit} (hl : ∀ e m, l ≠ Lit.enum e m) (hln : l ≠ .none) {s : Sch} (hs : litSchema l = .ok s) {j : Json}
    (h : Validates vc root (.obj s) j) : ¬ Json.null.Within j ∧ (¬ FloatForInt env (.literal [l]) j → Reads env (.literal [l]) j) := by
  have key : ∀ x, l.scalar = some x → isJsonType (scalarTypeName x) j = some true ∧ Json.same j x.toJson = true := by
    intro x hx
    simp only [litSchema, hx] at hs
    cases hs
    rw [validates_obj_iff] at h
    obtain ⟨n, hn⟩ := h (c!"const", x.toJson) (by simp)
    exact ⟨kwOk_type.1 (h _ (List.mem_cons_self ..)), Option.some.inj hn⟩
  cases l with
  | enum e m => exact absurd rfl (hl e m)
  | none => exact absurd rfl hln
  | bool b =>
    obtain ⟨h1, h2⟩ := key _ rfl
    cases j <;> simp [scalarTypeName, isJsonType] at h1
    rename_i b'
    simp [Scalar.toJson, Json.same] at h2
    subst h2
    exact ⟨noNull_scalar (by simp) (by simp) (by simp), fun _ => ⟨.bool b', by cases b' <;> rfl⟩⟩
  | int i =>
    obtain ⟨h1, h2⟩ := key _ rfl
    cases j <;> simp [scalarTypeName, isJsonType] at h1
    · rename_i i'
      simp [Scalar.toJson, Json.same] at h2
      subst h2
      exact ⟨noNull_scalar (by simp) (by simp) (by simp), fun _ => ⟨.int i', by simp [loads, compile, compileLit, litDeser, parse_eq, parseD, parseInt, litMem, Lit.scalar, Val.scalar, Scalar.pyEq, Scalar.asInt]⟩⟩
    · exact ⟨noNull_scalar (by simp) (by simp) (by simp), fun hf => absurd (.literal h1) hf⟩
  | str x =>
    obtain ⟨h1, h2⟩ := key _ rfl
    cases j <;> simp [scalarTypeName, isJsonType] at h1
    rename_i x'
    simp [Scalar.toJson, Json.same] at h2
    subst h2
    exact ⟨noNull_scalar (by simp) (by simp) (by simp), fun _ => ⟨.str x', by simp [loads, compile, compileLit, litDeser, parse_eq, parseD, parseStr, litMem, Lit.scalar, Val.scalar, Scalar.pyEq]⟩⟩

/-! ### Simple types -/

theorem leaf_reads (hfm : FormatsRead vc) {t : Ty}
    (ht : t ∈ [Ty.bool, .int, .float, .str, .datetime, .date, .time, .timedelta, .uuid]) {s : Sch} (hs : simpleSchema t = some s)
    {j : Json} (hi : SmallInts j) (h : Validates vc root (.obj s) j) :
    ¬ Json.null.Within j ∧ (¬ FloatForInt env t j → Reads env t j) := by
  rw [validates_obj_iff] at h
  have text : ∀ f, (f, t) ∈ textFormats → s = [(c!"type", js c!"string"), (c!"format", js f)] →
      ¬ Json.null.Within j ∧ (¬ FloatForInt env t j → Reads env t j) := by
    rintro f hf rfl
    have h1 := kwOk_type.1 (h _ (List.mem_cons_self ..))
    obtain ⟨n, hn⟩ := h (c!"format", js f) (by simp)
    cases j <;> simp [isJsonType] at h1
    exact ⟨noNull_scalar (by simp) (by simp) (by simp), fun _ => hfm f t hf _ (Option.some.inj hn) env⟩
  simp only [List.mem_cons, List.not_mem_nil, or_false] at ht
  rcases ht with rfl | rfl | rfl | rfl | rfl | rfl | rfl | rfl | rfl
  · cases hs
    have h1 := kwOk_type.1 (h _ (List.mem_cons_self ..))
    cases j <;> simp [isJsonType] at h1
    exact ⟨noNull_scalar (by simp) (by simp) (by simp), fun _ => ⟨_, rfl⟩⟩
  · cases hs
    have h1 := kwOk_type.1 (h _ (List.mem_cons_self ..))
    cases j <;> simp [isJsonType] at h1
    · exact ⟨noNull_scalar (by simp) (by simp) (by simp), fun _ => ⟨_, rfl⟩⟩
    · exact ⟨noNull_scalar (by simp) (by simp) (by simp), fun hf => absurd (.int h1) hf⟩
  · cases hs
    have h1 := kwOk_type.1 (h _ (List.mem_cons_self ..))
    cases j <;> simp [isJsonType] at h1
    · rename_i i
      obtain ⟨f, hf⟩ := intToFloat_small (hi i .int)
      exact ⟨noNull_scalar (by simp) (by simp) (by simp), fun _ => ⟨.float f, by rw [loads_float_int, hf]; rfl⟩⟩
    · exact ⟨noNull_scalar (by simp) (by simp) (by simp), fun _ => ⟨_, rfl⟩⟩
  · cases hs
    have h1 := kwOk_type.1 (h _ (List.mem_cons_self ..))
    cases j <;> simp [isJsonType] at h1
    exact ⟨noNull_scalar (by simp) (by simp) (by simp), fun _ => ⟨_, rfl⟩⟩
  · cases hs; exact text c!"date-time" (by simp [textFormats]) rfl
  · cases hs; exact text c!"date" (by simp [textFormats]) rfl
  · cases hs; exact text c!"time" (by simp [textFormats]) rfl
  · cases hs; exact text c!"duration" (by simp [textFormats]) rfl
  · cases hs; exact text c!"uuid" (by simp [textFormats]) rfl

/-! ### All types -/

theorem noNull_list {xs : List Json} (h : ∀ x ∈ xs, ¬ Json.null.Within x) : ¬ Json.null.Within (.arr xs) := by
  intro hn
  cases hn with
  | arr hm hx => exact h _ hm hx

theorem noNull_dict {kvs : List (Str × Json)} (h : ∀ kv ∈ kvs, ¬ Json.null.Within kv.2) : ¬ Json.null.Within (.obj kvs) := by
  intro hn
  cases hn with
  | obj hm hx => exact h _ hm hx

theorem read_all2 {t : Ty} : ∀ {xs : List Json}, (∀ x ∈ xs, Reads env t x) → ∃ vs, All2 (fun x w => loads env false t x = .ok w) xs vs := by
  intro xs
  induction xs with
  | nil => intro _; exact ⟨[], .nil⟩
  | cons x xs ih =>
    intro h
    obtain ⟨v, hv⟩ := h x (by simp)
    obtain ⟨vs, hvs⟩ := ih fun y hy => h y (by simp [hy])
    exact ⟨v :: vs, .cons hv hvs⟩

theorem read_tuple : ∀ {ts : List Ty} {xs : List Json}, xs.length = ts.length →
    (∀ (i : Nat) x t, xs[i]? = some x → ts[i]? = some t → Reads env t x) →
    ∃ vs : List Val, vs.length = ts.length ∧ ∀ (i : Nat) x t w, xs[i]? = some x → ts[i]? = some t → vs[i]? = some w →
      loads env false t x = .ok w := by
  intro ts
  induction ts with
  | nil => intro xs _ _; exact ⟨[], rfl, by simp⟩
  | cons t ts ih =>
    intro xs hxl hr
    cases xs with
    | nil => cases hxl
    | cons x xs =>
      obtain ⟨v, hv⟩ := hr 0 x t rfl rfl
      obtain ⟨vs, h1, h2⟩ := ih (by simpa using hxl) fun i x t hx ht => hr (i + 1) x t hx ht
      refine ⟨v :: vs, by simp [h1], ?_⟩
      rintro (_ | i) x' t' w h3 h4 h5
      · cases h3; cases h4; cases h5; exact hv
      · exact h2 i x' t' w h3 h4 h5

theorem read_entries {k : Str → Key → Prop} {t : Ty} : ∀ {kvs : List (Str × Json)}, (∀ kv ∈ kvs, (∃ x, k kv.1 x) ∧ Reads env t kv.2) →
    ∃ out : List (Key × Val), All2 (fun kv w => k kv.1 w.1 ∧ loads env false t kv.2 = .ok w.2) kvs out := by
  intro kvs
  induction kvs with
  | nil => intro _; exact ⟨[], .nil⟩
  | cons kv kvs ih =>
    intro h
    obtain ⟨⟨x, hx⟩, v, hv⟩ := h kv (by simp)
    obtain ⟨vs, hvs⟩ := ih fun y hy => h y (by simp [hy])
    exact ⟨(x, v) :: vs, .cons ⟨hx, hv⟩ hvs⟩

theorem sizeOf_value {kv : Str × Json} {kvs : List (Str × Json)} (h : kv ∈ kvs) {n : Nat} (hn : sizeOf (Json.obj kvs) < n) :
    sizeOf kv.2 + 1 < n := by
  have h1 := List.sizeOf_lt_of_mem h
  have h2 : sizeOf kv.2 < sizeOf kv := by cases kv; simp; omega
  simp at hn; omega

theorem union_member {cls : Nat → SchRes Sch} {fwd skip : Bool} {ts : List Ty} {ss : List Sch} {us : List TypeUse} {j : Json}
    (h : tySchemas cfg env cat cls fwd skip ts = .ok (ss, us)) (hv : ∃ s ∈ ss.map Json.obj, Validates vc root s j) :
    ∃ (i : Nat) (u : Ty) (s : Sch) (us' : List TypeUse), ts[i]? = some u ∧ tySchema cfg env cat cls fwd skip u = .ok (s, us') ∧
      (∀ x ∈ us', x ∈ us) ∧ Validates vc root (.obj s) j := by
  obtain ⟨s', hs, hv⟩ := hv
  obtain ⟨s, hsm, rfl⟩ := List.mem_map.1 hs
  obtain ⟨hlen, hss, _⟩ := tySchemas_ok h
  obtain ⟨i, hi⟩ := List.mem_iff_getElem?.1 hsm
  have hlt : i < ts.length := by rw [← hlen]; exact (List.getElem?_eq_some_iff.1 hi).1
  obtain ⟨us', h1, h2⟩ := hss i _ s (List.getElem?_eq_getElem hlt) hi
  exact ⟨i, _, s, us', List.getElem?_eq_getElem hlt, h1, h2, hv⟩

/-- Data that is valid for the schema of a type holds no `null` and is read by the type. -/
theorem valid_read (hp : SchemaNames cfg env cat) (hk : env.Ok) (hcr : ∀ cd ∈ env.classes, ClassReads env cd)
    (hg : GoodDoc cfg env cat root names) (hfm : FormatsRead vc) :
    ∀ (n : Nat) {t : Ty}, Dependable env t → ∀ {j : Json}, sizeOf j < n → j.Wf → SmallInts j →
      ∀ {fwd skip : Bool} {s : Sch}, TySch cfg env cat names fwd skip t s → FwdOk env cat fwd skip t →
        Validates vc root (.obj s) j → ¬ Json.null.Within j ∧ (¬ FloatForInt env t j → Reads env t j) := by
  intro n
  induction n with
  | zero => intro t _ j h; omega
  | succ n ihn =>
  intro t ht
  induction ht with
  | @leaf t hm =>
    intro j hsz hw hi fwd skip s hs hf hv
    obtain ⟨b, hb⟩ : ∃ b, simpleSchema t = some b := by
      simp only [List.mem_cons, List.not_mem_nil, or_false] at hm
      rcases hm with rfl | rfl | rfl | rfl | rfl | rfl | rfl | rfl | rfl <;> exact ⟨_, rfl⟩
    rw [simple_tySch hb hs] at hv
    exact leaf_reads hfm hm hb hi hv
  | @literal l hl hln =>
    rintro j hsz hw hi fwd skip s ⟨m, us, h1, h2⟩ hf hv
    simp only [tySchema] at h1
    split at h1
    · cases h1
    · rename_i s1 hs
      cases h1
      exact lit_reads hl hln hs hv
  | @enum e ed he hne =>
    intro j hsz hw hi fwd skip s hs hf hv
    obtain ⟨s0, h1, h2⟩ := reg_meaning (vc := vc) hp hg (k := .enum e) _ _ _ rfl hs hf
    obtain ⟨h3, h4⟩ := enum_reads hk he hne h1 ((h2 j).1 hv)
    exact ⟨h3, fun _ => h4⟩
  | @annotated t ms ht ih =>
    rintro j hsz hw hi fwd skip s ⟨m, us, h1, h2⟩ hf hv
    have hfl : ¬ FloatForInt env (.annotated t ms) j → ¬ FloatForInt env t j := fun h h' => h (.annotated h')
    simp only [tySchema] at h1
    split at h1
    · rename_i base hb
      have hbv : Validates vc root (.obj base) j := by
        split at h1
        · rename_i fmt hfmt
          cases h1
          cases t <;> simp only [auxFormat, reduceCtorEq] at hfmt <;> cases hb <;>
          · rw [validates_obj_iff] at hv ⊢
            intro ka hka
            rw [List.mem_singleton] at hka
            subst hka
            exact kwOk_type.2 (kwOk_type.1 (hv _ (List.mem_cons_self ..)))
        · cases h1
          exact ((C50_annotated t ms base j hb).1 hv).1
      obtain ⟨h3, h4⟩ := ih hsz hw hi (fwd := fwd) (skip := true) (s := base) ⟨m, [], by
          cases t <;> simp only [simpleSchema, Option.some.injEq, reduceCtorEq] at hb <;> subst hb <;> rfl, by simp [UsesIn]⟩
        (fun hfw k b ho => hf hfw k b (.annotated ho)) hbv
      exact ⟨h3, fun h => h4 (hfl h)⟩
    · obtain ⟨h3, h4⟩ := ih hsz hw hi ⟨m, us, h1, h2⟩ (fun hfw k b ho => hf hfw k b (.annotated ho)) hv
      exact ⟨h3, fun h => h4 (hfl h)⟩
  | @list t ht ih =>
    rintro j hsz hw hi fwd skip s ⟨m, us, h1, h2⟩ hf hv
    simp only [tySchema] at h1
    rw [SchRes.map_ok] at h1
    obtain ⟨s1, h1, h3⟩ := h1
    cases h3
    obtain ⟨xs, rfl, hxs⟩ := valid_list.1 hv
    cases hw with
    | arr hw =>
      have hall : ∀ x ∈ xs, ¬ Json.null.Within x ∧ (¬ FloatForInt env t x → Reads env t x) := by
        intro x hx
        refine ih (by have := List.sizeOf_lt_of_mem hx; simp at hsz; omega) (hw x hx) (hi.arr x hx) ⟨m, us, h1, h2⟩ ?_ (hxs x hx)
        intro hfw k b ho
        subst hfw
        exact hf rfl k b (.list ho)
      refine ⟨noNull_list fun x hx => (hall x hx).1, fun hfl => ?_⟩
      obtain ⟨vs, hvs⟩ := read_all2 fun x hx => (hall x hx).2 fun h => hfl (.list hx h)
      exact ⟨_, (C15_list env false t (ht.supported hk) _ _).2 ⟨xs, vs, rfl, rfl, hvs⟩⟩
  | @set t hsi ht ih =>
    rintro j hsz hw hi fwd skip s ⟨m, us, h1, h2⟩ hf hv
    simp only [tySchema] at h1
    rw [SchRes.map_ok] at h1
    obtain ⟨s1, h1, h3⟩ := h1
    cases h3
    obtain ⟨xs, rfl, hxs, _⟩ := valid_set.1 hv
    cases hw with
    | arr hw =>
      have hall : ∀ x ∈ xs, ¬ Json.null.Within x ∧ (¬ FloatForInt env t x → Reads env t x) := by
        intro x hx
        refine ih (by have := List.sizeOf_lt_of_mem hx; simp at hsz; omega) (hw x hx) (hi.arr x hx) ⟨m, us, h1, h2⟩ ?_ (hxs x hx)
        intro hfw k b ho
        subst hfw
        exact hf rfl k b (.set ho)
      refine ⟨noNull_list fun x hx => (hall x hx).1, fun hfl => ?_⟩
      obtain ⟨vs, hvs⟩ := read_all2 fun x hx => (hall x hx).2 fun h => hfl (.set hx h)
      refine (C15_set_ok env false t (ht.supported hk) _).2 ⟨xs, vs, rfl, hvs, fun w hw => ?_⟩
      obtain ⟨x, _, hx⟩ := hvs.mem_right hw
      exact setItem_hashable hk hsi hx
  | @tuple ts ht ih =>
    rintro j hsz hw hi fwd skip s ⟨m, us, h1, h2⟩ hf hv
    simp only [tySchema] at h1
    rw [SchRes.map_ok] at h1
    obtain ⟨ss, h1, h3⟩ := h1
    cases h3
    obtain ⟨hlen, hss, _⟩ := tySchemas_ok h1
    obtain ⟨xs, rfl, hxl, hxs⟩ := valid_tuple.1 hv
    have hxl : xs.length = ts.length := by omega
    cases hw with
    | arr hw =>
      have hall : ∀ (i : Nat) x t, xs[i]? = some x → ts[i]? = some t → ¬ Json.null.Within x ∧ (¬ FloatForInt env t x → Reads env t x) := by
        intro i x t hx hti
        have hxm := List.mem_of_getElem? hx
        have htm := List.mem_of_getElem? hti
        have hlt : i < ss.length := by rw [hlen]; exact (List.getElem?_eq_some_iff.1 hti).1
        obtain ⟨s1, hs1⟩ : ∃ s1, ss[i]? = some s1 := ⟨_, List.getElem?_eq_getElem hlt⟩
        obtain ⟨us', h4, h5⟩ := hss i t s1 hti hs1
        refine ih t htm (by have := List.sizeOf_lt_of_mem hxm; simp at hsz; omega) (hw x hxm) (hi.arr x hxm)
          ⟨m, us', h4, fun u hu => h2 u (h5 u hu)⟩ ?_ (hxs (.obj s1, x) (List.mem_iff_getElem?.2 ⟨i, ?_⟩))
        · intro hfw k b ho
          subst hfw
          exact hf rfl k b (.tuple htm ho)
        · rw [List.getElem?_zip_eq_some, List.getElem?_map, hs1]
          exact ⟨rfl, hx⟩
      refine ⟨noNull_list fun x hx => ?_, fun hfl => ?_⟩
      · obtain ⟨i, hi⟩ := List.mem_iff_getElem?.1 hx
        have hlt : i < ts.length := by rw [← hxl]; exact (List.getElem?_eq_some_iff.1 hi).1
        exact (hall i x _ hi (List.getElem?_eq_getElem hlt)).1
      · have hr : ∀ (i : Nat) x t, xs[i]? = some x → ts[i]? = some t → Reads env t x := fun i x t hx hti =>
          (hall i x t hx hti).2 fun h => hfl (.tuple hti hx h)
        have hsup : ∀ t ∈ ts, Supported env t := fun t htm => (ht t htm).supported hk
        obtain ⟨vs, hvl, hvs⟩ := read_tuple hxl hr
        exact ⟨_, (C15_tuple env false ts hsup _ _).2 ⟨xs, vs, rfl, rfl, hxl, hvl, hvs⟩⟩
  | @dictStr t ht ih =>
    rintro j hsz hw hi fwd skip s ⟨m, us, h1, h2⟩ hf hv
    simp only [tySchema] at h1
    rw [ite_error_ok, SchRes.map_ok] at h1
    replace h1 := h1.2
    obtain ⟨s1, h1, h3⟩ := h1
    cases h3
    obtain ⟨kvs, rfl, hkv⟩ := valid_dict.1 hv
    cases id hw with
    | obj hnd hwk =>
      have hall : ∀ kv ∈ kvs, ¬ Json.null.Within kv.2 ∧ (¬ FloatForInt env t kv.2 → Reads env t kv.2) := by
        intro kv hm
        refine ih (Nat.lt_of_succ_lt (sizeOf_value hm hsz)) (hwk kv hm) (hi.obj kv hm) ⟨m, us, h1, h2⟩ ?_ (hkv kv hm)
        intro hfw k b ho
        subst hfw
        exact hf rfl k b (.dict ho)
      refine ⟨noNull_dict fun kv hm => (hall kv hm).1, fun hfl => ?_⟩
      obtain ⟨out, hout⟩ := read_entries (k := fun s x => x = Key.str s) fun kv hm =>
        ⟨⟨_, rfl⟩, (hall kv hm).2 fun h => hfl (.dict hm h)⟩
      exact ⟨_, (C15_dict_str env false t (ht.supported hk) _ hw _).2 ⟨kvs, out, rfl, rfl, hout⟩⟩
  | @dictEnum e ed t he hne hlim hst ht ih =>
    rintro j hsz hw hi fwd skip s ⟨m, us, h1, h2⟩ hf hv
    simp only [tySchema] at h1
    rw [ite_error_ok, SchRes.map_ok] at h1
    replace h1 := h1.2
    obtain ⟨s1, h1, h3⟩ := h1
    simp only [dictSchema, he] at h3
    split at h3
    · cases h3
    · rename_i words hwords
      have hwall := (mapRes_ok_iff _ _ _).1 hwords
      rw [if_neg (by rw [← hwall.length]; omega)] at h3
      cases h3
      obtain ⟨kvs, rfl, hps, hkn⟩ := valid_props.1 hv
      have hword : ∀ kv ∈ kvs, kv.1 ∈ words := by
        intro kv hm
        have := hkn kv hm
        rw [foldl_upsert_lookup] at this
        split at this
        · assumption
        · cases this
      cases id hw with
      | obj hnd hwk =>
        have hall : ∀ kv ∈ kvs, ¬ Json.null.Within kv.2 ∧ (¬ FloatForInt env t kv.2 → Reads env t kv.2) := by
          intro kv hm
          refine ih (Nat.lt_of_succ_lt (sizeOf_value hm hsz)) (hwk kv hm) (hi.obj kv hm) ⟨m, us, h1, h2⟩ ?_
            (hps (kv.1, .obj s1) (lookupKey_some_mem (by rw [foldl_upsert_lookup, if_pos (hword kv hm)])) kv.2
              (lookupKey_of_mem hnd hm))
          intro hfw k b ho
          subst hfw
          exact hf rfl k b (.dict ho)
        refine ⟨noNull_dict fun kv hm => (hall kv hm).1, fun hfl => ?_⟩
        obtain ⟨out, hout⟩ := read_entries (k := fun s x => ∃ m name, ed.members[m]? = some (name, Scalar.str s) ∧ x = Key.enum e m)
          fun kv hm => ⟨by
            obtain ⟨p, hpm, hpw⟩ := hwall.mem_right (hword kv hm)
            obtain ⟨x, hx⟩ := hst p hpm
            rw [hx] at hpw
            cases hpw
            obtain ⟨i, hi⟩ := List.mem_iff_getElem?.1 hpm
            exact ⟨_, i, p.1, by rw [hi, ← hx], rfl⟩, (hall kv hm).2 fun h => hfl (.dict hm h)⟩
        exact ⟨_, (C15_dict_enum env false e ed he (hk.enums ed (List.mem_of_getElem? he)) t
          ((Dependable.dictEnum he hne hlim hst ht).supported hk) _ hw _).2 ⟨kvs, out, rfl, rfl, hout⟩⟩
  | @untagged ts t hun hts hc ih =>
    rintro j hsz hw hi fwd skip s ⟨m, us, h1, h2⟩ hf hv
    simp only [tySchema] at h1
    split at h1
    · rw [SchRes.map_ok] at h1
      obtain ⟨ss, h1, h3⟩ := h1
      cases h3
      obtain ⟨i, u, s1, us', hu, h4, h5, hv1⟩ := union_member h1 (validates_oneOf hv)
      have hum := List.mem_of_getElem? hu
      obtain ⟨h6, h7⟩ := ih u hum hsz hw hi ⟨m, us', h4, fun x hx => h2 x (h5 x hx)⟩
        (fun hfw k b ho => hf hfw k b (.union hum ho)) hv1
      exact ⟨h6, fun hfl => untagged_reads hk hun (fun x hx => (hts x hx).supported hk) hc hi h6 hum (h7 fun h => hfl (.union hum h))⟩
    · cases h1
  | @tagged ts htag ha hts hdf ih =>
    rintro j hsz hw hi fwd skip s ⟨m, us, h1, h2⟩ hf hv
    simp only [tySchema] at h1
    split at h1
    · rw [SchRes.map_ok] at h1
      obtain ⟨ss, h1, h3⟩ := h1
      cases h3
      obtain ⟨i, u, s1, us', hu, h4, h5, hv1⟩ := union_member h1 (validates_oneOf hv)
      have hum := List.mem_of_getElem? hu
      obtain ⟨h6, h7⟩ := ih u hum hsz hw hi ⟨m, us', h4, fun x hx => h2 x (h5 x hx)⟩
        (fun hfw k b ho => hf hfw k b (.union hum ho)) hv1
      exact ⟨h6, fun hfl => tagged_reads hk hcr htag ha hdf hum (h7 fun h => hfl (.union hum h))⟩
    · cases h1
  | @cls c cd hc =>
    intro j hsz hw hi fwd skip s hs hf hv
    obtain ⟨s0, h1, h2⟩ := reg_meaning (vc := vc) hp hg (k := .cls c) _ _ _ rfl hs hf
    obtain ⟨ps, rfl, b1, b2, b3⟩ := def_class hp hc h1
    have hcm := List.mem_of_getElem? hc
    have hcc := hcr cd hcm
    obtain ⟨kvs, rfl, h3, h4⟩ := valid_class.1 ((h2 j).1 hv)
    have hps : ps ≠ [] := by
      rintro rfl
      obtain ⟨f, hfm⟩ := List.exists_mem_of_ne_nil _ hcc.fields
      obtain ⟨_, _, c1, _⟩ := b1 f hfm
      cases c1
    obtain ⟨h5, h6⟩ := h3 hps
    cases hw with
    | obj hnd hwk =>
      have hknown : ∀ kv ∈ kvs, ∃ f ∈ cd.hints, jsonName f = kv.1 := by
        intro kv hm
        obtain ⟨s', hs'⟩ := Option.isSome_iff_exists.1 (h6 kv hm)
        exact b2 (kv.1, s') (lookupKey_some_mem hs')
      have hprop : ∀ f ∈ cd.hints, ∀ x, lookupKey (jsonName f) kvs = some x →
          ¬ Json.null.Within x ∧ (¬ FloatForInt env f.ty.required x → Reads env f.ty.required x) := by
        intro f hfm x hx
        obtain ⟨s2, s1, c1, c2, c3⟩ := b1 f hfm
        have hm := lookupKey_some_mem hx
        have := h5 (jsonName f, .obj s2) (lookupKey_some_mem c1) x hx
        exact ihn (hcc.types f hfm) (Nat.lt_of_succ_lt_succ (sizeOf_value hm hsz)) (hwk _ hm)
          (hi.obj _ hm) c3 ((hp.classes cd hcm).forward f hfm) (c2.validates this)
      refine ⟨noNull_dict fun kv hm => ?_, fun hfl => ?_⟩
      · obtain ⟨f, hfm, hfn⟩ := hknown kv hm
        exact (hprop f hfm kv.2 (by rw [hfn]; exact lookupKey_of_mem hnd hm)).1
      · have hfield : ∀ f ∈ cd.hints, ∃ v, readField env false cd.kind f kvs = .ok v := by
          intro f hfm
          unfold readField
          rw [hcc.names f hfm]
          cases hl : lookupKey (jsonName f) kvs with
          | none =>
            have hopt : f.ty.isOptional = true := by
              cases ho : f.ty.isOptional with
              | true => rfl
              | false =>
                have := h4 (jsonName f) (List.mem_map.2 ⟨f, List.mem_filter.2 ⟨hfm, by simp [ho]⟩, rfl⟩)
                rw [hl] at this; cases this
            obtain ⟨v, hv'⟩ := Option.ne_none_iff_exists'.1 (hcc.absent f hfm hopt)
            exact ⟨v, by simp only [hv']⟩
          | some x =>
            obtain ⟨h7, h8⟩ := hprop f hfm x hl
            have hread : Reads env (fieldTy cd.kind f) x := by
              rw [hcc.fieldTy hfm]
              refine h8 fun h => hfl (.cls hc ?_ (by rw [hcc.names f hfm]; exact hl) (by rw [hcc.fieldTy hfm]; exact h))
              revert hfm
              unfold ClassDef.hints
              split
              · simp
              · exact id
            cases x with
            | null => exact absurd .self h7
            | _ => exact hread
        unfold Reads
        rw [loads_cls_obj hk false (hcc.readable hk hc)]
        cases hmr : mapRes (readNamed env false cd.kind kvs) cd.hints with
        | error e =>
          obtain ⟨pre, f, post, hl, hx, _⟩ := (mapRes_error_iff _ _ _).1 hmr
          obtain ⟨v, hv'⟩ := hfield f (by rw [hl]; simp)
          simp [readNamed, hv'] at hx
        | ok vs =>
          simp only
          rw [if_pos]
          · exact ⟨_, rfl⟩
          · right
            intro kv hm
            obtain ⟨f, hfm, hfn⟩ := hknown kv hm
            exact ⟨f, hfm, by rw [hcc.names f hfm]; exact hfn⟩

end Verif
