import Verif.Spec.ClassBuild
import Verif.Lemmas.SchemaNode
import Verif.Props.C10_Scalars
/-!
# Reading plain types
-/
namespace Verif

/-! ### Data -/

theorem Json.Within.trans {x y z : Json} (h1 : x.Within y) (h2 : y.Within z) : x.Within z := by
  induction h2 with
  | self => exact h1
  | arr hm _ ih => exact .arr hm ih
  | obj hm _ ih => exact .obj hm ih

theorem within_lookup {k : Str} {kvs : List (Str × Json)} {x : Json} (h : lookupKey k kvs = some x) : x.Within (.obj kvs) :=
  .obj (lookupKey_some_mem h) .self

theorem SmallInts.arr {xs : List Json} (h : SmallInts (.arr xs)) : ∀ x ∈ xs, SmallInts x :=
  fun _ hx i hi => h i (.arr hx hi)

theorem SmallInts.obj {kvs : List (Str × Json)} (h : SmallInts (.obj kvs)) : ∀ kv ∈ kvs, SmallInts kv.2 :=
  fun _ hx i hi => h i (.obj hx hi)

theorem noNull_arr {xs : List Json} (h : ¬ Json.null.Within (.arr xs)) : ∀ x ∈ xs, ¬ Json.null.Within x :=
  fun _ hx hn => h (.arr hx hn)

theorem noNull_obj {kvs : List (Str × Json)} (h : ¬ Json.null.Within (.obj kvs)) : ∀ kv ∈ kvs, ¬ Json.null.Within kv.2 :=
  fun _ hx hn => h (.obj hx hn)

theorem intToFloat_small {i : Int} (h : i.natAbs < 2 ^ 1024 - 2 ^ 970) : ∃ f, intToFloat i = .ok f := by
  cases he : intToFloat i with
  | ok f => exact ⟨f, rfl⟩
  | error e =>
    have h1 : e = .overflow := by
      unfold intToFloat at he
      simp only at he
      split at he
      · cases he
      · split at he
        · cases he; rfl
        · cases he
    subst h1
    have := (C10_int_as_float_overflow ⟨[], [], id⟩ false i).1 (by rw [loads_float_int, he]; rfl)
    omega

/-! ### Supported types -/

theorem supported_lit {env : Env} {l : Lit} (h : ∀ e m, l ≠ Lit.enum e m) : Supported env (.literal [l]) := by
  cases l with
  | enum e m => exact absurd rfl (h e m)
  | _ => exact ⟨_, rfl⟩

theorem Supported.list {env : Env} {t : Ty} (h : Supported env t) : Supported env (.list t) := by
  obtain ⟨d, hd⟩ := h
  exact ⟨_, by simp only [compile, hd]; rfl⟩

theorem Calm.supported {env : Env} {t : Ty} (h : Calm env t) : Supported env t := by
  induction h with
  | bool => exact ⟨_, rfl⟩
  | int => exact ⟨_, rfl⟩
  | float => exact ⟨_, rfl⟩
  | str => exact ⟨_, rfl⟩
  | literal h => exact supported_lit h
  | annotated _ ih => obtain ⟨d, hd⟩ := ih; exact ⟨d, hd⟩
  | list _ ih => exact ih.list
  | union hu _ ih => obtain ⟨ds, hc, _⟩ := compile_untagged hu ih; exact ⟨_, hc⟩
  | cls hc _ _ _ => exact ⟨_, compile_cls hc⟩

theorem Plain.supported {env : Env} (hk : env.Ok) {t : Ty} (h : Plain env t) : Supported env t := by
  induction h with
  | leaf h =>
    simp only [List.mem_cons, List.not_mem_nil, or_false] at h
    rcases h with rfl | rfl | rfl | rfl | rfl | rfl | rfl | rfl | rfl | rfl | rfl <;> exact ⟨_, rfl⟩
  | literal h => exact supported_lit h
  | enum he => exact ⟨_, by simp only [compile, tyKey, he]; rfl⟩
  | annotated _ ih => obtain ⟨d, hd⟩ := ih; exact ⟨d, hd⟩
  | list _ ih => exact ih.list
  | union hu _ _ ih => obtain ⟨ds, hc, _⟩ := compile_untagged hu ih; exact ⟨_, hc⟩
  | tagged ht ha _ _ => exact ((C23_ambiguous_iff env hk _ ht).2).2 ha
  | cls hc _ _ _ => exact ⟨_, compile_cls hc⟩

/-- A class made from a schema can be read if its field types can. -/
theorem readable_made {env : Env} {c : Nat} {cd : ClassDef} (hc : env.classes[c]? = some cd) (hk : cd.kind = .dataclass false)
    (hf : cd.fromJson = Option.none) (hs : ∀ f ∈ cd.fields, Supported env (fieldTy cd.kind f)) : Readable env c cd where
  cls := hc
  standard := by simp [ClassDef.custom, hk, hf]
  typed := by rw [hk]; intro h; cases h
  fields := by
    intro f hf'
    refine hs f ?_
    simpa [ClassDef.hints, hk] using hf'

/-! ### Calm types -/

theorem loads_annotated_eq (env : Env) (skip : Bool) (t : Ty) (ms : List Meta) (j : Json) :
    loads env skip (.annotated t ms) j = loads env skip t j := rfl

theorem loads_list_eq {env : Env} {skip : Bool} {t : Ty} (hs : Supported env t) (xs : List Json) :
    loads env skip (.list t) (.arr xs) =
      match mapRes (loads env skip t) xs with | .ok vs => .ok (.list vs) | .error e => .error e := by
  obtain ⟨d, hd⟩ := hs
  have hc : compile env (.list t) = .ok (.list d) := by simp only [compile, hd]
  rw [loads_of_compile hc, parse_list_arr, mapRes_congr (g := loads env skip t) (fun x _ => (loads_of_compile hd x).symm)]
  cases mapRes (loads env skip t) xs <;> rfl

theorem loads_list_not_arr {env : Env} {skip : Bool} {t : Ty} (hs : Supported env t) {j : Json} (hj : ∀ xs, j ≠ .arr xs) :
    loads env skip (.list t) j = .error .jsonType := by
  obtain ⟨d, hd⟩ := hs
  have hc : compile env (.list t) = .ok (.list d) := by simp only [compile, hd]
  rw [loads_of_compile hc]
  cases j with
  | arr xs => exact absurd rfl (hj xs)
  | _ => rw [parse_eq]; rfl

theorem readField_calm {env : Env} {kind : ClassKind} {f : FieldDef} {kvs : List (Str × Json)} {e : Err}
    (hn : ¬ Json.null.Within (.obj kvs)) (h : readField env false kind f kvs = .error e) :
    e = .jsonKey ∨ ∃ x, lookupKey (fieldProp kind f) kvs = some x ∧ loads env false (fieldTy kind f) x = .error e := by
  unfold readField at h
  split at h
  · split at h
    · cases h
    · cases h; exact .inl rfl
  · rename_i hx
    exact absurd (within_lookup hx) hn
  · rename_i x _ hx; exact .inr ⟨x, hx, h⟩

theorem calm_loads {env : Env} (hk : env.Ok) {t : Ty} (ht : Calm env t) : ∀ j, SmallInts j → ¬ Json.null.Within j →
    ∀ e, loads env false t j = .error e → e = .jsonKey ∨ e = .jsonType := by
  induction ht with
  | bool => intro j _ _ e h; cases j <;> cases h <;> simp
  | int => intro j _ _ e h; cases j <;> cases h <;> simp
  | str => intro j _ _ e h; cases j <;> cases h <;> simp
  | float =>
    intro j hs _ e h
    cases j with
    | int i =>
      obtain ⟨f, hf⟩ := intToFloat_small (hs i .int)
      rw [loads_float_int, hf] at h; cases h
    | bool b =>
      have h : parseFloat (.bool b) = .error e := h
      cases b
      · have : intToFloat 0 = .ok (mkFin false 0 0) := by decide +kernel
        simp [parseFloat, this] at h
      · have : intToFloat 1 = .ok (mkFin false 1 0) := by decide +kernel
        simp [parseFloat, this] at h
    | _ => cases h <;> simp
  | @literal l hl =>
    intro j _ _ e h
    have hq : Quiet env (.literal [l]) := .literal (by
      intro e m hm; simp at hm; exact hl e m hm.symm)
    obtain ⟨d, hd⟩ := supported_lit (env := env) hl
    rw [loads_of_compile hd] at h
    exact quiet_parse hq _ d hd j e h
  | annotated _ ih => exact ih
  | @list t ht ih =>
    intro j hs hn e h
    by_cases hj : ∃ xs, j = .arr xs
    · obtain ⟨xs, rfl⟩ := hj
      rw [loads_list_eq ht.supported] at h
      split at h
      · cases h
      · rename_i e' he
        cases h
        obtain ⟨pre, x, post, rfl, hx, _⟩ := (mapRes_error_iff _ _ _).1 he
        exact ih x (hs.arr x (by simp)) (noNull_arr hn x (by simp)) e hx
    · rw [loads_list_not_arr ht.supported (fun xs hx => hj ⟨xs, hx⟩)] at h
      cases h; simp
  | @union ts hu ht ih =>
    intro j hs hn e h
    rcases (C21_error_iff env false ts hu (fun t h => (ht t h).supported) j e).1 h with ⟨rfl, _⟩ | ⟨pre, t, post, rfl, _, _, h1, _⟩
    · simp
    · exact ih t (by simp) j hs hn e h1
  | @cls c cd hc hkd hf hfs ih =>
    intro j hs hn e h
    have hr := readable_made hc hkd hf (fun f hm => (hfs f hm).supported)
    have hh : cd.hints = cd.fields := by simp [ClassDef.hints, hkd]
    by_cases hj : ∃ kvs, j = .obj kvs
    · obtain ⟨kvs, rfl⟩ := hj
      rw [loads_cls_obj hk false hr] at h
      split at h
      · rename_i e' he
        cases h
        obtain ⟨pre, f, post, hl, hx, _⟩ := (mapRes_error_iff _ _ _).1 he
        have hfm : f ∈ cd.fields := by rw [← hh, hl]; simp
        have hrf : readField env false cd.kind f kvs = .error e := by
          unfold readNamed at hx
          split at hx
          · cases hx
          · rename_i h2; cases hx; exact h2
        rcases readField_calm hn hrf with rfl | ⟨x, hx, hl⟩
        · simp
        · have hm := lookupKey_some_mem hx
          exact ih f hfm x (hs.obj _ hm) (noNull_obj hn _ hm) e hl
      · split at h
        · cases h
        · cases h; simp
    · rw [loads_cls_not_obj hk false hr j (fun kvs hx => hj ⟨kvs, hx⟩)] at h
      cases h; simp

/-! ### Unions -/

/-- The type reads the data. -/
def Reads (env : Env) (t : Ty) (j : Json) : Prop := ∃ v, loads env false t j = .ok v

theorem loads_lit_eq {env : Env} {l : Lit} (hl : ∀ e m, l ≠ Lit.enum e m) {x : Json} {w : Val}
    (h : loads env false (.literal [l]) x = .ok w) : l.eqJson x = true := by
  have key : ∀ d, compile env (.literal [l]) = .ok (.literal [l] d) → 
      (∀ v, parse env (fullHeap env false) x d = .ok v → litMem [l] v = true → l.eqJson x = true) → l.eqJson x = true := by
    intro d hd hv
    rw [loads_of_compile hd, parse_literal] at h
    split at h
    · cases h
    · rename_i v hp
      split at h
      · rename_i hm; exact hv v hp hm
      · cases h
  cases l with
  | enum e m => exact absurd rfl (hl e m)
  | none =>
    refine key .none rfl fun v hp hm => ?_
    rw [parse_eq] at hp
    cases x <;> cases hp; rfl
  | bool b =>
    refine key .bool rfl fun v hp hm => ?_
    rw [parse_eq] at hp
    cases x <;> cases hp
    simpa [litMem, Val.scalar, Lit.eqJson, Json.scalar, Lit.scalar] using hm
  | int i =>
    refine key .int rfl fun v hp hm => ?_
    rw [parse_eq] at hp
    cases x <;> cases hp
    · simpa [litMem, Val.scalar, Lit.eqJson, Json.scalar, Lit.scalar, Scalar.pyEq, Scalar.asInt] using hm
    · simpa [litMem, Val.scalar, Lit.eqJson, Json.scalar, Lit.scalar] using hm
  | str s =>
    refine key .str rfl fun v hp hm => ?_
    rw [parse_eq] at hp
    cases x <;> cases hp
    simpa [litMem, Val.scalar, Lit.eqJson, Json.scalar, Lit.scalar] using hm

theorem plain_lit {env : Env} {t : Ty} (ht : Plain env t) {ls : List Lit} (h : t.litArgs = some ls) :
    ∃ l, (∀ x w, loads env false t x = .ok w → l.eqJson x = true) ∧ ls = [l] := by
  cases ht with
  | literal hl => cases h; exact ⟨_, fun x w hw => loads_lit_eq hl hw, rfl⟩
  | leaf hm => 
    simp only [List.mem_cons, List.not_mem_nil, or_false] at hm
    rcases hm with rfl | rfl | rfl | rfl | rfl | rfl | rfl | rfl | rfl | rfl | rfl <;> cases h
  | annotated ht' =>
    rename_i t ms
    cases ht' with
    | literal hl => cases h; exact ⟨_, fun x w hw => loads_lit_eq hl hw, rfl⟩
    | leaf hm => 
      simp only [List.mem_cons, List.not_mem_nil, or_false] at hm
      rcases hm with rfl | rfl | rfl | rfl | rfl | rfl | rfl | rfl | rfl | rfl | rfl <;> cases h
    | _ => cases h
  | _ => cases h

/-- A plain union reads what one of its members reads. -/
theorem union_reads {env : Env} (hk : env.Ok) {ts : List Ty} (hp : Plain env (.union ts)) {j : Json} (hs : SmallInts j)
    (hn : ¬ Json.null.Within j) {u : Ty} (hu : u ∈ ts) (hr : Reads env u j) : Reads env (.union ts) j := by
  cases hp with
  | leaf h => simp at h
  | union hun hpl hc =>
    have ho : OnlyMismatch env false ts j := fun t ht e he => calm_loads hk (hc t ht) j hs hn e he
    have h21 := C21_first_match_partial env false ts hun (fun t ht => (hpl t ht).supported hk) j ho
    cases hl : loads env false (.union ts) j with
    | ok v => exact ⟨v, hl⟩
    | error e =>
      exfalso
      have hall : ¬ ∀ t ∈ ts, ∀ w, loads env false t j ≠ .ok w := by
        intro h
        obtain ⟨v, hv⟩ := hr
        exact h u hu v hv
      rcases (C21_error_iff env false ts hun (fun t ht => (hpl t ht).supported hk) j e).1 hl with
        ⟨rfl, _⟩ | ⟨pre, t, post, rfl, h1, h2, h3, _⟩
      · exact hall (h21.2.1 hl)
      · rcases ho t (by simp) e h3 with rfl | rfl
        · exact h1 rfl
        · exact h2 rfl
  | tagged ht ha hpl hdf =>
    have hsup : Supported env (.union ts) := ((C23_ambiguous_iff env hk _ ht).2).2 ha
    obtain ⟨p, hp⟩ := ht
    obtain ⟨c, cd, f, rfl, hc, hfm, rfl, hst, hlit⟩ := hp.2 u hu
    have hpc := hpl _ hu
    cases hpc with
    | leaf h => simp at h
    | @cls _ cd' hc' hkd hfj how hfs =>
      rw [hc] at hc'; cases hc'
      have hrd := readable_made hc hkd hfj (fun f hm => (hfs f hm).supported hk)
      have hh : cd.hints = cd.fields := by simp [ClassDef.hints, hkd]
      obtain ⟨v, hv⟩ := hr
      obtain ⟨kvs, vs, rfl, rfl, hall, _⟩ := (loads_cls_ok_iff hk false hrd j v).1 hv
      -- every tag is present with a literal of this class
      have hkey : ∀ q, IsTag env ts q → ∃ x, Present kvs q x ∧ ∃ l, TagValue env (.cls c) q l ∧ l.eqJson x = true := by
        intro q hq
        obtain ⟨c', cd', g, he, hc', hgm, rfl, hgs, hgl⟩ := hq.2 _ hu
        cases he
        rw [hc] at hc'; cases hc'
        obtain ⟨⟨wn, w⟩, _, _, hread⟩ := hall.mem_left hgm
        simp only at hread
        have hgf : g ∈ cd.fields := hh ▸ hgm
        have hgd := hdf g.name c cd g hq hu hc hgf rfl
        obtain ⟨ls, hls⟩ := Option.isSome_iff_exists.1 hgl
        have hnopt : g.ty.isOptional = false := by
          unfold Ty.litArgs at hls
          unfold Ty.isOptional
          cases hua : g.ty.unwrapAnn <;> rw [hua] at hls <;> simp at hls <;> rfl
        have habs : absentValue cd.kind g = Option.none := by rw [hkd]; simp [absentValue, hgd, hnopt]
        have hty : fieldTy cd.kind g = g.ty := by rw [hkd]; simp [fieldTy, Ty.required, hnopt]
        have hpg : Plain env g.ty := hty ▸ hfs g hgf
        have hprop : fieldProp cd.kind g = g.name := how g hgf
        unfold readField at hread
        rw [hprop, hty, habs] at hread
        simp only at hread
        split at hread
        · cases hread
        · cases hread
        · rename_i x hnull hx
          refine ⟨x, ⟨hx, fun h => hnull h⟩, ?_⟩
          obtain ⟨l, hl1, hl2⟩ := plain_lit hpg hls
          subst hl2
          exact ⟨l, ⟨c, cd, g, [l], rfl, hc, hgm, rfl, hgs, hls, by simp⟩, hl1 x _ hread⟩
      obtain ⟨x, hx, _⟩ := hkey _ hp
      have := C22_selected env hk false ts hsup c hu kvs ⟨_, x, hp, hx⟩ (by
        intro q y hq hy
        obtain ⟨x', hx', h⟩ := hkey q hq
        have : x' = y := Option.some.inj (hx'.1.symm.trans hy.1)
        exact this ▸ h)
      exact ⟨_, this.trans hv⟩

end Verif
