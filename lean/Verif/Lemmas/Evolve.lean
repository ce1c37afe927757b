import Verif.Spec.Evolve
import Verif.Lemmas.ClassRead
import Verif.Lemmas.ClassBuildRead
import Verif.Lemmas.SchemaRead
import Verif.Props.C12_TypeSafety
import Verif.Props.C15_Containers
import Verif.Props.C17_C18_Unknown
import Verif.Props.C21_Union
/-!
# Reading with an earlier and a later version of a program
-/
namespace Verif

variable {env env' : Env}

/-! ### Equality and hashing depend on the kinds of classes only -/

mutual
theorem hashable_kind (h : ∀ c, env.kind c = env'.kind c) : ∀ v, hashable env v = hashable env' v
  | .tuple vs => by simp only [hashable]; exact hashableL_kind h vs
  | .obj c fs => by simp only [hashable, h c, hashableF_kind h fs]
  | .none | .bool _ | .int _ | .float _ | .str _ | .bytes _ | .datetime _ | .date _ | .time _ | .timedelta _ | .uuid _
  | .ipv4 _ | .ipv6 _ _ | .enum _ _ | .list _ | .dict _ | .set _ => rfl
theorem hashableL_kind (h : ∀ c, env.kind c = env'.kind c) : ∀ vs, hashableL env vs = hashableL env' vs
  | [] => rfl
  | v :: vs => by simp only [hashableL, hashable_kind h v, hashableL_kind h vs]
theorem hashableF_kind (h : ∀ c, env.kind c = env'.kind c) : ∀ fs, hashableF env fs = hashableF env' fs
  | [] => rfl
  | (_, v) :: fs => by simp only [hashableF, hashable_kind h v, hashableF_kind h fs]
end

mutual
theorem valEq_kind (h : ∀ c, env.kind c = env'.kind c) : ∀ v w, valEq env v w = valEq env' v w
  | .tuple vs, w => by
    cases w <;> simp only [valEq]
    · exact valEqL_kind h vs _
    · simp only [h, valEqL_kind h vs]
  | .obj c fs, w => by
    cases w <;> simp only [valEq, h, valEqF_kind h fs]
  | .bytes _, w | .datetime _, w | .date _, w | .time _, w | .timedelta _, w | .uuid _, w | .ipv4 _, w | .ipv6 _ _, w
  | .enum _ _, w | .none, w | .bool _, w | .int _, w | .float _, w | .str _, w | .list _, w | .dict _, w | .set _, w => by
    simp only [valEq]
theorem valEqL_kind (h : ∀ c, env.kind c = env'.kind c) : ∀ vs ws, valEqL env vs ws = valEqL env' vs ws
  | [], [] => rfl
  | [], _ :: _ => rfl
  | _ :: _, [] => rfl
  | v :: vs, w :: ws => by simp only [valEqL, valEq_kind h v w, valEqL_kind h vs ws]
theorem valEqF_kind (h : ∀ c, env.kind c = env'.kind c) : ∀ fs ws, valEqF env fs ws = valEqF env' fs ws
  | [], [] => rfl
  | [], _ :: _ => rfl
  | (_, _) :: _, [] => rfl
  | (_, v) :: fs, w :: ws => by simp only [valEqF, valEq_kind h v w, valEqF_kind h fs ws]
end

/-! ### The two programs -/

theorem ClassExtends.hints {cd cd' : ClassDef} (h : ClassExtends cd cd') : cd.hints = cd.fields ∧ cd'.hints = cd'.fields := by
  have h1 := h.typed
  have h2 := h.kind
  unfold ClassDef.hints
  rw [h2]
  cases hk : cd.kind with
  | namedTuple b => cases b with
    | false => exact absurd hk h1
    | true => exact ⟨rfl, rfl⟩
  | _ => exact ⟨rfl, rfl⟩

theorem NewVersion.old (h : NewVersion env env') {c : Nat} {cd : ClassDef} (hc : env.classes[c]? = some cd) :
    ∃ cd', env'.classes[c]? = some cd' ∧ ClassExtends cd cd' := h.classes.get c cd hc

theorem NewVersion.new (h : NewVersion env env') {c : Nat} {cd' : ClassDef} (hc : env'.classes[c]? = some cd') :
    ∃ cd, env.classes[c]? = some cd ∧ ClassExtends cd cd' := by
  have hlt : c < env.classes.length := by rw [h.classes.length]; exact (List.getElem?_eq_some_iff.1 hc).1
  obtain ⟨cd, hcd⟩ : ∃ cd, env.classes[c]? = some cd := ⟨_, List.getElem?_eq_getElem hlt⟩
  obtain ⟨cd'', h1, h2⟩ := h.old hcd
  rw [hc] at h1; cases h1
  exact ⟨cd, hcd, h2⟩

theorem NewVersion.kind_eq (h : NewVersion env env') (c : Nat) : env.kind c = env'.kind c := by
  unfold Env.kind
  cases hc : env.classes[c]? with
  | some cd =>
    obtain ⟨cd', h1, h2⟩ := h.old hc
    simp [h1, h2.kind]
  | none =>
    cases hc' : env'.classes[c]? with
    | none => rfl
    | some cd' =>
      obtain ⟨cd, h1, _⟩ := h.new hc'
      rw [hc] at h1; cases h1

/-! ### Types without classes -/

theorem ClassFree.mono (h : env'.enums = env.enums) {t : Ty} (ht : ClassFree env t) : ClassFree env' t := by
  induction ht with
  | leaf h => exact .leaf h
  | literal h1 h2 => exact .literal h1 h2
  | enum he => exact .enum (by rw [h]; exact he)
  | annotated _ ih => exact .annotated ih
  | list _ ih => exact .list ih
  | set _ ih => exact .set ih
  | union _ ih => exact .union ih

theorem ClassFree.untagged {ts : List Ty} (h : ∀ t ∈ ts, ClassFree env t) : Untagged env ts := by
  rintro ⟨p, hne, hp⟩
  obtain ⟨t, ht⟩ := List.exists_mem_of_ne_nil ts hne
  obtain ⟨c, _, _, rfl, _⟩ := mem_literalProps.1 (hp t ht).2
  cases h _ ht with
  | leaf hm => simp at hm

theorem ClassFree.supported {t : Ty} (ht : ClassFree env t) : Supported env t := by
  induction ht with
  | leaf h =>
    simp only [List.mem_cons, List.not_mem_nil, or_false] at h
    rcases h with rfl | rfl | rfl | rfl | rfl | rfl | rfl | rfl | rfl | rfl | rfl | rfl | rfl <;> exact ⟨_, rfl⟩
  | literal h1 h2 =>
    obtain ⟨l, r, d, rfl, _, h4⟩ := compile_literal (env := env) h1 (fun e m hm => absurd hm (h2 e m))
    exact ⟨_, h4⟩
  | enum he => exact ⟨_, by simp [compile, tyKey, he]; rfl⟩
  | annotated _ ih => obtain ⟨d, hd⟩ := ih; exact ⟨d, by simp only [compile, hd]⟩
  | list _ ih => obtain ⟨d, hd⟩ := ih; exact ⟨.list d, by simp only [compile, hd]⟩
  | set _ ih => obtain ⟨d, hd⟩ := ih; exact ⟨.set d, by simp only [compile, hd]⟩
  | union h ih => obtain ⟨ds, hds, _⟩ := compile_untagged (ClassFree.untagged h) ih; exact ⟨_, hds⟩

theorem loads_set_eq {skip : Bool} {t : Ty} (hs : Supported env t) (j : Json) :
    loads env skip (.set t) j = match j with
      | .arr xs => (match parseSetItems env .none [] (xs.map fun x _ => loads env skip t x) with
        | .ok vs => .ok (.set vs)
        | .error e => .error e)
      | _ => .error .jsonType := by
  obtain ⟨d, hd⟩ := hs
  have hl : compile env (.set t) = .ok (.set d) := by simp only [compile, hd]
  rw [loads_of_compile hl, parse_eq]
  cases j <;> simp only [parseD, kidsOf, parseSetK]
  rename_i xs
  have : ∀ acc, parseSetItems env d acc (xs.map fun x => parse env (fullHeap env skip) x) =
      parseSetItems env .none acc (xs.map fun x _ => loads env skip t x) := by
    induction xs with
    | nil => intro acc; rfl
    | cons x xs ih =>
      intro acc
      simp only [List.map_cons, parseSetItems, loads_of_compile hd, ih]
  rw [this]
  cases parseSetItems env .none [] (xs.map fun x _ => loads env skip t x) <;> rfl

/-- Types without classes and parameters. -/
inductive BaseTy (env : Env) : Ty → Prop
  | leaf {t} : t ∈ [Ty.none, .bool, .int, .float, .str, .bytes, .datetime, .date, .time, .timedelta, .uuid, .ipv4, .ipv6] →
      BaseTy env t
  | literal {ls} : SameType ls → (∀ e m, Lit.enum e m ∉ ls) → BaseTy env (.literal ls)
  | enum {e ed} : env.enums[e]? = some ed → BaseTy env (.enum e)

theorem base_eq (hk : env.Ok) (hk' : env'.Ok) (he : env'.enums = env.enums) (s s' : Bool) {t : Ty} (ht : BaseTy env t) :
    ∀ j, loads env s t j = loads env' s' t j := by
  cases ht with
  | leaf h =>
    intro j
    simp only [List.mem_cons, List.not_mem_nil, or_false] at h
    rcases h with rfl | rfl | rfl | rfl | rfl | rfl | rfl | rfl | rfl | rfl | rfl | rfl | rfl <;>
      simp only [loads, compile, parse_eq, parseD]
  | @literal ls h1 h2 =>
    intro j
    cases ls with
    | nil => rfl
    | cons l r =>
      obtain ⟨d, hd, hd', hp⟩ : ∃ d, litDeser env l = .ok d ∧ litDeser env' l = .ok d ∧
          parse env (fullHeap env s) j d = parse env' (fullHeap env' s') j d := by
        cases l with
        | enum e m => exact absurd (List.mem_cons_self ..) (h2 e m)
        | _ => exact ⟨_, rfl, rfl, by simp only [parse_eq, parseD]⟩
      have hall : compileLit env (l :: r) = compileLit env' (l :: r) := by simp only [compileLit, hd, hd']
      unfold loads
      simp only [compile]
      rw [hall]
      cases hc : compileLit env' (l :: r) with
      | error e => rfl
      | ok d2 =>
        simp only [compileLit, hd'] at hc
        split at hc
        · cases hc; simp only; rw [parse_literal, parse_literal, hp]
        · cases hc
  | @enum e ed hed =>
    intro j
    rw [loads_enum hk s hed, loads_enum hk' s' (by rw [he]; exact hed)]
    unfold enumLookup
    rw [he]

/-- Types without classes are read the same by both programs, whether unknown properties are skipped or not. -/
theorem free_eq (hk : env.Ok) (hk' : env'.Ok) (he : env'.enums = env.enums) (hkind : ∀ c, env.kind c = env'.kind c)
    (s s' : Bool) {t : Ty} (ht : ClassFree env t) : ∀ j, loads env s t j = loads env' s' t j := by
  induction ht with
  | leaf h => exact base_eq hk hk' he s s' (.leaf h)
  | literal h1 h2 => exact base_eq hk hk' he s s' (.literal h1 h2)
  | enum h => exact base_eq hk hk' he s s' (.enum h)
  | annotated _ ih => intro j; rw [loads_annotated_eq, loads_annotated_eq]; exact ih j
  | @list t ht ih =>
    intro j
    by_cases hj : ∃ xs, j = .arr xs
    · obtain ⟨xs, rfl⟩ := hj
      rw [loads_list_eq ht.supported, loads_list_eq (ht.mono he).supported, mapRes_congr (fun x _ => ih x)]
    · rw [loads_list_not_arr ht.supported (fun xs h => hj ⟨xs, h⟩),
        loads_list_not_arr (ht.mono he).supported (fun xs h => hj ⟨xs, h⟩)]
  | @set t ht ih =>
    intro j
    rw [loads_set_eq ht.supported, loads_set_eq (ht.mono he).supported]
    cases j with
    | arr xs =>
      have : ∀ acc, parseSetItems env .none acc (xs.map fun x _ => loads env s t x) =
          parseSetItems env' .none acc (xs.map fun x _ => loads env' s' t x) := by
        induction xs with
        | nil => intro acc; rfl
        | cons x xs ih' =>
          intro acc
          have hadd : ∀ v, setAdd env acc v = setAdd env' acc v := by
            intro v
            simp only [setAdd, hashable_kind hkind, valEq_kind hkind]
          simp only [List.map_cons, parseSetItems, ih x, hadd, ih']
      simp only [this]
    | _ => rfl
  | @union ts h ih =>
    intro j
    have hu := ClassFree.untagged h
    have hs := fun t ht => (h t ht).supported
    have h' := fun t ht => (h t ht).mono (env' := env') he
    have hu' := ClassFree.untagged h'
    have hs' := fun t ht => (h' t ht).supported
    cases hl : loads env' s' (.union ts) j with
    | ok v =>
      rw [C21_ok_iff env' s' ts hu' hs'] at hl
      rw [C21_ok_iff env s ts hu hs]
      obtain ⟨pre, t, post, rfl, h1, h2⟩ := hl
      refine ⟨pre, t, post, rfl, by rw [ih t (by simp)]; exact h1, ?_⟩
      intro u hum
      rw [ih u (by simp [hum])]
      exact h2 u hum
    | error e =>
      rw [C21_error_iff env' s' ts hu' hs'] at hl
      rw [C21_error_iff env s ts hu hs]
      rcases hl with ⟨h1, h2⟩ | ⟨pre, t, post, rfl, h0, h0', h1, h2⟩
      · exact .inl ⟨h1, fun u hum => by rw [ih u hum]; exact h2 u hum⟩
      · refine .inr ⟨pre, t, post, rfl, h0, h0', by rw [ih t (by simp)]; exact h1, ?_⟩
        intro u hum
        rw [ih u (by simp [hum])]
        exact h2 u hum

theorem base_flat (hk : env.Ok) {s : Bool} {t : Ty} (ht : BaseTy env t) {j : Json} {v : Val} (h : loads env s t j = .ok v) :
    Flat v := by
  have hk0 : Env.Ok ⟨env.enums, [], id⟩ := {
    keys := by
      have := hk.keys
      rw [List.nodup_append] at this
      simpa using this.1
    enums := hk.enums
    fields := by simp
    setOrder := fun _ => .refl _ }
  rw [base_eq (env' := ⟨env.enums, [], id⟩) hk hk0 rfl s s ht] at h
  have hv := C12_type_safe _ hk0 ⟨by simp, by simp⟩ s t j v h
  cases ht with
  | leaf h =>
    simp only [List.mem_cons, List.not_mem_nil, or_false] at h
    rcases h with rfl | rfl | rfl | rfl | rfl | rfl | rfl | rfl | rfl | rfl | rfl | rfl | rfl <;> cases hv <;>
      exact .scalar (by simp) (by simp) (by simp) (by simp) (by simp)
  | literal h1 h2 =>
    cases hv with | @literal _ _ l hl he =>
    subst he
    cases l <;> exact .scalar (by simp [Lit.toVal]) (by simp [Lit.toVal]) (by simp [Lit.toVal]) (by simp [Lit.toVal]) (by simp [Lit.toVal])
  | enum he => cases hv; exact .scalar (by simp) (by simp) (by simp) (by simp) (by simp)

theorem free_flat (hk : env.Ok) {s : Bool} {t : Ty} (ht : ClassFree env t) {j : Json} {v : Val} (h : loads env s t j = .ok v) :
    Flat v := by
  induction ht generalizing j v with
  | leaf h1 => exact base_flat hk (.leaf h1) h
  | literal h1 h2 => exact base_flat hk (.literal h1 h2) h
  | enum h1 => exact base_flat hk (.enum h1) h
  | annotated _ ih => exact ih h
  | @list t ht ih =>
    obtain ⟨xs, vs, rfl, rfl, h1⟩ := (C15_list env s t ht.supported j v).1 h
    refine .list fun v hv => ?_
    obtain ⟨x, _, hx⟩ := h1.mem_right hv
    exact ih hx
  | @set t ht ih =>
    obtain ⟨xs, vs, rfl, h1, _⟩ := (C15_set_ok env s t ht.supported j).1 ⟨v, h⟩
    obtain ⟨ws, rfl, h2, _⟩ := C15_set_members env s t ht.supported xs vs h1 v h
    refine .set fun v hv => ?_
    obtain ⟨x, _, hx⟩ := h1.mem_right (h2.subset hv)
    exact ih hx
  | @union ts h1 ih =>
    obtain ⟨pre, t, post, rfl, h2, _⟩ := (C21_ok_iff env s ts (ClassFree.untagged h1) (fun t ht => (h1 t ht).supported) j v).1 h
    exact ih t (by simp) h2

/-! ### Tags -/

theorem NewVersion.lit_mem (h : NewVersion env env') {c : Nat} {cd cd' : ClassDef} (hc : env.classes[c]? = some cd)
    (hc' : env'.classes[c]? = some cd') (f : FieldDef) (hl : f.ty.litArgs.isSome) : f ∈ cd.hints ↔ f ∈ cd'.hints := by
  obtain ⟨cd'', h1, h2⟩ := h.old hc
  rw [hc'] at h1; cases h1
  obtain ⟨h3, h4⟩ := h2.hints
  rw [h3, h4]
  constructor
  · exact h2.kept f
  · intro hf
    rcases h2.added f hf with h5 | ⟨_, h5, _⟩
    · exact h5
    · rw [h5] at hl; cases hl

theorem NewVersion.tagValue (h : NewVersion env env') {t : Ty} {p : Str} {l : Lit} : TagValue env t p l ↔ TagValue env' t p l := by
  constructor
  · rintro ⟨c, cd, f, ls, rfl, hc, hf, hn, hs, hl, hm⟩
    obtain ⟨cd', hc', he⟩ := h.old hc
    exact ⟨c, cd', f, ls, rfl, hc', (h.lit_mem hc hc' f (by simp [hl])).1 hf, hn, by rw [he.kind]; exact hs, hl, hm⟩
  · rintro ⟨c, cd', f, ls, rfl, hc', hf, hn, hs, hl, hm⟩
    obtain ⟨cd, hc, he⟩ := h.new hc'
    exact ⟨c, cd, f, ls, rfl, hc, (h.lit_mem hc hc' f (by simp [hl])).2 hf, hn, by rw [← he.kind]; exact hs, hl, hm⟩

theorem NewVersion.hasTag (h : NewVersion env env') {t : Ty} {p : Str} : HasTag env t p ↔ HasTag env' t p := by
  constructor
  · rintro ⟨c, cd, f, rfl, hc, hf, hn, hs, hl⟩
    obtain ⟨cd', hc', he⟩ := h.old hc
    exact ⟨c, cd', f, rfl, hc', (h.lit_mem hc hc' f hl).1 hf, hn, by rw [he.kind]; exact hs, hl⟩
  · rintro ⟨c, cd', f, rfl, hc', hf, hn, hs, hl⟩
    obtain ⟨cd, hc, he⟩ := h.new hc'
    exact ⟨c, cd, f, rfl, hc, (h.lit_mem hc hc' f hl).2 hf, hn, by rw [← he.kind]; exact hs, hl⟩

theorem NewVersion.isTag (h : NewVersion env env') {ts : List Ty} {p : Str} : IsTag env ts p ↔ IsTag env' ts p := by
  unfold IsTag
  simp only [h.hasTag]

theorem NewVersion.tagList (h : NewVersion env env') {t : Ty} {p : Str} {ls : List Lit} : TagList env t p ls ↔ TagList env' t p ls := by
  constructor
  · rintro ⟨c, cd, f, rfl, hc, hf, hn, hl⟩
    obtain ⟨cd', hc', he⟩ := h.old hc
    exact ⟨c, cd', f, rfl, hc', (h.lit_mem hc hc' f (by simp [hl])).1 hf, hn, hl⟩
  · rintro ⟨c, cd', f, rfl, hc', hf, hn, hl⟩
    obtain ⟨cd, hc, he⟩ := h.new hc'
    exact ⟨c, cd, f, rfl, hc, (h.lit_mem hc hc' f (by simp [hl])).2 hf, hn, hl⟩

theorem NewVersion.ambiguous (h : NewVersion env env') {ts : List Ty} : Ambiguous env ts ↔ Ambiguous env' ts := by
  unfold Ambiguous
  simp only [h.isTag, h.tagValue, h.tagList]

theorem Steady.supported (hk : env.Ok) {t : Ty} (ht : Steady env t) : Supported env t := by
  induction ht with
  | free h => exact h.supported
  | annotated _ ih => obtain ⟨d, hd⟩ := ih; exact ⟨d, by simp only [compile, hd]⟩
  | list _ ih => obtain ⟨d, hd⟩ := ih; exact ⟨.list d, by simp only [compile, hd]⟩
  | tuple _ ih =>
    obtain ⟨ds, hds⟩ := supportedL ih
    exact ⟨.tuple ds, by simp only [compile, hds]⟩
  | dictStr _ ih => obtain ⟨d, hd⟩ := ih; exact ⟨.dict .str d, by simp only [compile, checkKeyTy, hd]⟩
  | @dictEnum e _ _ he hs _ ih => obtain ⟨d, hd⟩ := ih; exact ⟨.dict (.enum e) d, by simp [compile, checkKeyTy, he, hs, hd]⟩
  | tagged h1 h2 _ => exact (C23_ambiguous_iff env hk _ h1).2.2 h2
  | cls hc => exact ⟨_, compile_cls hc⟩

theorem field_unique {fs : List FieldDef} (h : (fs.map (·.name)).Nodup) {f g : FieldDef} (hf : f ∈ fs) (hg : g ∈ fs)
    (hn : f.name = g.name) : f = g := by
  induction fs with
  | nil => cases hf
  | cons a r ih =>
    rw [List.map_cons, List.nodup_cons] at h
    rcases List.mem_cons.1 hf with hf1 | hf1
    · rcases List.mem_cons.1 hg with hg1 | hg1
      · rw [hf1, hg1]
      · exact absurd (List.mem_map.2 ⟨g, hg1, hn.symm.trans (by rw [hf1])⟩) h.1
    · rcases List.mem_cons.1 hg with hg1 | hg1
      · exact absurd (List.mem_map.2 ⟨f, hf1, hn.trans (by rw [hg1])⟩) h.1
      · exact ih h.2 hf1 hg1

/-- A field of the later version with the name of a tag is a field of the earlier one. -/
theorem NewVersion.tag_field (h : NewVersion env env') (hk' : env'.Ok) {ts : List Ty} {p : Str} (hp : IsTag env ts p) {c : Nat}
    (hc : Ty.cls c ∈ ts) {cd cd' : ClassDef} (h1 : env.classes[c]? = some cd) (h2 : env'.classes[c]? = some cd') {f : FieldDef}
    (hf : f ∈ cd'.hints) (hn : f.name = p) : f ∈ cd.hints ∧ f.ty.litArgs.isSome := by
  obtain ⟨c', cd'', g, he, hc', hg, hgn, _, hl⟩ := (h.isTag.1 hp).2 _ hc
  cases he
  rw [h2] at hc'; cases hc'
  obtain ⟨_, h3, h4⟩ := h.old h1
  rw [h2] at h3; cases h3
  have hnd := hk'.fields cd' (List.mem_of_getElem? h2)
  have hfg : f = g := by
    rw [h4.hints.2] at hf hg
    exact field_unique hnd hf hg (hn.trans hgn.symm)
  subst hfg
  exact ⟨(h.lit_mem h1 h2 f hl).2 hg, hl⟩

theorem Steady.mono (h : NewVersion env env') (hk' : env'.Ok) {t : Ty} (ht : Steady env t) : Steady env' t := by
  induction ht with
  | free h1 => exact .free (h1.mono h.enums)
  | annotated _ ih => exact .annotated ih
  | list _ ih => exact .list ih
  | tuple _ ih => exact .tuple ih
  | dictStr _ ih => exact .dictStr ih
  | dictEnum he hs _ ih => exact .dictEnum (by rw [h.enums]; exact he) hs ih
  | tagged h1 h2 h3 =>
    obtain ⟨p, hp⟩ := h1
    refine .tagged ⟨p, h.isTag.1 hp⟩ (fun ha => h2 (h.ambiguous.2 ha)) ?_
    intro q c cd' f hq hc hcd hf hn
    have hq' := h.isTag.2 hq
    obtain ⟨cd, hcd0, he⟩ := h.new hcd
    rw [he.kind]
    exact h3 q c cd f hq' hc hcd0 (h.tag_field hk' hq' hc hcd0 hcd hf hn).1 hn
  | cls hc => obtain ⟨cd', h1, _⟩ := h.old hc; exact .cls h1

theorem steady_lit {t : Ty} (ht : Steady env t) {ls : List Lit} (h : t.litArgs = some ls) :
    SameType ls ∧ ∀ e m, Lit.enum e m ∉ ls := by
  have key : ∀ {t ls}, ClassFree env t → t = .literal ls → SameType ls ∧ ∀ e m, Lit.enum e m ∉ ls := by
    intro t ls ht he
    cases ht <;> cases he
    · rename_i h; simp at h
    · exact ⟨‹_›, ‹_›⟩
  have key2 : ∀ {t ls}, Steady env t → t = .literal ls → SameType ls ∧ ∀ e m, Lit.enum e m ∉ ls := by
    intro t ls ht he
    cases ht <;> cases he
    · exact key ‹_› rfl
  unfold Ty.litArgs at h
  cases t with
  | literal ms => cases h; exact key2 ht rfl
  | annotated u ms =>
    simp only [Ty.unwrapAnn] at h
    cases u <;> simp only [Option.some.injEq, reduceCtorEq] at h
    subst h
    cases ht with
    | annotated h1 => exact key2 h1 rfl
    | free h1 => cases h1 with
      | leaf hm => simp at hm
      | annotated h2 => exact key h2 rfl
  | _ => cases h

theorem loads_lits_eq {ls : List Lit} (hs : SameType ls) (hl : ∀ e m, Lit.enum e m ∉ ls) {s : Bool} {x : Json} {w : Val}
    (h : loads env s (.literal ls) x = .ok w) : ∃ l ∈ ls, l.eqJson x = true := by
  obtain ⟨l, r, d, rfl, h1, h2⟩ := compile_literal (env := env) hs (fun e m hm => absurd hm (hl e m))
  rw [loads_of_compile h2, parse_literal] at h
  split at h
  · cases h
  · rename_i v hp
    split at h
    · rename_i hm
      obtain ⟨m, hmem, he⟩ := List.any_eq_true.1 hm
      refine ⟨m, hmem, ?_⟩
      have hty : m.ty = l.ty := by
        obtain ⟨t, _, h⟩ := hs
        rw [h m hmem, h l (by simp)]
      clear hm h h2
      cases l with
      | enum e i => exact absurd (List.mem_cons_self ..) (hl e i)
      | none =>
        cases m <;> cases hty
        cases h1
        rw [parse_eq] at hp
        cases x <;> cases hp; rfl
      | bool b =>
        cases m <;> cases hty
        cases h1
        rw [parse_eq] at hp
        cases x <;> cases hp
        simpa [Val.scalar, Lit.eqJson, Json.scalar, Lit.scalar] using he
      | int i =>
        cases m <;> cases hty
        cases h1
        rw [parse_eq] at hp
        cases x <;> cases hp
        · simpa [Val.scalar, Lit.eqJson, Json.scalar, Lit.scalar, Scalar.pyEq, Scalar.asInt] using he
        · simpa [Val.scalar, Lit.eqJson, Json.scalar, Lit.scalar] using he
      | str i =>
        cases m <;> cases hty
        cases h1
        rw [parse_eq] at hp
        cases x <;> cases hp
        simpa [Val.scalar, Lit.eqJson, Json.scalar, Lit.scalar] using he
    · cases h

theorem litArgs_required {f : FieldDef} {ls : List Lit} (h : f.ty.litArgs = some ls) (kind : ClassKind) : fieldTy kind f = f.ty := by
  have hnopt : f.ty.isOptional = false := by
    unfold Ty.litArgs at h
    unfold Ty.isOptional
    cases hua : f.ty.unwrapAnn <;> rw [hua] at h <;> simp at h <;> rfl
  have hreq : f.ty.required = f.ty := by simp [Ty.required, hnopt]
  cases kind <;> simp only [fieldTy, hreq]

theorem loads_litTy_eq {t : Ty} {ls : List Lit} (h : t.litArgs = some ls) (s : Bool) (j : Json) :
    loads env s t j = loads env s (.literal ls) j := by
  unfold Ty.litArgs at h
  cases t with
  | literal ms => cases h; rfl
  | annotated u ms =>
    simp only [Ty.unwrapAnn] at h
    cases u <;> simp only [Option.some.injEq, reduceCtorEq] at h
    subst h
    rfl
  | _ => cases h

/-- A union with tags reads as the member whose tag is present, if this member reads. -/
theorem union_of_member (hk : env.Ok) {ts : List Ty} (hs : Supported env (.union ts)) {c : Nat} {cd : ClassDef}
    (hr : Readable env c cd) (hc : Ty.cls c ∈ ts)
    (htag : ∀ q f, IsTag env ts q → f ∈ cd.hints → f.name = q →
      fieldProp cd.kind f = q ∧ ∀ ls, f.ty.litArgs = some ls → SameType ls ∧ ∀ e m, Lit.enum e m ∉ ls)
    {s : Bool} {kvs : List (Str × Json)} (hex : ∃ p x, IsTag env ts p ∧ Present kvs p x) {w : Val}
    (h : loads env s (.cls c) (.obj kvs) = .ok w) : loads env s (.union ts) (.obj kvs) = .ok w := by
  rw [C22_selected env hk s ts hs c hc kvs hex]
  · exact h
  intro q y hq hy
  obtain ⟨c', cd', g, he, hc', hgm, rfl, hgs, hgl⟩ := hq.2 _ hc
  cases he
  rw [hr.cls] at hc'; cases hc'
  obtain ⟨_, vs, he, rfl, hall, _⟩ := (loads_cls_ok_iff hk s hr _ w).1 h
  cases he
  obtain ⟨⟨wn, w'⟩, _, _, hread⟩ := hall.mem_left hgm
  obtain ⟨hprop, hlit⟩ := htag _ g hq hgm rfl
  obtain ⟨ls, hls⟩ := Option.isSome_iff_exists.1 hgl
  obtain ⟨h1, h2⟩ := hlit ls hls
  unfold readField at hread
  rw [hprop, hy.1, litArgs_required hls] at hread
  have hread' : loads env s g.ty y = .ok w' := by
    cases y with
    | null => exact absurd rfl hy.2
    | _ => exact hread
  rw [loads_litTy_eq hls] at hread'
  obtain ⟨l, hl, hle⟩ := loads_lits_eq h1 h2 hread'
  exact ⟨l, ⟨c, cd, g, ls, rfl, hr.cls, hgm, rfl, hgs, hls, hl⟩, hle⟩

/-! ### Transport -/

/-- What the first program reads the second reads, too, and the two values are related. -/
def Carries (E : Env) (s : Bool) (E' : Env) (s' : Bool) (R : Val → Val → Prop) (t : Ty) (j : Json) : Prop :=
  ∀ v, loads E s t j = .ok v → ∃ w, loads E' s' t j = .ok w ∧ R v w

/-- The relation extends from parts to containers. -/
structure Closed (R : Val → Val → Prop) : Prop where
  flat : ∀ v, Flat v → R v v
  list : ∀ vs ws, All2 R vs ws → R (.list vs) (.list ws)
  tuple : ∀ vs ws, All2 R vs ws → R (.tuple vs) (.tuple ws)
  dict : ∀ kvs kws, All2 (fun a b => a.1 = b.1 ∧ R a.2 b.2) kvs kws → R (.dict kvs) (.dict kws)

theorem carry_all2 {E E' : Env} {s s' : Bool} {R : Val → Val → Prop} {t : Ty} : ∀ {xs : List Json} {vs : List Val},
    (∀ x ∈ xs, Carries E s E' s' R t x) → All2 (fun x w => loads E s t x = .ok w) xs vs →
      ∃ ws, All2 (fun x w => loads E' s' t x = .ok w) xs ws ∧ All2 R vs ws := by
  intro xs vs h ha
  induction ha with
  | nil => exact ⟨[], .nil, .nil⟩
  | cons h1 _ ih =>
    obtain ⟨w, h2, h3⟩ := h _ (by simp) _ h1
    obtain ⟨ws, h4, h5⟩ := ih fun x hx => h x (by simp [hx])
    exact ⟨w :: ws, .cons h2 h4, .cons h3 h5⟩

theorem carry_entries {E E' : Env} {s s' : Bool} {R : Val → Val → Prop} {t : Ty} {K : Str → Key → Prop} :
    ∀ {xs : List (Str × Json)} {vs : List (Key × Val)}, (∀ x ∈ xs, Carries E s E' s' R t x.2) →
      All2 (fun x w => K x.1 w.1 ∧ loads E s t x.2 = .ok w.2) xs vs →
      ∃ ws : List (Key × Val), All2 (fun x w => K x.1 w.1 ∧ loads E' s' t x.2 = .ok w.2) xs ws ∧ All2 (fun a b => a.1 = b.1 ∧ R a.2 b.2) vs ws := by
  intro xs vs h ha
  induction ha with
  | nil => exact ⟨[], .nil, .nil⟩
  | @cons x v _ _ h1 _ ih =>
    obtain ⟨w, h2, h3⟩ := h _ (by simp) _ h1.2
    obtain ⟨ws, h4, h5⟩ := ih fun x hx => h x (by simp [hx])
    exact ⟨(v.1, w) :: ws, .cons ⟨h1.1, h2⟩ h4, .cons ⟨rfl, h3⟩ h5⟩

theorem carry_tuple {E E' : Env} {s s' : Bool} {R : Val → Val → Prop} : ∀ {ts : List Ty} {xs : List Json} {vs : List Val},
    xs.length = ts.length → vs.length = ts.length →
    (∀ x ∈ xs, ∀ t ∈ ts, Carries E s E' s' R t x) →
    (∀ (i : Nat) x t w, xs[i]? = some x → ts[i]? = some t → vs[i]? = some w → loads E s t x = .ok w) →
      ∃ ws, ws.length = ts.length ∧
        (∀ (i : Nat) x t w, xs[i]? = some x → ts[i]? = some t → ws[i]? = some w → loads E' s' t x = .ok w) ∧ All2 R vs ws := by
  intro ts
  induction ts with
  | nil =>
    intro xs vs h1 h2 _ _
    rw [List.length_nil, List.length_eq_zero_iff] at h1 h2
    subst h1 h2
    exact ⟨[], rfl, by simp, .nil⟩
  | cons t ts ih =>
    intro xs vs h1 h2 hc hl
    cases xs with
    | nil => cases h1
    | cons x xs =>
      cases vs with
      | nil => cases h2
      | cons v vs =>
        obtain ⟨w, h3, h4⟩ := hc x (by simp) t (by simp) v (hl 0 x t v rfl rfl rfl)
        obtain ⟨ws, h5, h6, h7⟩ := ih (xs := xs) (vs := vs) (by simpa using h1) (by simpa using h2)
          (fun x hx t ht => hc x (by simp [hx]) t (by simp [ht]))
          (fun i x t w hx ht hw => hl (i + 1) x t w (by simpa using hx) (by simpa using ht) (by simpa using hw))
        refine ⟨w :: ws, by simp [h5], ?_, .cons h4 h7⟩
        intro i x' t' w' hx ht hw
        cases i with
        | zero => cases hx; cases ht; cases hw; exact h3
        | succ i => exact h6 i x' t' w' (by simpa using hx) (by simpa using ht) (by simpa using hw)

theorem carry {E E' : Env} {s s' : Bool} {R : Val → Val → Prop} (hR : Closed R) (hk : E.Ok) (hk' : E'.Ok)
    (he : E.enums = env.enums) (he' : E'.enums = env.enums) (hkind : ∀ c, E.kind c = E'.kind c)
    (hst : ∀ {t}, Steady env t → Supported E t ∧ Supported E' t)
    (hcls : ∀ n, (∀ {t}, Steady env t → ∀ {j : Json}, sizeOf j < n → j.Wf → Carries E s E' s' R t j) →
      ∀ {c j}, (∃ cd, env.classes[c]? = some cd) → sizeOf j < n + 1 → j.Wf → Carries E s E' s' R (.cls c) j)
    (htag : ∀ {ts j v}, Steady env (.union ts) → (∃ p, IsTag env ts p) → loads E s (.union ts) j = .ok v →
      ∃ c, (∃ cd, env.classes[c]? = some cd) ∧ loads E s (.cls c) j = .ok v ∧
        ∀ w, loads E' s' (.cls c) j = .ok w → loads E' s' (.union ts) j = .ok w) :
    ∀ n {t}, Steady env t → ∀ {j : Json}, sizeOf j < n → j.Wf → Carries E s E' s' R t j := by
  intro n
  induction n with
  | zero => intro t _ j h; omega
  | succ n ihn =>
  intro t ht
  induction ht with
  | @free t h =>
    intro j _ _ v hv
    have hf : ClassFree E t := h.mono he
    refine ⟨v, ?_, hR.flat v (free_flat hk hf hv)⟩
    rw [← free_eq hk hk' (he'.trans he.symm) hkind s s' hf]
    exact hv
  | annotated _ ih => intro j hn hw; exact ih hn hw
  | @list t ht ih =>
    intro j hn hw v hv
    obtain ⟨xs, vs, rfl, rfl, hall⟩ := (C15_list E s t (hst ht).1 j v).1 hv
    cases hw with
    | arr hw =>
      obtain ⟨ws, h1, h2⟩ := carry_all2 (E' := E') (s' := s') (R := R)
        (fun x hx => ih (by have := List.sizeOf_lt_of_mem hx; simp at hn; omega) (hw x hx)) hall
      exact ⟨_, (C15_list E' s' t (hst ht).2 _ _).2 ⟨xs, ws, rfl, rfl, h1⟩, hR.list _ _ h2⟩
  | @tuple ts ht ih =>
    intro j hn hw v hv
    obtain ⟨xs, vs, rfl, rfl, h1, h2, h3⟩ := (C15_tuple E s ts (fun t h => (hst (ht t h)).1) j v).1 hv
    cases hw with
    | arr hw =>
      obtain ⟨ws, h4, h5, h6⟩ := carry_tuple (E' := E') (s' := s') (R := R) h1 h2
        (fun x hx t htm => ih t htm (by have := List.sizeOf_lt_of_mem hx; simp at hn; omega) (hw x hx)) h3
      exact ⟨_, (C15_tuple E' s' ts (fun t h => (hst (ht t h)).2) _ _).2 ⟨xs, ws, rfl, rfl, h1, h4, h5⟩, hR.tuple _ _ h6⟩
  | @dictStr t ht ih =>
    intro j hn hw v hv
    obtain ⟨kvs, out, rfl, rfl, hall⟩ := (C15_dict_str E s t (hst ht).1 j hw v).1 hv
    have hw' := hw
    cases hw' with
    | obj hnd hw' =>
      obtain ⟨ws, h1, h2⟩ := carry_entries (E' := E') (s' := s') (R := R) (K := fun x k => k = Key.str x)
        (fun x hx => ih (by have := sizeOf_value hx hn; omega) (hw' x hx)) hall
      exact ⟨_, (C15_dict_str E' s' t (hst ht).2 _ hw _).2 ⟨kvs, ws, rfl, rfl, h1⟩, hR.dict _ _ h2⟩
  | @dictEnum e ed t hed hs ht ih =>
    intro j hn hw v hv
    have h1 : E.enums[e]? = some ed := by rw [he]; exact hed
    have h2 : E'.enums[e]? = some ed := by rw [he']; exact hed
    obtain ⟨hs1, hs2⟩ := hst (.dictEnum hed hs ht)
    have hok := hk.enums ed (List.mem_of_getElem? h1)
    obtain ⟨kvs, out, rfl, rfl, hall⟩ := (C15_dict_enum E s e ed h1 hok t hs1 j hw v).1 hv
    have hw' := hw
    cases hw' with
    | obj hnd hw' =>
      obtain ⟨ws, h3, h4⟩ := carry_entries (E' := E') (s' := s') (R := R)
        (K := fun x k => ∃ m name, ed.members[m]? = some (name, Scalar.str x) ∧ k = Key.enum e m)
        (fun x hx => ih (by have := sizeOf_value hx hn; omega) (hw' x hx)) hall
      exact ⟨_, (C15_dict_enum E' s' e ed h2 hok t hs2 _ hw _).2 ⟨kvs, ws, rfl, rfl, h3⟩, hR.dict _ _ h4⟩
  | tagged h1 h2 h3 =>
    intro j hn hw v hv
    obtain ⟨c, hc, h4, h5⟩ := htag (.tagged h1 h2 h3) h1 hv
    obtain ⟨w, h6, h7⟩ := hcls n ihn hc hn hw v h4
    exact ⟨w, h5 w h6, h7⟩
  | cls hc => intro j hn hw; exact hcls n ihn ⟨_, hc⟩ hn hw

/-! ### The two directions -/

variable {I : Nat → Str → Val → Prop}

theorem grown_closed : Closed (Grown I) where
  flat _ h := .flat h
  list vs ws h := .list h.length fun i v v' hv hv' => by
    obtain ⟨w, h1, h2⟩ := h.get i v hv
    rw [hv'] at h1; cases h1; exact h2
  tuple vs ws h := .tuple h.length fun i v v' hv hv' => by
    obtain ⟨w, h1, h2⟩ := h.get i v hv
    rw [hv'] at h1; cases h1; exact h2
  dict kvs kws h := by
    refine .dict ?_ fun i k v v' hv hv' => ?_
    · induction h with
      | nil => rfl
      | cons h _ ih => simp [h.1, ih]
    · obtain ⟨w, h1, h2⟩ := h.get i _ hv
      rw [hv'] at h1; cases h1; exact h2.2

theorem grown_closed' : Closed (fun v w => Grown I w v) where
  flat _ h := .flat h
  list vs ws h := .list h.length.symm fun i v v' hv hv' => by
    obtain ⟨w, h1, h2⟩ := h.get i _ hv'
    rw [hv] at h1; cases h1; exact h2
  tuple vs ws h := .tuple h.length.symm fun i v v' hv hv' => by
    obtain ⟨w, h1, h2⟩ := h.get i _ hv'
    rw [hv] at h1; cases h1; exact h2
  dict kvs kws h := by
    refine .dict ?_ fun i k v v' hv hv' => ?_
    · induction h with
      | nil => rfl
      | cons h _ ih => simp [h.1, ih]
    · obtain ⟨w, h1, h2⟩ := h.get i _ hv'
      rw [hv] at h1; cases h1; exact h2.2

theorem read_names {hs : List FieldDef} {vs : List (Str × Val)} {s : Bool} {kind : ClassKind} {kvs : List (Str × Json)}
    (h : All2 (fun f w => w.1 = f.name ∧ readField env s kind f kvs = .ok w.2) hs vs) : vs.map (·.1) = hs.map (·.name) := by
  induction h with
  | nil => rfl
  | cons h _ ih => simp [h.1, ih]

theorem read_mem {hs : List FieldDef} {vs : List (Str × Val)} {s : Bool} {kind : ClassKind} {kvs : List (Str × Json)}
    (h : All2 (fun f w => w.1 = f.name ∧ readField env s kind f kvs = .ok w.2) hs vs) {n : Str} {v : Val} (hm : (n, v) ∈ vs) :
    ∃ f ∈ hs, f.name = n ∧ readField env s kind f kvs = .ok v := by
  obtain ⟨f, h1, h2, h3⟩ := h.mem_right hm
  exact ⟨f, h1, h2.symm, h3⟩

/-- Fields that can all be read, are read. -/
theorem read_fields {P : FieldDef → Val → Prop} : ∀ {hs : List FieldDef}, (∀ f ∈ hs, ∃ w, P f w) →
    ∃ vs : List (Str × Val), All2 (fun f w => w.1 = f.name ∧ P f w.2) hs vs := by
  intro hs
  induction hs with
  | nil => intro _; exact ⟨[], .nil⟩
  | cons f hs ih =>
    intro h
    obtain ⟨w, hw⟩ := h f (by simp)
    obtain ⟨vs, hvs⟩ := ih fun g hg => h g (by simp [hg])
    exact ⟨(f.name, w) :: vs, .cons ⟨rfl, hw⟩ hvs⟩

/-- One field that both programs have. -/
theorem read_field {E E' : Env} {s s' : Bool} {R : Val → Val → Prop} {kind : ClassKind} {f : FieldDef}
    {kvs : List (Str × Json)} {n : Nat} (hn : sizeOf (Json.obj kvs) < n + 1) (hw : (Json.obj kvs).Wf)
    (hc : ∀ {j : Json}, sizeOf j < n → j.Wf → Carries E s E' s' R (fieldTy kind f) j)
    (habs : ∀ v, absentValue kind f = some v → R v v) {v : Val} (h : readField E s kind f kvs = .ok v) :
    ∃ w, readField E' s' kind f kvs = .ok w ∧ R v w := by
  cases hw with
  | obj hnd hw =>
    unfold readField at h ⊢
    cases hl : lookupKey (fieldProp kind f) kvs with
    | none =>
      rw [hl] at h
      simp only at h ⊢
      split at h
      · rename_i v' hv
        cases h
        exact ⟨v, rfl, habs v hv⟩
      · cases h
    | some x =>
      rw [hl] at h
      have hm := lookupKey_some_mem hl
      by_cases hx : x = .null
      · subst hx
        simp only at h ⊢
        split at h
        · rename_i v' hv
          cases h
          exact ⟨v, rfl, habs v hv⟩
        · cases h
      · have hsz : sizeOf x < n := by
          have := List.sizeOf_lt_of_mem hm
          simp at hn this
          omega
        obtain ⟨w, h1, h2⟩ := hc hsz (hw _ hm) v (by cases x <;> first | exact h | exact absurd rfl hx)
        exact ⟨w, by cases x <;> first | exact h1 | exact absurd rfl hx, h2⟩

theorem ClassExtends.readable {c : Nat} {cd cd' : ClassDef} (h : ClassExtends cd cd') (hc : env.classes[c]? = some cd)
    (hc' : env'.classes[c]? = some cd') (hs : ∀ f ∈ cd.fields, Supported env (fieldTy cd.kind f))
    (hs' : ∀ f ∈ cd'.fields, Supported env' (fieldTy cd'.kind f)) : Readable env c cd ∧ Readable env' c cd' :=
  ⟨{ cls := hc
     standard := h.old
     typed := fun hk => absurd hk h.typed
     fields := by rw [h.hints.1]; exact hs },
   { cls := hc'
     standard := h.new
     typed := fun hk => absurd (h.kind ▸ hk) h.typed
     fields := by rw [h.hints.2]; exact hs' }⟩

theorem Versions.cls (h : Versions env env') {c : Nat} {cd : ClassDef} (hc : env.classes[c]? = some cd) :
    ∃ cd', ClassExtends cd cd' ∧ Readable env c cd ∧ Readable env' c cd' := by
  obtain ⟨cd', hc', he⟩ := h.ext.old hc
  exact ⟨cd', he, he.readable hc hc' (fun f hf => (h.steady cd (List.mem_of_getElem? hc) f hf).supported h.ok)
    (h.supported cd' (List.mem_of_getElem? hc'))⟩

theorem Versions.new_of_old (h : Versions env env') {n : Nat}
    (ih : ∀ {t}, Steady env t → ∀ {j : Json}, sizeOf j < n → j.Wf → Carries env false env' false (Grown (Initial env')) t j)
    {c : Nat} {j : Json} (hc : ∃ cd, env.classes[c]? = some cd) (hn : sizeOf j < n + 1) (hw : j.Wf) :
    Carries env false env' false (Grown (Initial env')) (.cls c) j := by
  intro v hv
  obtain ⟨cd, hc⟩ := hc
  obtain ⟨cd', he, hr, hr'⟩ := h.cls hc
  obtain ⟨kvs, vs, rfl, rfl, hall, hknown⟩ := (loads_cls_ok_iff h.ok false hr j v).1 hv
  have hknown : OnlyKnown cd kvs := by
    rcases hknown with h | h
    · cases h
    · exact h
  obtain ⟨hh, hh'⟩ := he.hints
  rw [hh] at hall
  -- fields that both have
  have hold : ∀ f ∈ cd.fields, ∃ v w, (f.name, v) ∈ vs ∧ readField env' false cd'.kind f kvs = .ok w ∧ Grown (Initial env') v w := by
    intro f hf
    obtain ⟨⟨fn, v⟩, hm, rfl, hread⟩ := hall.mem_left hf
    obtain ⟨w, h1, h2⟩ := read_field hn hw (fun hj hwj => ih (h.steady cd (List.mem_of_getElem? hc) f hf) hj hwj)
      (fun v hv => .flat (he.flat f hf v hv)) hread
    exact ⟨v, w, hm, by rw [he.kind]; exact h1, h2⟩
  -- fields that are new
  have hnew : ∀ f ∈ cd'.fields, f ∉ cd.fields → ∃ w, absentValue cd'.kind f = some w ∧ readField env' false cd'.kind f kvs = .ok w := by
    intro f hf hf'
    rcases he.added f hf with h1 | ⟨h1, _, h3⟩
    · exact absurd h1 hf'
    · obtain ⟨w, hw'⟩ := Option.ne_none_iff_exists'.1 h1
      refine ⟨w, hw', ?_⟩
      have hnone : lookupKey (fieldProp cd'.kind f) kvs = none := by
        cases hl : lookupKey (fieldProp cd'.kind f) kvs with
        | none => rfl
        | some x =>
          obtain ⟨g, hg, hp⟩ := hknown _ (lookupKey_some_mem hl)
          exact absurd hp.symm (h3 g (hh ▸ hg))
      simp only [readField, hnone, hw']
  obtain ⟨ws, hws⟩ := read_fields (P := fun f w => readField env' false cd'.kind f kvs = .ok w) (hs := cd'.fields) (by
    intro f hf
    by_cases hm : f ∈ cd.fields
    · obtain ⟨_, w, _, h1, _⟩ := hold f hm
      exact ⟨w, h1⟩
    · obtain ⟨w, _, h1⟩ := hnew f hf hm
      exact ⟨w, h1⟩)
  refine ⟨.obj c ws, (loads_cls_ok_iff h.ok' false hr' _ _).2 ⟨kvs, ws, rfl, rfl, by rw [hh']; exact hws, .inr ?_⟩, ?_⟩
  · intro kv hkv
    obtain ⟨f, hf, hp⟩ := hknown kv hkv
    exact ⟨f, by rw [hh']; exact he.kept f (hh ▸ hf), by rw [he.kind]; exact hp⟩
  · have hnd := h.ok'.fields cd' (List.mem_of_getElem? hr'.cls)
    have hnd0 := h.ok.fields cd (List.mem_of_getElem? hc)
    refine .obj ?_ ?_ ?_
    · intro m hm
      rw [read_names hall] at hm
      rw [read_names hws]
      obtain ⟨f, hf, rfl⟩ := List.mem_map.1 hm
      exact List.mem_map.2 ⟨f, he.kept f hf, rfl⟩
    · intro m x w hx hw'
      obtain ⟨f, hf, rfl, hread⟩ := read_mem hall hx
      obtain ⟨g, hg, hgn, hread'⟩ := read_mem hws hw'
      have : g = f := field_unique hnd hg (he.kept f hf) hgn
      subst this
      obtain ⟨x', w'', hm, h1, h2⟩ := hold g hf
      obtain ⟨g', hg', hgn', hread2⟩ := read_mem hall hm
      have : g' = g := field_unique hnd0 hg' hf hgn'
      subst this
      rw [hread] at hread2; cases hread2
      rw [hread'] at h1; cases h1
      exact h2
    · intro m w hw' hnm
      obtain ⟨g, hg, rfl, hread'⟩ := read_mem hws hw'
      rw [read_names hall] at hnm
      obtain ⟨w', h1, h2⟩ := hnew g hg fun hm => hnm (List.mem_map.2 ⟨g, hm, rfl⟩)
      rw [hread'] at h2; cases h2
      exact ⟨cd', g, hr'.cls, hg, rfl, h1⟩

theorem Versions.old_of_new (h : Versions env env') {s : Bool} {n : Nat}
    (ih : ∀ {t}, Steady env t → ∀ {j : Json}, sizeOf j < n → j.Wf →
      Carries env' s env true (fun v w => Grown (fun _ _ _ => True) w v) t j)
    {c : Nat} {j : Json} (hc : ∃ cd, env.classes[c]? = some cd) (hn : sizeOf j < n + 1) (hw : j.Wf) :
    Carries env' s env true (fun v w => Grown (fun _ _ _ => True) w v) (.cls c) j := by
  intro v hv
  obtain ⟨cd, hc⟩ := hc
  obtain ⟨cd', he, hr, hr'⟩ := h.cls hc
  obtain ⟨kvs, vs, rfl, rfl, hall, _⟩ := (loads_cls_ok_iff h.ok' s hr' j v).1 hv
  obtain ⟨hh, hh'⟩ := he.hints
  rw [hh'] at hall
  have hold : ∀ f ∈ cd.fields, ∃ v w, (f.name, v) ∈ vs ∧ readField env true cd.kind f kvs = .ok w ∧ Grown (fun _ _ _ => True) w v := by
    intro f hf
    obtain ⟨⟨fn, v⟩, hm, rfl, hread⟩ := hall.mem_left (he.kept f hf)
    rw [he.kind] at hread
    obtain ⟨w, h1, h2⟩ := read_field hn hw (fun hj hwj => ih (h.steady cd (List.mem_of_getElem? hc) f hf) hj hwj)
      (fun v hv => .flat (he.flat f hf v hv)) hread
    exact ⟨v, w, hm, h1, h2⟩
  obtain ⟨ws, hws⟩ := read_fields (P := fun f w => readField env true cd.kind f kvs = .ok w) (hs := cd.fields)
    (fun f hf => by obtain ⟨_, w, _, h1, _⟩ := hold f hf; exact ⟨w, h1⟩)
  refine ⟨.obj c ws, (loads_cls_ok_iff h.ok true hr _ _).2 ⟨kvs, ws, rfl, rfl, by rw [hh]; exact hws, .inl rfl⟩, ?_⟩
  have hnd := h.ok'.fields cd' (List.mem_of_getElem? hr'.cls)
  have hnd0 := h.ok.fields cd (List.mem_of_getElem? hc)
  refine .obj ?_ ?_ (fun _ _ _ _ => trivial)
  · intro m hm
    rw [read_names hws] at hm
    rw [read_names hall]
    obtain ⟨f, hf, rfl⟩ := List.mem_map.1 hm
    exact List.mem_map.2 ⟨f, he.kept f hf, rfl⟩
  · intro m w x hw' hx
    obtain ⟨f, hf, rfl, hread⟩ := read_mem hws hw'
    obtain ⟨x', w', hm, h1, h2⟩ := hold f hf
    rw [hread] at h1; cases h1
    obtain ⟨g, hg, hgn, hread'⟩ := read_mem hall hx
    obtain ⟨g', hg', hgn', hread2⟩ := read_mem hall hm
    have : g' = g := field_unique hnd hg' hg (hgn'.trans hgn.symm)
    subst this
    rw [hread'] at hread2; cases hread2
    exact h2

/-- The member of a union with tags that one version selects, the other selects, too. -/
theorem Versions.tag (h : Versions env env') {E E' : Env} (hE : E = env ∧ E' = env' ∨ E = env' ∧ E' = env) {s s' : Bool}
    {ts : List Ty} {j : Json} {v : Val} (ht : Steady env (.union ts)) (hp : ∃ p, IsTag env ts p)
    (hv : loads E s (.union ts) j = .ok v) : ∃ c, (∃ cd, env.classes[c]? = some cd) ∧ loads E s (.cls c) j = .ok v ∧
      ∀ w, loads E' s' (.cls c) j = .ok w → loads E' s' (.union ts) j = .ok w := by
  have hdf : ∀ p c cd f, IsTag env ts p → Ty.cls c ∈ ts → env.classes[c]? = some cd → f ∈ cd.hints → f.name = p →
      fieldProp cd.kind f = p := by
    cases ht with
    | tagged _ _ h => exact h
    | free h1 =>
      exfalso
      cases h1 with
      | leaf hm => simp at hm
      | union h1 =>
        obtain ⟨p, hp⟩ := hp
        obtain ⟨t, htm⟩ := List.exists_mem_of_ne_nil ts hp.1
        obtain ⟨c, _, _, rfl, _⟩ := hp.2 t htm
        cases h1 _ htm with
        | leaf hm => simp at hm
  have hst' := ht.mono h.ext h.ok'
  have hlits : ∀ (c : Nat) (cd : ClassDef) (f : FieldDef) ls, env.classes[c]? = some cd → f ∈ cd.hints → f.ty.litArgs = some ls →
      SameType ls ∧ ∀ e m, Lit.enum e m ∉ ls := by
    intro c cd f ls hc hf hl
    obtain ⟨cd', he, _, _⟩ := h.cls hc
    have := h.steady cd (List.mem_of_getElem? hc) f (he.hints.1 ▸ hf)
    rw [litArgs_required hl] at this
    exact steady_lit this hl
  rcases hE with ⟨rfl, rfl⟩ | ⟨rfl, rfl⟩
  · obtain ⟨kvs, c, p, x, l, rfl, hc, htag, hpr, _, _, hl⟩ := C22_never_other _ h.ok s ts hp j v hv
    obtain ⟨_, cd, _, he, hcd, _⟩ := htag.2 _ hc
    cases he
    refine ⟨c, ⟨cd, hcd⟩, hl, fun w hw => ?_⟩
    obtain ⟨cd', he, hr, hr'⟩ := h.cls hcd
    refine union_of_member h.ok' (hst'.supported h.ok') hr' hc ?_ ⟨p, x, h.ext.isTag.1 htag, hpr⟩ hw
    intro q f hq hf hn
    have hq' := h.ext.isTag.2 hq
    obtain ⟨h1, h2⟩ := h.ext.tag_field h.ok' hq' hc hcd hr'.cls hf hn
    exact ⟨by rw [he.kind]; exact hdf q c cd f hq' hc hcd h1 hn, fun ls hls => hlits c cd f ls hcd h1 hls⟩
  · obtain ⟨kvs, c, p, x, l, rfl, hc, htag, hpr, _, _, hl⟩ := C22_never_other _ h.ok' s ts
      (by obtain ⟨p, hp⟩ := hp; exact ⟨p, h.ext.isTag.1 hp⟩) j v hv
    have htag := h.ext.isTag.2 htag
    obtain ⟨_, cd, _, he, hcd, _⟩ := htag.2 _ hc
    cases he
    refine ⟨c, ⟨cd, hcd⟩, hl, fun w hw => ?_⟩
    obtain ⟨cd', he, hr, hr'⟩ := h.cls hcd
    refine union_of_member h.ok (ht.supported h.ok) hr hc ?_ ⟨p, x, htag, hpr⟩ hw
    intro q f hq hf hn
    exact ⟨hdf q c cd f hq hc hcd hf hn, fun ls hls => hlits c cd f ls hcd hf hls⟩

end Verif
