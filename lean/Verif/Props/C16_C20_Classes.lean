import Verif.Lemmas.ClassRead
import Verif.Props.C22_C23_Tagged
import Verif.Props.C15_Containers
/-!
# C16, C19, C20: reading classes
-/
namespace Verif

/-! ### C16 -/

/-- Success implies that every required property was present and not `null`. -/
theorem C16_success (env : Env) (hk : env.Ok) (skip : Bool) (c : Nat) (cd : ClassDef) (hr : Readable env c cd) (j : Json)
    (v : Val) (h : loads env skip (.cls c) j = .ok v) :
    ∃ kvs, j = .obj kvs ∧ ∀ f ∈ cd.hints, IsRequired cd.kind f → ∃ x, Present kvs (fieldProp cd.kind f) x := by
  obtain ⟨kvs, vs, rfl, rfl, ha, _⟩ := (loads_cls_ok_iff hk skip hr j v).1 h
  refine ⟨kvs, rfl, ?_⟩
  intro f hf hreq
  obtain ⟨w, _, _, hw⟩ := ha.mem_left hf
  unfold readField at hw
  unfold IsRequired at hreq
  rw [hreq] at hw
  split at hw
  · cases hw
  · cases hw
  · rename_i x hx hl
    exact ⟨x, hl, fun e => hx e⟩

theorem loads_cls_first_error {env : Env} (hk : env.Ok) (skip : Bool) {c : Nat} {cd : ClassDef} (hr : Readable env c cd)
    {kvs : List (Str × Json)} {pre post : List FieldDef} {f : FieldDef} (hh : cd.hints = pre ++ f :: post)
    (hpre : ∀ g ∈ pre, ∃ v, readField env skip cd.kind g kvs = .ok v) {e : Err}
    (hf : readField env skip cd.kind f kvs = .error e) : loads env skip (.cls c) (.obj kvs) = .error e := by
  rw [loads_cls_obj hk skip hr]
  have : mapRes (readNamed env skip cd.kind kvs) cd.hints = .error e := by
    rw [mapRes_error_iff]
    refine ⟨pre, f, post, hh, by simp [readNamed, hf], ?_⟩
    intro g hg
    obtain ⟨v, hv⟩ := hpre g hg
    exact ⟨(g.name, v), by simp [readNamed, hv]⟩
  rw [this]

/-- A required property that is absent is reported as `JsonKeyError`, unless an earlier field is in error, too. -/
theorem C16_missing (env : Env) (hk : env.Ok) (skip : Bool) (c : Nat) (cd : ClassDef) (hr : Readable env c cd)
    (kvs : List (Str × Json)) (pre post : List FieldDef) (f : FieldDef) (hh : cd.hints = pre ++ f :: post)
    (hpre : ∀ g ∈ pre, ∃ v, readField env skip cd.kind g kvs = .ok v) (hreq : IsRequired cd.kind f)
    (hm : fieldProp cd.kind f ∉ kvs.map (·.1)) : loads env skip (.cls c) (.obj kvs) = .error .jsonKey := by
  refine loads_cls_first_error hk skip hr hh hpre ?_
  unfold readField
  unfold IsRequired at hreq
  rw [lookupKey_none_iff'.2 hm, hreq]

/-- A required property that is `null` is reported as `JsonValueError`, unless an earlier field is in error, too. -/
theorem C16_null (env : Env) (hk : env.Ok) (skip : Bool) (c : Nat) (cd : ClassDef) (hr : Readable env c cd)
    (kvs : List (Str × Json)) (pre post : List FieldDef) (f : FieldDef) (hh : cd.hints = pre ++ f :: post)
    (hpre : ∀ g ∈ pre, ∃ v, readField env skip cd.kind g kvs = .ok v) (hreq : IsRequired cd.kind f)
    (hm : lookupKey (fieldProp cd.kind f) kvs = some .null) :
    loads env skip (.cls c) (.obj kvs) = .error .jsonValue := by
  refine loads_cls_first_error hk skip hr hh hpre ?_
  unfold readField
  unfold IsRequired at hreq
  rw [hm, hreq]

/-- A required property that is absent or `null` always makes reading fail. -/
theorem C16_always_error (env : Env) (hk : env.Ok) (skip : Bool) (c : Nat) (cd : ClassDef) (hr : Readable env c cd)
    (kvs : List (Str × Json)) (f : FieldDef) (hf : f ∈ cd.hints) (hreq : IsRequired cd.kind f)
    (hm : ∀ x, ¬ Present kvs (fieldProp cd.kind f) x) : ∃ e, loads env skip (.cls c) (.obj kvs) = .error e := by
  cases h : loads env skip (.cls c) (.obj kvs) with
  | error e => exact ⟨e, rfl⟩
  | ok v =>
    obtain ⟨kvs', he, hp⟩ := C16_success env hk skip c cd hr _ v h
    cases he
    obtain ⟨x, hx⟩ := hp f hf hreq
    exact absurd hx (hm x)

/-! ### C20 -/

/-- After success every field has exactly the value that C20 prescribes: the parsed property if it is present, and never
the default then; else the default; else `None` for an optional field. -/
theorem C20_fields (env : Env) (hk : env.Ok) (skip : Bool) (c : Nat) (cd : ClassDef) (hr : Readable env c cd)
    (kvs : List (Str × Json)) (v : Val) (h : loads env skip (.cls c) (.obj kvs) = .ok v) :
    ∃ vs, v = .obj c vs ∧ vs.map (·.1) = cd.hints.map (·.name) ∧
      ∀ f ∈ cd.hints, ∃ w, (f.name, w) ∈ vs ∧
        (∀ x, Present kvs (fieldProp cd.kind f) x → loads env skip (fieldTy cd.kind f) x = .ok w) ∧
        ((∀ x, ¬ Present kvs (fieldProp cd.kind f) x) → absentValue cd.kind f = some w) := by
  obtain ⟨kvs', vs, he, rfl, ha, _⟩ := (loads_cls_ok_iff hk skip hr _ v).1 h
  cases he
  refine ⟨vs, rfl, ?_, ?_⟩
  · clear h
    generalize cd.hints = hs at ha
    induction ha with
    | nil => rfl
    | cons h1 _ ih => simp [h1.1, ih]
  · intro f hf
    obtain ⟨⟨n, w⟩, hw, hn, hread⟩ := ha.mem_left hf
    simp only at hn hread
    subst hn
    refine ⟨w, hw, ?_, ?_⟩
    · rintro x ⟨hl, hnn⟩
      unfold readField at hread
      rw [hl] at hread
      cases x <;> first | exact absurd rfl hnn | exact hread
    · intro hno
      unfold readField at hread
      split at hread
      · split at hread
        · rename_i h1; rw [h1]; cases hread; rfl
        · cases hread
      · split at hread
        · rename_i h1; rw [h1]; cases hread; rfl
        · cases hread
      · rename_i x hx hl
        exact absurd ⟨hl, fun e => hx e⟩ (hno x)

theorem isNone_iff (t : Ty) : t.isNone = true ↔ t = .none := by
  cases t <;> simp [Ty.isNone]

theorem any_isNone_iff (ts : List Ty) : ts.any Ty.isNone = true ↔ Ty.none ∈ ts := by
  simp [List.any_eq_true, isNone_iff]

theorem isOptional_iff (t : Ty) : t.isOptional = true ↔ AllowsNone t := by
  unfold Ty.isOptional AllowsNone
  cases t with
  | union ts => simp [Ty.unwrapAnn, Ty.unionArgs, isNone_iff]
  | annotated t ms =>
    cases t <;> simp [Ty.unwrapAnn, Ty.unionArgs, isNone_iff]
  | _ => simp [Ty.unwrapAnn, Ty.unionArgs]

theorem filter_none {pre post : List Ty} (h : Ty.none ∉ pre ++ post) :
    (pre ++ Ty.none :: post).filter (fun t => !t.isNone) = pre ++ post := by
  have hf : ∀ l : List Ty, Ty.none ∉ l → l.filter (fun t => !t.isNone) = l := by
    intro l hl
    rw [List.filter_eq_self]
    intro t ht
    cases hn : t.isNone
    · rfl
    · exact absurd ht ((isNone_iff t).1 hn ▸ hl)
  simp only [List.mem_append, not_or] at h
  rw [List.filter_append, List.filter_cons, hf pre h.1, hf post h.2]
  rfl

theorem unwrapOpt_of_nonNone {t u : Ty} (h : NonNone t u) (ha : AllowsNone t) (hu : ∀ t' ms, t ≠ .annotated t' ms) :
    t.unwrapOpt = u := by
  cases h with
  | same h => exact absurd ha h
  | one h1 h2 => simp [Ty.unwrapOpt, filter_none h1, h2]
  | many h1 h2 =>
    rename_i pre post
    simp only [Ty.unwrapOpt, filter_none h1]
    revert h2
    cases pre ++ post with
    | nil => intro h; simp at h
    | cons a l => cases l <;> simp
  | ann => exact absurd rfl (hu _ _)

/-- The type a field is read as is its declared type without `None`. -/
theorem required_of_nonNone {t u : Ty} (h : NonNone t u) : t.required = u := by
  have key : ∀ {t u : Ty}, NonNone t u → AllowsNone t → (∀ t' ms, t ≠ .annotated t' ms) → t.required = u := by
    intro t u h ha hu
    have := unwrapOpt_of_nonNone h ha hu
    rw [Ty.required, if_pos ((isOptional_iff _).2 ha)]
    cases t <;> first | exact absurd rfl (hu _ _) | exact this
  cases h with
  | same h => rw [Ty.required, if_neg (fun e => h ((isOptional_iff _).1 e))]
  | one h1 h2 => exact key (.one h1 h2) ⟨_, by simp, .inl rfl⟩ (by simp)
  | many h1 h2 => exact key (.many h1 h2) ⟨_, by simp, .inl rfl⟩ (by simp)
  | ann hm h =>
    rename_i ts u ms
    rw [Ty.required, if_pos ((isOptional_iff _).2 ⟨ts, hm, .inr ⟨ms, rfl⟩⟩)]
    simp only [Ty.unwrapOptional]
    rw [unwrapOpt_of_nonNone h ⟨ts, hm, .inl rfl⟩ (by simp)]

/-- What "the default" is, in terms of the class definition. -/
theorem C20_absent (f : FieldDef) (fr : Bool) :
    (∀ v, f.dflt = .value v ∨ f.dflt = .factory v → absentValue (.dataclass fr) f = some v) ∧
    (f.dflt = .missing → AllowsNone f.ty → absentValue (.dataclass fr) f = some .none) ∧
    (AllowsNone f.ty → absentValue .plain f = some .none) ∧
    (f.dflt = .missing → ¬ AllowsNone f.ty → IsRequired (.dataclass fr) f) ∧
    (¬ AllowsNone f.ty → IsRequired .plain f) := by
  refine ⟨?_, ?_, ?_, ?_, ?_⟩
  · rintro v (h | h) <;> simp [absentValue, h]
  · intro h1 h2; simp [absentValue, h1, (isOptional_iff _).2 h2]
  · intro h; simp [absentValue, (isOptional_iff _).2 h]
  · intro h1 h2; simp [IsRequired, absentValue, h1, mt (isOptional_iff _).1 h2]
  · intro h; simp [IsRequired, absentValue, mt (isOptional_iff _).1 h]

/-- The value of a property that is present is the result of parsing it as the declared type without `None`, whatever the
default of the field is. -/
theorem C20_present (env : Env) (hk : env.Ok) (skip : Bool) (c : Nat) (cd : ClassDef) (hr : Readable env c cd)
    (kvs : List (Str × Json)) (v : Val) (h : loads env skip (.cls c) (.obj kvs) = .ok v)
    (f : FieldDef) (hf : f ∈ cd.hints) (x : Json) (hx : Present kvs (fieldProp cd.kind f) x) (u : Ty)
    (hu : match cd.kind with | .namedTuple _ => u = f.ty | _ => NonNone f.ty u) :
    ∃ vs w, v = .obj c vs ∧ (f.name, w) ∈ vs ∧ loads env skip u x = .ok w := by
  obtain ⟨vs, rfl, _, hall⟩ := C20_fields env hk skip c cd hr kvs v h
  obtain ⟨w, hw, hp, _⟩ := hall f hf
  refine ⟨vs, w, rfl, hw, ?_⟩
  have := hp x hx
  unfold fieldTy at this
  cases hkd : cd.kind <;> simp only [hkd] at hu this
  · rw [required_of_nonNone hu] at this; exact this
  · rw [hu]; exact this
  · rw [required_of_nonNone hu] at this; exact this

/-- Reading succeeds if every property that is present parses and every absent one has a default or is optional. -/
theorem C20_sufficient (env : Env) (hk : env.Ok) (skip : Bool) (c : Nat) (cd : ClassDef) (hr : Readable env c cd)
    (kvs : List (Str × Json)) (hkn : OnlyKnown cd kvs)
    (h1 : ∀ f ∈ cd.hints, ∀ x, Present kvs (fieldProp cd.kind f) x → ∃ w, loads env skip (fieldTy cd.kind f) x = .ok w)
    (h2 : ∀ f ∈ cd.hints, (∀ x, ¬ Present kvs (fieldProp cd.kind f) x) → ¬ IsRequired cd.kind f) :
    ∃ v, loads env skip (.cls c) (.obj kvs) = .ok v := by
  have hall : ∀ f ∈ cd.hints, ∃ w, readField env skip cd.kind f kvs = .ok w := by
    intro f hf
    by_cases hp : ∃ x, Present kvs (fieldProp cd.kind f) x
    · obtain ⟨x, hx⟩ := hp
      obtain ⟨w, hw⟩ := h1 f hf x hx
      refine ⟨w, ?_⟩
      unfold readField
      rw [hx.1]
      cases x <;> first | exact absurd rfl hx.2 | exact hw
    · have hnr := h2 f hf (fun x hx => hp ⟨x, hx⟩)
      unfold IsRequired at hnr
      obtain ⟨w, hw⟩ := Option.ne_none_iff_exists'.1 hnr
      refine ⟨w, ?_⟩
      unfold readField
      rw [hw]
      split
      · rfl
      · rfl
      · rename_i x hx hl
        exact absurd ⟨x, hl, fun e => hx e⟩ hp
  have : ∃ vs, All2 (fun f (w : Str × Val) => w.1 = f.name ∧ readField env skip cd.kind f kvs = .ok w.2) cd.hints vs := by
    clear h1 h2
    generalize cd.hints = hs at hall
    induction hs with
    | nil => exact ⟨[], .nil⟩
    | cons f hs ih =>
      obtain ⟨w, hw⟩ := hall f (by simp)
      obtain ⟨vs, hvs⟩ := ih (fun g hg => hall g (by simp [hg]))
      exact ⟨(f.name, w) :: vs, .cons ⟨rfl, hw⟩ hvs⟩
  obtain ⟨vs, hvs⟩ := this
  exact ⟨.obj c vs, (loads_cls_ok_iff hk skip hr _ _).2 ⟨kvs, vs, rfl, rfl, hvs, .inr hkn⟩⟩

/-! ### C19 -/

/-- The outcome of reading a class, value or error, does not depend on the order of properties. -/
theorem C19_class (env : Env) (hk : env.Ok) (skip : Bool) (c : Nat) (cd : ClassDef) (hr : Readable env c cd)
    (kvs kvs' : List (Str × Json)) (hn : (kvs.map (·.1)).Nodup) (hp : kvs.Perm kvs') :
    loads env skip (.cls c) (.obj kvs) = loads env skip (.cls c) (.obj kvs') := by
  rw [loads_cls_obj hk skip hr, loads_cls_obj hk skip hr]
  have h1 : readNamed env skip cd.kind kvs = readNamed env skip cd.kind kvs' := by
    funext f
    unfold readNamed readField
    rw [lookupKey_perm hn hp]
  have h2 : (∀ kv ∈ kvs, ∃ f ∈ cd.hints, fieldProp cd.kind f = kv.1) ↔
      (∀ kv ∈ kvs', ∃ f ∈ cd.hints, fieldProp cd.kind f = kv.1) :=
    ⟨fun h kv hkv => h kv (hp.mem_iff.2 hkv), fun h kv hkv => h kv (hp.mem_iff.1 hkv)⟩
  rw [h1]
  simp only [h2]

theorem taggedLoop_congr {run run' : TKey → Res Val} {kvs kvs' : List (Str × Json)} {table : List (Str × Lit × TKey)}
    {props : List Str} (hl : ∀ p ∈ props, lookupKey p kvs = lookupKey p kvs')
    (hr : ∀ p l k, (p, l, k) ∈ table → run k = run' k) :
    taggedLoop run kvs table props = taggedLoop run' kvs' table props := by
  induction props with
  | nil => rfl
  | cons p ps ih =>
    have ih := ih (fun q hq => hl q (by simp [hq]))
    simp only [taggedLoop, hl p (by simp), ih]
    split
    · rfl
    · split
      · rfl
      · split
        · rfl
        · split
          · rfl
          · rename_i k hk
            obtain ⟨l, hm, _⟩ := tagLookup_some hk
            exact hr _ _ _ hm

/-- The same for tagged unions. -/
theorem C19_tagged (env : Env) (hk : env.Ok) (skip : Bool) (ts : List Ty) (ht : ∃ p, IsTag env ts p)
    (hm : ∀ c, Ty.cls c ∈ ts → ∃ cd, Readable env c cd)
    (kvs kvs' : List (Str × Json)) (hn : (kvs.map (·.1)).Nodup) (hp : kvs.Perm kvs') :
    loads env skip (.union ts) (.obj kvs) = loads env skip (.union ts) (.obj kvs') := by
  by_cases hs : Supported env (.union ts)
  · obtain ⟨table, h1, _, h3⟩ := compile_tagged hk ht hs
    rw [loads_of_compile h1, loads_of_compile h1, parse_tagged, parse_tagged]
    simp only
    refine taggedLoop_congr (fun p _ => lookupKey_perm hn hp p) ?_
    intro p l k hmem
    obtain ⟨t, htm, _, htv, hkey⟩ := (h3 p l k).1 hmem
    obtain ⟨c, _, _, _, rfl, _⟩ := id htv
    obtain ⟨cd, hr⟩ := hm c htm
    rw [parse_key_eq_loads rfl hkey, parse_key_eq_loads rfl hkey]
    exact C19_class env hk skip c cd hr kvs kvs' hn hp
  · have : ∀ j, loads env skip (.union ts) j = loads env skip (.union ts) .null := by
      intro j
      unfold loads
      cases h : compile env (.union ts) with
      | ok d => exact absurd ⟨d, h⟩ hs
      | error e => rfl
    rw [this, this (.obj kvs')]

/-- For dictionaries, reordering only changes the iteration order of the result. -/
theorem C19_dict (env : Env) (skip : Bool) (k : KeyTy) (t : Ty)
    (kvs kvs' : List (Str × Json)) (hn : (kvs.map (·.1)).Nodup) (hp : kvs.Perm kvs') (v : Val)
    (h : loads env skip (.dict k t) (.obj kvs) = .ok v) :
    ∃ out out', v = .dict out ∧ loads env skip (.dict k t) (.obj kvs') = .ok (.dict out') ∧ out.Perm out' := by
  have hn' : (kvs'.map (·.1)).Nodup := (hp.map _).nodup_iff.1 hn
  have hc : ∃ d, compile env (.dict k t) = .ok (.dict k d) := by
    unfold loads at h
    split at h
    · cases h
    · rename_i d' hd
      have hd0 := hd
      simp only [compile] at hd
      split at hd
      · cases hd
      · split at hd
        · rename_i d _; cases hd; exact ⟨d, hd0⟩
        · cases hd
  obtain ⟨d, hd⟩ := hc
  rw [loads_of_compile hd] at h ⊢
  obtain ⟨out, rfl, ha⟩ := (parse_dict_obj env _ k d kvs hn v).1 h
  obtain ⟨out', hperm, ha'⟩ := all2_perm ha hp
  exact ⟨out, out', rfl, (parse_dict_obj env _ k d kvs' hn' _).2 ⟨out', rfl, ha'⟩, hperm⟩

/-- If reading a dictionary fails, the order of properties can decide which error is raised: that of the first item that cannot
be read. -/
theorem C19_dict_error (env : Env) (skip : Bool) :
    loads env skip (.dict .str .timedelta) (.obj [(c!"a", .str c!"x"), (c!"b", .int 1)]) = .error .jsonValue ∧
    loads env skip (.dict .str .timedelta) (.obj [(c!"b", .int 1), (c!"a", .str c!"x")]) = .error .jsonType :=
  ⟨rfl, rfl⟩

/-- For untagged unions the order of properties can matter: the first item that a dictionary type cannot parse decides
whether the next member is tried. -/
theorem C19_union_order_matters (env : Env) (skip : Bool) :
    let t : Ty := .union [.dict .str .timedelta, .dict .str (.union [.int, .str])]
    loads env skip t (.obj [(c!"a", .str c!"x"), (c!"b", .int 1)]) = .error .jsonValue ∧
    loads env skip t (.obj [(c!"b", .int 1), (c!"a", .str c!"x")]) =
      .ok (.dict [(.str c!"b", .int 1), (.str c!"a", .str c!"x")]) :=
  ⟨rfl, rfl⟩

/-! ### The hypotheses are met -/

/-- A data class with a required, an optional and a default field, and a recursive one. -/
private def exNode : ClassDef :=
  { module := c!"m", name := c!"Node", kind := .dataclass false, fields :=
    [{ name := c!"id", ty := .int }, { name := c!"next", ty := .union [.cls 0, .none] },
     { name := c!"tags", ty := .list .str, dflt := .factory (.list []) }] }
private def exEnv : Env := ⟨[], [exNode], id⟩
private theorem exEnv_ok : exEnv.Ok :=
  ⟨by simp [exEnv], by simp [exEnv], by simp [exEnv, exNode], fun _ => .refl _⟩
private theorem exNode_readable : Readable exEnv 0 exNode :=
  ⟨rfl, rfl, by simp [exNode], by
    intro f hf
    simp only [exNode, ClassDef.hints, List.mem_cons, List.not_mem_nil, or_false] at hf
    rcases hf with rfl | rfl | rfl <;> exact ⟨_, rfl⟩⟩

example : IsRequired exNode.kind { name := c!"id", ty := .int } := rfl

example : loads exEnv false (.cls 0) (.obj [(c!"next", .obj [(c!"id", .int 2), (c!"tags", .arr [.str c!"x"])]), (c!"id", .int 1)]) =
    .ok (.obj 0 [(c!"id", .int 1), (c!"next", .obj 0 [(c!"id", .int 2), (c!"next", .none), (c!"tags", .list [.str c!"x"])]),
      (c!"tags", .list [])]) := rfl

example : loads exEnv false (.cls 0) (.obj [(c!"next", .null)]) = .error .jsonKey := rfl
example : loads exEnv false (.cls 0) (.obj [(c!"id", .null)]) = .error .jsonValue := rfl

example : NonNone (.annotated (.union [.cls 1, .none, .cls 2]) [.alias c!"x"]) (.annotated (.union [.cls 1, .cls 2]) [.alias c!"x"]) :=
  .ann (by simp) (.many (pre := [.cls 1]) (post := [.cls 2]) (by simp) (by simp))

end Verif
