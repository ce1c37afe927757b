import Verif.Lemmas.RoundTrip
import Verif.Props.C03_C04_Base64
/-!
# C11: what is serialized can be deserialized to an equal value
-/
namespace Verif

theorem hasTy_unwrapOpt_of {env : Env} {v : Val} (hv : v ≠ .none) {t : Ty} (h : HasTy env v t) : HasTy env v t.unwrapOpt := by
  unfold Ty.unwrapOpt
  split
  · rename_i ts
    cases h with
    | @union _ _ u hm hu =>
      have hf : u ∈ ts.filter (fun t => !t.isNone) := by
        refine List.mem_filter.2 ⟨hm, ?_⟩
        cases u <;> simp [Ty.isNone]
        cases hu; exact hv rfl
      split
      · rename_i u' hu'
        rw [hu'] at hf
        rcases List.mem_singleton.1 hf with rfl
        exact hu
      · exact .union hf hu
  · exact h

theorem hasTy_required_of {env : Env} {v : Val} (hv : v ≠ .none) {t : Ty} (h : HasTy env v t) : HasTy env v t.required := by
  unfold Ty.required
  split
  · unfold Ty.unwrapOptional
    split
    · cases h with
      | annotated h => exact .annotated (hasTy_unwrapOpt_of hv h)
    · exact hasTy_unwrapOpt_of hv h
  · exact h

/-- The round trip for one value; `null` is only written for `None`. -/
def RoundTrips (env : Env) (skip : Bool) (t : Ty) (v : Val) : Prop :=
  ∃ j, objectToJson env v = .ok j ∧ loads env skip t j = .ok v ∧ (v ≠ .none → j ≠ .null)

theorem scalar_roundtrip (env : Env) (skip : Bool) {t : Ty} (ht : t ∈ scalarTys) {v : Val} (hv : HasTy env v t)
    (he : Encodable v) : RoundTrips env skip t v := by
  have hx := C10_text env skip
  cases hv with
  | none | bool | int | float | str => exact ⟨_, rfl, rfl, by simp [Scalar.toJson]⟩
  | @bytes b => exact ⟨.str (b64Encode b), rfl, by rw [(hx _).1, C03_bytes_roundtrip]; rfl, by simp⟩
  | @datetime d hd =>
    have ha : d.Aware ∧ d.time.Coarse := by cases he with | leaf _ h _ _ => exact h d rfl
    obtain ⟨s, h1, h2⟩ := C05_roundtrip_partial d hd ha.1 ha.2
    refine ⟨.str s, ?_, by rw [(hx _).2.1, h2]; rfl, by simp⟩
    show genShape env (.datetime d) .none .datetime = _
    simp [genShape, h1]
  | @date d hd => exact ⟨.str (dateIso d), rfl, by rw [(hx _).2.2.1, C07_date_roundtrip d hd]; rfl, by simp⟩
  | @time d hd =>
    have hc : d.Coarse := by cases he with | leaf _ _ _ h => exact h d rfl
    exact ⟨.str (timeIso d), rfl, by rw [(hx _).2.2.2.1, C07_time_roundtrip_partial d hd hc]; rfl, by simp⟩
  | @timedelta d hd =>
    have ha : 0 ≤ d.days := by cases he with | leaf _ _ h _ => exact h d rfl
    exact ⟨.str (tdSerialize d), rfl, by rw [(hx _).2.2.2.2.1, C01_roundtrip_partial d hd ha]; rfl, by simp⟩
  | @uuid n hn => exact ⟨.str (uuidStr n), rfl, by rw [(hx _).2.2.2.2.2.1, C08_roundtrip n hn]; rfl, by simp⟩
  | @ipv4 n hn => exact ⟨.str (ipv4Str n), rfl, by rw [(hx _).2.2.2.2.2.2.1, C09_ipv4_roundtrip n hn]; rfl, by simp⟩
  | @ipv6 n s hn hs =>
    exact ⟨.str (ipv6StrScope n s), rfl, by rw [(hx _).2.2.2.2.2.2.2, C09_ipv6_roundtrip n hn s hs]; rfl, by simp⟩
  | _ => simp [scalarTys] at ht

theorem enum_roundtrip {env : Env} (hk : env.Ok) (skip : Bool) {e m : Nat} (hp : EnumPlain env e) {ed : EnumDef}
    (he : env.enums[e]? = some ed) (hm : m < ed.members.length) : RoundTrips env skip (.enum e) (.enum e m) := by
  obtain ⟨ed', he', hto, hval⟩ := hp
  rw [he] at he'; cases he'
  have hg := List.getElem?_eq_getElem hm
  have hv := hval _ (List.mem_of_getElem? hg)
  obtain ⟨j, h1, h2⟩ := C25_roundtrip_partial env hk skip e ed he hto m _ _ hg hv.2
  refine ⟨j, h1, h2, fun _ hj => ?_⟩
  have := dumps_enum h1
  unfold genEnum enumValue at this
  simp only [he, hto, hg] at this
  cases this
  generalize ed.members[m] = p at hv hj
  obtain ⟨n, x⟩ := p
  cases x <;> simp [Scalar.toJson] at hj hv

theorem literal_roundtrip {env : Env} (hk : env.Ok) (skip : Bool) {ls : List Lit} (hs : SameType ls)
    (hl : ∀ e m, Lit.enum e m ∈ ls → EnumPlain env e ∧ ∃ ed, env.enums[e]? = some ed ∧ m < ed.members.length) {l : Lit}
    (hm : l ∈ ls) : RoundTrips env skip (.literal ls) l.toVal := by
  have hkn : LitsKnown env ls := fun e m h => let ⟨_, ed, he, _⟩ := hl e m h; ⟨ed, he⟩
  obtain ⟨ty, _, hty⟩ := id hs
  have hint : ∀ i, Lit.int i ∈ ls → ∃ k, l = .int k := by
    intro i hi
    have h1 := hty _ hi
    have h2 := hty _ hm
    rw [← h1] at h2
    cases l <;> simp [Lit.ty] at h2
    exact ⟨_, rfl⟩
  have acc := fun j hb v => C24_accepts_iff_partial env hk skip ls hs hkn j hb v
  cases l with
  | enum e m =>
    obtain ⟨hp, ed, he, hlt⟩ := hl e m hm
    obtain ⟨j, h1, h2, h3⟩ := enum_roundtrip hk skip hp he hlt
    refine ⟨j, h1, (acc j ?_ _).2 ⟨_, hm, ?_, rfl⟩, h3⟩
    · intro i b hi; obtain ⟨k, h⟩ := hint i hi; cases h
    · rw [C25_lookup env hk skip e ed he] at h2
      obtain ⟨s, m', name, x, hs', hx, heq, hmm, hfirst⟩ := h2
      cases hmm
      exact ⟨ed, s, he, hs', findIdx?_unique hx heq hfirst⟩
  | int i => exact ⟨.int i, rfl, (acc _ (by intro _ _ _ h; cases h) _).2 ⟨_, hm, rfl, rfl⟩, by simp⟩
  | bool b =>
    exact ⟨.bool b, rfl, (acc _ (fun i b hi => by obtain ⟨k, h⟩ := hint i hi; cases h) _).2 ⟨_, hm, rfl, rfl⟩, by simp⟩
  | str s => exact ⟨.str s, rfl, (acc _ (by intro _ _ _ h; cases h) _).2 ⟨_, hm, rfl, rfl⟩, by simp⟩
  | none => exact ⟨.null, rfl, (acc _ (by intro _ _ _ h; cases h) _).2 ⟨_, hm, rfl, rfl⟩, by simp [Lit.toVal]⟩

/-- Values are written one by one. -/
theorem mapRes_roundtrip {env : Env} {skip : Bool} {t : Ty} : ∀ {vs : List Val},
    (∀ v ∈ vs, RoundTrips env skip t v) →
    ∃ js, mapRes (objectToJson env) vs = .ok js ∧ All2 (fun x w => loads env skip t x = .ok w) js vs := by
  intro vs
  induction vs with
  | nil => intro _; exact ⟨[], rfl, .nil⟩
  | cons v vs ih =>
    intro h
    obtain ⟨j, h1, h2, _⟩ := h v (by simp)
    obtain ⟨js, h3, h4⟩ := ih fun w hw => h w (by simp [hw])
    exact ⟨j :: js, by simp [mapRes, h1, h3], .cons h2 h4⟩

theorem tuple_roundtrip {env : Env} {skip : Bool} : ∀ {vs : List Val} {ts : List Ty}, vs.length = ts.length →
    (∀ (i : Nat) v t, vs[i]? = some v → ts[i]? = some t → RoundTrips env skip t v) →
    ∃ js, mapRes (objectToJson env) vs = .ok js ∧ js.length = ts.length ∧
      ∀ (i : Nat) x t w, js[i]? = some x → ts[i]? = some t → vs[i]? = some w → loads env skip t x = .ok w := by
  intro vs
  induction vs with
  | nil => intro ts hl _; exact ⟨[], rfl, by simpa using hl, by simp⟩
  | cons v vs ih =>
    intro ts hl h
    cases ts with
    | nil => simp at hl
    | cons t ts =>
      obtain ⟨j, h1, h2, _⟩ := h 0 v t rfl rfl
      obtain ⟨js, h3, h4, h5⟩ := ih (ts := ts) (by simpa using hl) fun i w u hw hu => h (i + 1) w u (by simpa using hw) (by simpa using hu)
      refine ⟨j :: js, by simp [mapRes, h1, h3], by simp [h4], ?_⟩
      intro i x u w hx hu hw
      cases i with
      | zero => simp at hx hu hw; subst hx hu hw; exact h2
      | succ i => exact h5 i x u w (by simpa using hx) (by simpa using hu) (by simpa using hw)

theorem dict_roundtrip {env : Env} (hk : env.Ok) {skip : Bool} {k : KeyTy} (hg : GoodKeyTy env k) {t : Ty}
    (hs : Supported env (.dict k t)) {kvs : List (Key × Val)} (hn : (kvs.map Prod.fst).Nodup)
    (hkeys : ∀ kv ∈ kvs, KeyHasTy env kv.1 k) (h : ∀ kv ∈ kvs, RoundTrips env skip t kv.2) :
    RoundTrips env skip (.dict k t) (.dict kvs) := by
  obtain ⟨ps, hps⟩ : ∃ ps : List (Str × Json), All2 (fun kv p => KeyText env kv.1 p.1 ∧
      objectToJson env kv.2 = .ok p.2 ∧ loads env skip t p.2 = .ok kv.2) kvs ps := by
    clear hn
    induction kvs with
    | nil => exact ⟨[], .nil⟩
    | cons kv kvs ih =>
      obtain ⟨ps, hps⟩ := ih (fun x hx => hkeys x (by simp [hx])) (fun x hx => h x (by simp [hx]))
      obtain ⟨j, h1, h2, _⟩ := h kv (by simp)
      obtain ⟨s, hs⟩ : ∃ s, KeyText env kv.1 s := by
        have := hkeys kv (by simp)
        cases k with
        | int | other => exact hg.elim
        | str =>
          generalize kv.1 = key at this
          cases key <;> simp [KeyHasTy] at this
          exact ⟨_, rfl⟩
        | enum e =>
          generalize kv.1 = key at this
          cases key <;> simp [KeyHasTy] at this
          obtain ⟨ed, he, hsv⟩ := hg
          obtain ⟨rfl, ed', he', hm⟩ := this
          rw [he] at he'; cases he'
          obtain ⟨name, s, hms⟩ := strValued_get hsv hm
          exact ⟨s, ed, name, he, hms⟩
      exact ⟨(s, j) :: ps, .cons ⟨hs, h1, h2⟩ hps⟩
  refine ⟨.obj ps, (dict_written hk hg hn hkeys).2 ⟨ps, rfl, hps.imp fun _ _ h => ⟨h.1, h.2.1⟩⟩, ?_, by simp⟩
  exact dict_read hk skip hs hkeys (keyText_nodup hk hn hkeys hps) (hps.imp fun _ _ h => ⟨h.1, h.2.2⟩)

theorem gen_field {env : Env} {c : Nat} {cd : ClassDef} (hc : env.classes[c]? = some cd) (hto : cd.toJson = none)
    (hkind : cd.kind ≠ .namedTuple false) (hser : serCreate env (.cls c) = .ok ()) {f : FieldDef} (hf : f ∈ cd.fields)
    {w : Val} (hw : HasTy env w f.ty) : gen env w f.ty = objectToJson env w := by
  have h4 : serCreate env f.ty = .ok () :=
    serCreate_field hc hser (by unfold ClassDef.serFields; rw [hto, hints_eq_fields hkind]; exact hf)
  rw [← C14_static_dynamic env f.ty _ h4 hw]
  simp only [dumps, h4]

theorem writesFields_total {env : Env} {kind : ClassKind} : ∀ {fds : List FieldDef} {fs : List (Str × Val)},
    fs.map Prod.fst = fds.map FieldDef.name →
    (∀ (i : Nat) f w, fds[i]? = some f → fs[i]? = some w → w.2 ≠ .none → ∃ x, gen env w.2 f.ty = .ok x) →
    ∃ ps, WritesFields env kind fds fs ps := by
  intro fds
  induction fds with
  | nil => intro fs h _; cases fs with | nil => exact ⟨[], .nil⟩ | cons => simp at h
  | cons f fds ih =>
    intro fs h hx
    cases fs with
    | nil => simp at h
    | cons w fs =>
      obtain ⟨n, w⟩ := w
      simp only [List.map_cons, List.cons.injEq] at h
      obtain ⟨rfl, h⟩ := h
      obtain ⟨ps, hps⟩ := ih h fun i g y hg hy => hx (i + 1) g y (by simpa using hg) (by simpa using hy)
      by_cases hw : w = .none
      · subst hw; exact ⟨ps, .skip hps⟩
      · obtain ⟨x, hx⟩ := hx 0 f (f.name, w) rfl rfl hw
        exact ⟨_, .put hw hx hps⟩

theorem class_roundtrip {env : Env} (hk : env.Ok) (skip : Bool) {c : Nat} {cd : ClassDef} (hr : Readable env c cd)
    (hto : cd.toJson = none) (hkind : cd.kind ≠ .namedTuple false) (hne : cd.kind = .plain → cd.fields ≠ [])
    (hser : serCreate env (.cls c) = .ok ()) (hprops : (cd.fields.map (writeProp cd.kind)).Nodup)
    (hsame : ∀ f ∈ cd.fields, fieldProp cd.kind f = writeProp cd.kind f)
    (habs : ∀ f ∈ cd.fields, HasTy env .none f.ty → absentValue cd.kind f = some .none) {fs : List (Str × Val)}
    (hn : fs.map Prod.fst = cd.fields.map FieldDef.name)
    (hty : ∀ (i : Nat) f w, cd.fields[i]? = some f → fs[i]? = some w → HasTy env w.2 f.ty)
    (ih : ∀ f ∈ cd.fields, ∀ kv ∈ fs, kv.2 ≠ .none → HasTy env kv.2 f.ty → RoundTrips env skip (fieldTy cd.kind f) kv.2) :
    RoundTrips env skip (.cls c) (.obj c fs) := by
  have hc := hr.cls
  obtain ⟨ps, hw⟩ : ∃ ps, WritesFields env cd.kind cd.fields fs ps := by
    refine writesFields_total hn fun i f w hf hw hne => ?_
    have hfm := List.mem_of_getElem? hf
    have hwt := hty i f w hf hw
    obtain ⟨j, hj, _⟩ := ih f hfm w (List.mem_of_getElem? hw) hne hwt
    exact ⟨j, by rw [gen_field hc hto hkind hser hfm hwt]; exact hj⟩
  refine ⟨.obj ps, (objectToJson_standard hk hc hto hkind hne hprops hn).2 ⟨hser, ps, rfl, hw⟩, ?_, by simp⟩
  rw [loads_cls_ok_iff hk skip hr]
  refine ⟨ps, fs, rfl, rfl, ?_, .inr ?_⟩
  · rw [hints_eq_fields hkind]
    refine All2.of_get (by have := congrArg List.length hn; simpa using this.symm) fun i f w hf hfs => ?_
    have hname : w.1 = f.name := by
      have := congrArg (fun l => l[i]?) hn
      simpa [hf, hfs] using this
    obtain ⟨n, w⟩ := w
    simp only at hname
    subst hname
    refine ⟨rfl, ?_⟩
    have hfm := List.mem_of_getElem? hf
    have hwt := hty i f _ hf hfs
    simp only at hwt ⊢
    unfold readField
    rw [hsame f hfm]
    rcases hw.lookup hprops hf hfs with ⟨rfl, h2⟩ | ⟨h1, x, h2, h3⟩
    · rw [h2, habs f hfm hwt]
    · obtain ⟨j, hj, hl, hnn⟩ := ih f hfm _ (List.mem_of_getElem? hfs) h1 hwt
      rw [gen_field hc hto hkind hser hfm hwt, hj] at h2
      cases h2
      rw [h3]
      have := hnn h1
      cases x <;> first | exact absurd rfl this | exact hl
  · intro p hp
    obtain ⟨f, hf, he⟩ := List.mem_map.1 (hw.props.subset (List.mem_map.2 ⟨p, hp, rfl⟩))
    exact ⟨f, by rw [hints_eq_fields hkind]; exact hf, by rw [hsame f hf]; exact he⟩

theorem hasTy_litArgs {env : Env} {w : Val} {t : Ty} (h : HasTy env w t) {ls : List Lit} (hl : t.litArgs = some ls) :
    ∃ l ∈ ls, w = l.toVal := by
  unfold Ty.litArgs at hl
  have hlit : ∀ t : Ty, t = .literal ls → HasTy env w t → ∃ l ∈ ls, w = l.toVal := by
    rintro t rfl h
    cases h with
    | literal h1 h2 => exact ⟨_, h1, h2⟩
  cases t with
  | annotated t ms =>
    simp only [Ty.unwrapAnn] at hl
    cases h with
    | annotated h => split at hl <;> cases hl; exact hlit _ rfl h
  | _ => simp only [Ty.unwrapAnn] at hl <;> first | (cases hl; done) | (cases hl; exact hlit _ rfl h)

/-- Instances of a member of a tagged union are written with all tags of the member. -/
theorem tagged_roundtrip {env : Env} (hk : env.Ok) (skip : Bool) {ts : List Ty} (hs : Supported env (.union ts))
    (ht : ∃ p, IsTag env ts p) {c : Nat} (hm : Ty.cls c ∈ ts) {cd : ClassDef} (hc : env.classes[c]? = some cd)
    (hto : cd.toJson = none) (hkind : cd.kind ≠ .namedTuple false) (hne : cd.kind = .plain → cd.fields ≠ [])
    (hprops : (cd.fields.map (writeProp cd.kind)).Nodup)
    (hname : ∀ p f, IsTag env ts p → f ∈ cd.hints → f.name = p → writeProp cd.kind f = p)
    (hval : ∀ p l, IsTag env ts p → TagValue env (.cls c) p l → l ≠ .none ∧ ∀ e m, l ≠ .enum e m)
    {v : Val} (hv : HasTy env v (.cls c)) (h : RoundTrips env skip (.cls c) v) : RoundTrips env skip (.union ts) v := by
  obtain ⟨j, hj, hl, hnn⟩ := h
  obtain ⟨fs, rfl, hn, hfty⟩ := hasTy_cls_inv hc hkind hne hv
  obtain ⟨hser, ps, rfl, hw⟩ := (objectToJson_standard hk hc hto hkind hne hprops hn).1 hj
  refine ⟨_, hj, ?_, hnn⟩
  have hnd := hk.fields cd (List.mem_of_getElem? hc)
  have key : ∀ p, IsTag env ts p → ∃ x l, lookupKey p ps = some x ∧ x ≠ .null ∧ TagValue env (.cls c) p l ∧ l.eqJson x = true := by
    intro p hp
    obtain ⟨c', cd', f, he, hc', hf, hfn, hsa, hla⟩ := hp.2 _ hm
    cases he
    rw [hc] at hc'; cases hc'
    obtain ⟨ls, hls⟩ := Option.isSome_iff_exists.1 hla
    have hf' : f ∈ cd.fields := by rw [hints_eq_fields hkind] at hf; exact hf
    obtain ⟨i, hi⟩ := List.getElem?_of_mem hf'
    obtain ⟨w, hwi, _⟩ := attr_of_name hn hnd hi
    have hwt := hfty i f _ hi hwi
    obtain ⟨l, hll, rfl⟩ := hasTy_litArgs hwt hls
    have htv : TagValue env (.cls c) p l := ⟨c, cd, f, ls, rfl, hc, hf, hfn, hsa, hls, hll⟩
    obtain ⟨h1, h2⟩ := hval p l hp htv
    rcases hw.lookup hprops hi hwi with ⟨h3, _⟩ | ⟨_, x, h4, h5⟩
    · cases l <;> simp [Lit.toVal] at h3; exact absurd rfl h1
    · rw [hname p f hp hf hfn] at h5
      rw [gen_field hc hto hkind hser hf' hwt] at h4
      refine ⟨x, l, h5, ?_, htv, ?_⟩
      · cases l <;> first | exact absurd rfl h1 | exact absurd rfl (h2 _ _) | (cases h4; simp [Scalar.toJson])
      · cases l with
        | none => exact absurd rfl h1
        | enum e m => exact absurd rfl (h2 e m)
        | bool b => cases h4; exact Scalar.pyEq_refl (.bool b) (by simp)
        | int i => cases h4; exact Scalar.pyEq_refl (.int i) (by simp)
        | str s => cases h4; exact Scalar.pyEq_refl (.str s) (by simp)
  rw [C22_selected env hk skip ts hs c hm ps ?_ ?_]
  · exact hl
  · obtain ⟨p, hp⟩ := ht
    obtain ⟨x, l, h1, h2, _⟩ := key p hp
    exact ⟨p, x, hp, h1, h2⟩
  · intro p x hp hx
    obtain ⟨x', l, h1, h2, h3, h4⟩ := key p hp
    have := hx.1
    rw [h1] at this; cases this
    exact ⟨l, h3, h4⟩

/-- For every type made of scalars, lists, sets, tuples, dictionaries, literals, enumerations, classes and unions
(recursive classes included) that meets the conditions of `Invertible`, and every value of that type that has a textual
form: serialization succeeds, and deserialization of the result gives the value back, with or without
`skip_unassigned`.  The conditions exclude those cases for which the code does not round-trip (see the theorems
below). -/
theorem C11_roundtrip_partial (env : Env) (hk : env.Ok) (G : Nat → Prop) (hG : ∀ c, G c → ClassInvertible env G c) (t : Ty)
    (ht : Invertible env G t) (v : Val) (hv : HasTy env v t) (he : Encodable v) (skip : Bool) :
    ∃ j, objectToJson env v = .ok j ∧ loads env skip t j = .ok v := by
  suffices key : ∀ n v, sizeOf v < n → ∀ t, Invertible env G t → HasTy env v t → Encodable v → RoundTrips env skip t v by
    obtain ⟨j, h1, h2, _⟩ := key _ v (Nat.lt_succ_self _) t ht hv he
    exact ⟨j, h1, h2⟩
  clear ht hv he v t
  intro n
  induction n with
  | zero => intro v hn; omega
  | succ n ihn =>
    intro v hsz t ht
    induction ht with
    | scalar hs => intro hv he; exact scalar_roundtrip env skip hs hv he
    | @list t ht _ =>
      intro hv he
      cases hv with
      | @list vs _ hvs =>
        have hel : ∀ v ∈ vs, Encodable v := by cases he with | leaf h => cases h | list h => exact h
        obtain ⟨js, h1, h2⟩ := mapRes_roundtrip (env := env) (skip := skip) (t := t) (vs := vs) fun v hv =>
          ihn v (by have := Val.sizeOf_mem_list hv; omega) t ht (hvs v hv) (hel v hv)
        exact ⟨.arr js, by rw [dyn_list, h1]; rfl,
          (C15_list env skip t (invertible_supported hk hG ht) _ _).2 ⟨js, vs, rfl, rfl, h2⟩, by simp⟩
    | @set t ht _ =>
      intro hv he
      cases hv with
      | @set vs _ hvs hh hd =>
        have hel : ∀ v ∈ vs, Encodable v := by cases he with | leaf h => cases h | set h => exact h
        obtain ⟨js, h1, h2⟩ := mapRes_roundtrip (env := env) (skip := skip) (t := t) (vs := vs) fun v hv =>
          ihn v (by have := Val.sizeOf_mem_set hv; omega) t ht (hvs v hv) (hel v hv)
        refine ⟨.arr js, by rw [dyn_set, h1]; rfl, ?_, by simp⟩
        obtain ⟨d, hd'⟩ := invertible_supported hk hG ht
        have hl : compile env (.set t) = .ok (.set d) := by simp [compile, hd']
        rw [loads_of_compile hl, parse_eq]
        simp only [parseD, kidsOf, parseSetK]
        rw [parseSetItems_distinct (vs := vs) ?_ hh [] (by simp) hd]
        · simp
        · rw [All2.map_left]
          exact h2.imp fun x w h => by rw [loads_of_compile hd'] at h; exact h
    | @tuple ts hts _ =>
      intro hv he
      cases hv with
      | @tuple vs _ hlen hvs =>
        have hel : ∀ v ∈ vs, Encodable v := by cases he with | leaf h => cases h | tuple h => exact h
        obtain ⟨js, h1, h2, h3⟩ := tuple_roundtrip (env := env) (skip := skip) hlen fun i v t hv ht =>
          have hm := List.mem_of_getElem? hv
          ihn v (by have := Val.sizeOf_mem_tuple hm; omega) t (hts t (List.mem_of_getElem? ht)) (hvs i v t hv ht) (hel v hm)
        exact ⟨.arr js, by rw [dyn_tuple, h1]; rfl,
          (C15_tuple env skip ts (fun t ht => invertible_supported hk hG (hts t ht)) _ _).2
            ⟨js, vs, rfl, rfl, h2, hlen, h3⟩, by simp⟩
    | @dictStr t ht _ =>
      intro hv he
      cases hv with
      | @dict kvs _ _ hn hkeys hvs =>
        have hel : ∀ kv ∈ kvs, Encodable kv.2 := by cases he with | leaf h => cases h | dict h => exact h
        exact dict_roundtrip hk (k := .str) trivial (invertible_supported hk hG (.dictStr ht)) hn hkeys fun kv hkv =>
          ihn kv.2 (by have := Val.sizeOf_mem_dict hkv; omega) t ht (hvs kv hkv) (hel kv hkv)
    | @dictEnum e ed t hed hsv ht _ =>
      intro hv he
      cases hv with
      | @dict kvs _ _ hn hkeys hvs =>
        have hel : ∀ kv ∈ kvs, Encodable kv.2 := by cases he with | leaf h => cases h | dict h => exact h
        exact dict_roundtrip hk (k := .enum e) ⟨ed, hed, hsv⟩ (invertible_supported hk hG (.dictEnum hed hsv ht)) hn hkeys
          fun kv hkv => ihn kv.2 (by have := Val.sizeOf_mem_dict hkv; omega) t ht (hvs kv hkv) (hel kv hkv)
    | annotated _ ih =>
      intro hv he
      cases hv with
      | annotated hv =>
        obtain ⟨j, h1, h2, h3⟩ := ih hv he
        exact ⟨j, h1, by rw [loads_annotated]; exact h2, h3⟩
    | literal hs hl =>
      intro hv he
      cases hv with
      | literal hm hv => subst hv; exact literal_roundtrip hk skip hs hl hm
    | enum hp =>
      intro hv he
      cases hv with
      | enum hed hm => exact enum_roundtrip hk skip hp hed hm
    | @cls c hc =>
      intro hv he
      cases hG c hc with
      | standard cd hc hto hcu hkind hne hser hprops hsame hty habs =>
        obtain ⟨fs, rfl, hn, hfty⟩ := hasTy_cls_inv hc hkind hne hv
        have hel : ∀ kv ∈ fs, Encodable kv.2 := by cases he with | leaf h => cases h | obj h => exact h
        refine class_roundtrip hk skip (readable_standard hk hG hc hcu hkind hty) hto hkind hne hser hprops hsame habs hn hfty ?_
        intro f hf kv hkv hnn hwt
        refine ihn kv.2 (by have := Val.sizeOf_mem_obj (c := c) hkv; omega) _ (hty f hf) ?_ (hel kv hkv)
        unfold fieldTy
        split
        · exact hwt
        · exact hasTy_required_of hnn hwt
      | hooks cd hc f g hto hfrom hcu hinv =>
        obtain ⟨j, h1, h2, h3⟩ := hinv v hv
        refine ⟨j, ?_, by rw [loads_custom hk skip hc hcu hfrom]; exact h3, fun _ => h2⟩
        have hser : serCreate env (.cls c) = .ok () := by
          simp only [serCreate, createWith]
          have hlt : c < env.classes.length := (List.getElem?_eq_some_iff.1 hc).1
          obtain ⟨m, hm⟩ : ∃ m, env.classes.length = m + 1 := ⟨env.classes.length - 1, by omega⟩
          rw [hm]
          simp [createCls, hc, ClassDef.serFields, hto, forRes]
        have hobj : ∃ fs, v = .obj c fs := by cases hv <;> exact ⟨_, rfl⟩
        obtain ⟨fs, rfl⟩ := hobj
        rw [gen_dyn_ok (by simpa [typeOf] using hser)]
        show genCls env (.obj c fs) (.obj (genObj env fs)) c = .ok j
        unfold genCls
        rw [hc]
        simp only [hto]
        exact h1
    | @union ts hu hts hap ih =>
      intro hv he
      cases hv with
      | @union _ _ u hm hvu =>
        obtain ⟨j, h1, h2, h3⟩ := ih u hm hvu he
        refine ⟨j, h1, ?_, h3⟩
        obtain ⟨k, hk'⟩ := List.getElem?_of_mem hm
        have hsup : ∀ t ∈ ts, Supported env t := fun t ht => invertible_supported hk hG (hts t ht)
        have hbefore : ∀ (i : Nat) t, i < k → ts[i]? = some t → Refuses env skip t j ∨ loads env skip t j = .ok v :=
          fun i t hi hit => apart_sound hk hG skip (hap i k t u hi hit hk') (hts t (List.mem_of_getElem? hit)) v hvu j h1
        clear hap ih hts
        rw [C21_ok_iff env skip ts hu hsup]
        clear hu hsup hm
        induction ts generalizing k with
        | nil => simp at hk'
        | cons t ts iht =>
          cases k with
          | zero => simp at hk'; subst hk'; exact ⟨[], t, ts, rfl, h2, by simp⟩
          | succ k =>
            rcases hbefore 0 t (by omega) rfl with h | h
            · obtain ⟨pre, t', post, rfl, h4, h5⟩ := iht k (by simpa using hk')
                fun i t hi hit => hbefore (i + 1) t (by omega) (by simpa using hit)
              refine ⟨t :: pre, t', post, rfl, h4, ?_⟩
              intro x hx
              rcases List.mem_cons.1 hx with rfl | hx
              · exact h
              · exact h5 x hx
            · exact ⟨[], t, ts, rfl, h, by simp⟩
    | @tagged ts htag ha hts hto hname hval ih =>
      intro hv he
      cases hv with
      | @union _ _ u hm hvu =>
        have hrt := ih u hm hvu he
        obtain ⟨p, hp⟩ := id htag
        obtain ⟨c, cd, _, rfl, hc, _⟩ := hp.2 u hm
        have hGc : G c := by
          cases hts _ hm with
          | scalar h => simp [scalarTys] at h
          | cls h => exact h
        cases hG c hGc with
        | standard cd' hc' hto' hcu hkind hne hser hprops hsame hty habs =>
          rw [hc] at hc'; cases hc'
          exact tagged_roundtrip hk skip ((C23_ambiguous_iff env hk _ htag).2.2 ha) htag hm hc hto' hkind hne hprops
            (fun p f hp hf hfn => hname p c cd f hp hm hc hf hfn) (fun p l hp hl => hval p _ l hp hm hl) hvu hrt
        | hooks cd' hc' f g hto' _ _ _ =>
          have := hto c cd' hm hc'
          rw [hto'] at this; cases this

/-- The same with the serializer that is made for the type. -/
theorem C11_roundtrip_static_partial (env : Env) (hk : env.Ok) (G : Nat → Prop) (hG : ∀ c, G c → ClassInvertible env G c)
    (t : Ty) (ht : Invertible env G t) (hc : serCreate env t = .ok ()) (v : Val) (hv : HasTy env v t) (he : Encodable v)
    (skip : Bool) : ∃ j, dumps env t v = .ok j ∧ loads env skip t j = .ok v := by
  rw [C14_static_dynamic env t v hc hv]
  exact C11_roundtrip_partial env hk G hG t ht v hv he skip

/-! ### Where the code does not round-trip -/

private def oneClass (cd : ClassDef) : Env := ⟨[], [cd], id⟩

private theorem oneClass_ok (cd : ClassDef) (h : (cd.fields.map (·.name)).Nodup) : (oneClass cd).Ok :=
  ⟨by simp [oneClass], by simp [oneClass], by simpa [oneClass] using h, fun _ => .refl _⟩

/-- A value of a later union member is read as an earlier member: a UUID in `Union[str, UUID]` comes back as `str`. -/
theorem C11_union_shadowed (env : Env) (skip : Bool) :
    HasTy env (.uuid 0) (.union [.str, .uuid]) ∧ Encodable (.uuid 0) ∧
      ∃ j s, objectToJson env (.uuid 0) = .ok j ∧ loads env skip (.union [.str, .uuid]) j = .ok (.str s) :=
  ⟨.union (t := .uuid) (by simp) (.uuid (by decide)), .leaf rfl (by simp) (by simp) (by simp), _, _, rfl, rfl⟩

/-- `None` in a field with another default: `x: Optional[int] = 1` turns `None` into 1. -/
theorem C11_none_becomes_default :
    ∃ (env : Env) (v : Val) (j : Json), env.Ok ∧ HasTy env v (.cls 0) ∧ v = .obj 0 [(c!"x", .none)] ∧
      objectToJson env v = .ok j ∧ loads env false (.cls 0) j = .ok (.obj 0 [(c!"x", .int 1)]) := by
  refine ⟨oneClass { module := c!"m", name := c!"A", kind := .dataclass false, fields :=
    [{ name := c!"x", ty := .union [.int, .none], dflt := .value (.int 1) }] }, .obj 0 [(c!"x", .none)], _,
    oneClass_ok _ (by simp), .cls rfl rfl ?_, rfl, rfl, rfl⟩
  intro i f w hf hw
  match i with
  | 0 => cases hf; cases hw; exact .union (t := .none) (by simp) .none
  | _ + 1 => cases hf

/-- A field of type `None` is left out, but required. -/
theorem C11_none_field :
    ∃ (env : Env) (v : Val) (j : Json), env.Ok ∧ HasTy env v (.cls 0) ∧
      objectToJson env v = .ok j ∧ loads env false (.cls 0) j = .error .jsonKey := by
  refine ⟨oneClass { module := c!"m", name := c!"A", kind := .dataclass false, fields :=
    [{ name := c!"x", ty := .none }] }, .obj 0 [(c!"x", .none)], _, oneClass_ok _ (by simp), .cls rfl rfl ?_, rfl, rfl⟩
  intro i f w hf hw
  match i with
  | 0 => cases hf; cases hw; exact .none
  | _ + 1 => cases hf

/-- An optional field of a named tuple is left out if `None`, but required. -/
theorem C11_namedtuple_none :
    ∃ (env : Env) (v : Val) (j : Json), env.Ok ∧ HasTy env v (.cls 0) ∧
      objectToJson env v = .ok j ∧ loads env false (.cls 0) j = .error .jsonKey := by
  refine ⟨oneClass { module := c!"m", name := c!"P", kind := .namedTuple true, fields :=
    [{ name := c!"x", ty := .union [.int, .none] }] }, .obj 0 [(c!"x", .none)], _, oneClass_ok _ (by simp),
    .cls rfl rfl ?_, rfl, rfl⟩
  intro i f w hf hw
  match i with
  | 0 => cases hf; cases hw; exact .union (t := .none) (by simp) .none
  | _ + 1 => cases hf

/-- A field of a named tuple is written under its alias, but read under its own name. -/
theorem C11_namedtuple_alias :
    ∃ (env : Env) (v : Val) (j : Json), env.Ok ∧ HasTy env v (.cls 0) ∧
      objectToJson env v = .ok j ∧ loads env false (.cls 0) j = .error .jsonKey := by
  refine ⟨oneClass { module := c!"m", name := c!"P", kind := .namedTuple true, fields :=
    [{ name := c!"x", ty := .annotated .int [.alias c!"y"] }] }, .obj 0 [(c!"x", .int 1)], _, oneClass_ok _ (by simp),
    .cls rfl rfl ?_, rfl, rfl⟩
  intro i f w hf hw
  match i with
  | 0 => cases hf; cases hw; exact .annotated .int
  | _ + 1 => cases hf

/-- A field of a data class whose annotation is a string is written under its own name, but read under its alias. -/
theorem C11_string_annotation_alias :
    ∃ (env : Env) (v : Val) (j : Json), env.Ok ∧ HasTy env v (.cls 0) ∧
      objectToJson env v = .ok j ∧ loads env false (.cls 0) j = .error .jsonKey := by
  refine ⟨oneClass { module := c!"m", name := c!"A", kind := .dataclass false, fields :=
    [{ name := c!"x", ty := .annotated .int [.alias c!"y"], strAnn := true }] }, .obj 0 [(c!"x", .int 1)], _,
    oneClass_ok _ (by simp), .cls rfl rfl ?_, rfl, rfl⟩
  intro i f w hf hw
  match i with
  | 0 => cases hf; cases hw; exact .annotated .int
  | _ + 1 => cases hf

/-! ### The hypotheses are met -/

/-- A recursive data class with an alias, an optional field and a tagged union, and the members of the union:
```
class Node:  value: Annotated[Union[int, str], Alias("val")];  next: Optional[Node] = None;  shape: Union[A, B]
class A:     kind: Literal["a"];  x: dict[str, int]
class B:     kind: Literal["b"];  y: list[timedelta]
``` -/
private def exEnv : Env :=
  ⟨[], [{ module := c!"m", name := c!"Node", kind := .dataclass false, fields :=
    [{ name := c!"value", ty := .annotated (.union [.int, .str]) [.alias c!"val"] },
     { name := c!"next", ty := .union [.cls 0, .none], dflt := .value .none },
     { name := c!"shape", ty := .union [.cls 1, .cls 2] }] },
    { module := c!"m", name := c!"A", kind := .dataclass false, fields :=
      [{ name := c!"kind", ty := .literal [.str c!"a"] }, { name := c!"x", ty := .dict .str .int }] },
    { module := c!"m", name := c!"B", kind := .dataclass true, fields :=
      [{ name := c!"kind", ty := .literal [.str c!"b"] }, { name := c!"y", ty := .list .timedelta }] }], id⟩

private theorem exOk : exEnv.Ok := by
  refine ⟨?_, ?_, ?_, fun _ => .refl _⟩
  · simp [exEnv, ClassDef.key]
  · simp [exEnv]
  · simp [exEnv]

private def exG (c : Nat) : Prop := c < 3

private theorem exTagged : Invertible exEnv exG (.union [.cls 1, .cls 2]) := by
  have htag : ∀ p, IsTag exEnv [.cls 1, .cls 2] p ↔ p = c!"kind" := by
    intro p
    rw [← mem_discProps, show discProps exEnv [.cls 1, .cls 2] = [c!"kind"] by rfl, List.mem_singleton]
  have htag' : ∃ p, IsTag exEnv [.cls 1, .cls 2] p := ⟨_, (htag _).2 rfl⟩
  refine .tagged htag' ((C23_ambiguous_iff exEnv exOk _ htag').2.1 ⟨_, rfl⟩) ?_ ?_ ?_ ?_
  · intro t ht
    simp only [List.mem_cons, List.not_mem_nil, or_false] at ht
    rcases ht with rfl | rfl <;> exact .cls (by simp [exG])
  · intro c cd hm hc
    simp only [List.mem_cons, List.not_mem_nil, or_false, Ty.cls.injEq] at hm
    rcases hm with rfl | rfl <;> cases hc <;> rfl
  · intro p c cd f hp hm hc hf hn
    have := (htag p).1 hp
    subst this
    simp only [List.mem_cons, List.not_mem_nil, or_false, Ty.cls.injEq] at hm
    rcases hm with rfl | rfl <;> cases hc <;>
      simp only [ClassDef.hints, List.mem_cons, List.not_mem_nil, or_false] at hf <;>
      rcases hf with rfl | rfl <;> first | rfl | (exact absurd hn (by decide))
  · intro p t l hp hm hl
    have := (htag p).1 hp
    subst this
    have hht := hp.2 t hm
    rw [← mem_memberLits exOk hht] at hl
    simp only [List.mem_cons, List.not_mem_nil, or_false] at hm
    rcases hm with rfl | rfl
    · rw [show memberLits exEnv (.cls 1) c!"kind" = [.str c!"a"] by rfl] at hl
      rcases List.mem_singleton.1 hl with rfl; simp
    · rw [show memberLits exEnv (.cls 2) c!"kind" = [.str c!"b"] by rfl] at hl
      rcases List.mem_singleton.1 hl with rfl; simp

private theorem exUnion : Invertible exEnv exG (.union [.int, .str]) := by
  refine .union ?_ ?_ ?_
  · rw [← discProps_nil_iff]; rfl
  · intro t ht
    simp only [List.mem_cons, List.not_mem_nil, or_false] at ht
    rcases ht with rfl | rfl <;> exact .scalar (by simp [scalarTys])
  · intro i k t u hik ht hu
    match i, k with
    | 0, 1 => cases ht; cases hu; exact .kinds (by decide)
    | 0, 0 => omega
    | _, k + 2 => simp at hu
    | i + 1, 0 => omega
    | i + 1, 1 => omega

private theorem no_none_litStr {env : Env} {s : Str} : ¬ HasTy env .none (.literal [.str s]) := by
  intro h
  cases h with
  | literal hl hv => rcases List.mem_singleton.1 hl with rfl; cases hv

private theorem exClasses : ∀ c, exG c → ClassInvertible exEnv exG c := by
  intro c hc
  match c, hc with
  | 0, _ =>
    refine .standard _ rfl rfl rfl (by simp) (by simp) rfl (by decide) ?_ ?_ ?_
    · intro f hf
      simp only [List.mem_cons, List.not_mem_nil, or_false] at hf
      rcases hf with rfl | rfl | rfl <;> rfl
    · intro f hf
      simp only [List.mem_cons, List.not_mem_nil, or_false] at hf
      rcases hf with rfl | rfl | rfl
      · exact .annotated exUnion
      · exact .cls (by simp [exG])
      · exact exTagged
    · intro f hf hno
      simp only [List.mem_cons, List.not_mem_nil, or_false] at hf
      rcases hf with rfl | rfl | rfl
      · cases hno with
        | annotated h => cases h with
          | union hm h =>
            simp only [List.mem_cons, List.not_mem_nil, or_false] at hm
            rcases hm with rfl | rfl <;> cases h
      · rfl
      · cases hno with
        | union hm h =>
          simp only [List.mem_cons, List.not_mem_nil, or_false] at hm
          rcases hm with rfl | rfl <;> cases h
  | 1, _ =>
    refine .standard _ rfl rfl rfl (by simp) (by simp) rfl (by decide) ?_ ?_ ?_
    · intro f hf
      simp only [List.mem_cons, List.not_mem_nil, or_false] at hf
      rcases hf with rfl | rfl <;> rfl
    · intro f hf
      simp only [List.mem_cons, List.not_mem_nil, or_false] at hf
      rcases hf with rfl | rfl
      · exact .literal ⟨.str, by simp, by simp [Lit.ty]⟩ (by simp)
      · exact .dictStr (.scalar (by simp [scalarTys]))
    · intro f hf hno
      simp only [List.mem_cons, List.not_mem_nil, or_false] at hf
      rcases hf with rfl | rfl
      · exact absurd hno no_none_litStr
      · cases hno
  | 2, _ =>
    refine .standard _ rfl rfl rfl (by simp) (by simp) rfl (by decide) ?_ ?_ ?_
    · intro f hf
      simp only [List.mem_cons, List.not_mem_nil, or_false] at hf
      rcases hf with rfl | rfl <;> rfl
    · intro f hf
      simp only [List.mem_cons, List.not_mem_nil, or_false] at hf
      rcases hf with rfl | rfl
      · exact .literal ⟨.str, by simp, by simp [Lit.ty]⟩ (by simp)
      · exact .list (.scalar (by simp [scalarTys]))
    · intro f hf hno
      simp only [List.mem_cons, List.not_mem_nil, or_false] at hf
      rcases hf with rfl | rfl
      · exact absurd hno no_none_litStr
      · cases hno

/-- All nodes round-trip, however long the chain. -/
example (v : Val) (hv : HasTy exEnv v (.list (.cls 0))) (he : Encodable v) :
    ∃ j, dumps exEnv (.list (.cls 0)) v = .ok j ∧ loads exEnv false (.list (.cls 0)) j = .ok v :=
  C11_roundtrip_static_partial exEnv exOk exG exClasses _ (.list (.cls (by simp [exG]))) rfl v hv he false

private def exVal : Val :=
  .obj 0 [(c!"value", .str c!"top"),
    (c!"next", .obj 0 [(c!"value", .int 5), (c!"next", .none),
      (c!"shape", .obj 2 [(c!"kind", .str c!"b"), (c!"y", .list [.timedelta ⟨1, 2, 3⟩])])]),
    (c!"shape", .obj 1 [(c!"kind", .str c!"a"), (c!"x", .dict [(.str c!"k", .int 7)])])]

example : HasTy exEnv exVal (.cls 0) := by
  have hA : HasTy exEnv (.obj 1 [(c!"kind", .str c!"a"), (c!"x", .dict [(.str c!"k", .int 7)])]) (.cls 1) := by
    refine .cls rfl rfl ?_
    intro i f w hf hw
    match i with
    | 0 => cases hf; cases hw; exact .literal (l := .str c!"a") (by simp) rfl
    | 1 =>
      cases hf; cases hw
      refine .dict (by simp) ?_ ?_ <;> intro kv hkv <;> rcases List.mem_singleton.1 hkv with rfl
      · trivial
      · exact .int
    | _ + 2 => cases hf
  have hB : HasTy exEnv (.obj 2 [(c!"kind", .str c!"b"), (c!"y", .list [.timedelta ⟨1, 2, 3⟩])]) (.cls 2) := by
    refine .cls rfl rfl ?_
    intro i f w hf hw
    match i with
    | 0 => cases hf; cases hw; exact .literal (l := .str c!"b") (by simp) rfl
    | 1 =>
      cases hf; cases hw
      refine .list ?_
      intro v hv; rcases List.mem_singleton.1 hv with rfl
      exact .timedelta (by unfold TimeDelta.Valid; decide)
    | _ + 2 => cases hf
  refine .cls rfl rfl ?_
  intro i f w hf hw
  match i with
  | 0 => cases hf; cases hw; exact .annotated (.union (t := .str) (by simp) .str)
  | 1 =>
    cases hf; cases hw
    refine .union (t := .cls 0) (by simp) (.cls rfl rfl ?_)
    intro i f w hf hw
    match i with
    | 0 => cases hf; cases hw; exact .annotated (.union (t := .int) (by simp) .int)
    | 1 => cases hf; cases hw; exact .union (t := .none) (by simp) .none
    | 2 => cases hf; cases hw; exact .union (t := .cls 2) (by simp) hB
    | _ + 3 => cases hf
  | 2 => cases hf; cases hw; exact .union (t := .cls 1) (by simp) hA
  | _ + 3 => cases hf

example : Encodable exVal := by
  have leaf : ∀ v : Val, v.isLeaf = true → (∀ d, v ≠ .datetime d) → (∀ d, v ≠ .timedelta d) →
      (∀ d, v ≠ .time d) → Encodable v :=
    fun v h1 h2 h3 h4 => .leaf h1 (fun d h => absurd h (h2 d)) (fun d h => absurd h (h3 d)) (fun d h => absurd h (h4 d))
  refine .obj ?_
  simp only [List.mem_cons, List.not_mem_nil, or_false, forall_eq_or_imp, forall_eq]
  refine ⟨leaf _ rfl (by simp) (by simp) (by simp), .obj ?_, .obj ?_⟩ <;>
    simp only [List.mem_cons, List.not_mem_nil, or_false, forall_eq_or_imp, forall_eq]
  · refine ⟨leaf _ rfl (by simp) (by simp) (by simp), leaf _ rfl (by simp) (by simp) (by simp), .obj ?_⟩
    simp only [List.mem_cons, List.not_mem_nil, or_false, forall_eq_or_imp, forall_eq]
    refine ⟨leaf _ rfl (by simp) (by simp) (by simp), .list ?_⟩
    simp only [List.mem_cons, List.not_mem_nil, or_false, forall_eq]
    exact .leaf rfl (by simp) (by rintro d ⟨⟩; decide) (by simp)
  · refine ⟨leaf _ rfl (by simp) (by simp) (by simp), .dict ?_⟩
    simp only [List.mem_cons, List.not_mem_nil, or_false, forall_eq]
    exact leaf _ rfl (by simp) (by simp) (by simp)

end Verif
