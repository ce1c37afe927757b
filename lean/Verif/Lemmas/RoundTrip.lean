import Verif.Spec.RoundTrip
import Verif.Props.C10_Scalars
import Verif.Props.C15_Containers
import Verif.Props.C12_TypeSafety
import Verif.Props.C17_C18_Unknown
/-!
# Lemmas for the round trip
-/
namespace Verif

theorem hints_eq_fields {cd : ClassDef} (h : cd.kind ≠ .namedTuple false) : cd.hints = cd.fields := by
  unfold ClassDef.hints; split
  · rename_i hk'; exact absurd hk' h
  · rfl

theorem genCls_standard {env : Env} {c : Nat} {cd : ClassDef} (hc : env.classes[c]? = some cd) (hto : cd.toJson = none)
    (hkind : cd.kind ≠ .namedTuple false) (hne : cd.kind = .plain → cd.fields ≠ []) (raw : Val)
    (fs : List (Str × Val × (Ty → Res Json))) : genCls env raw (.obj fs) c = genProps cd.kind fs [] cd.fields := by
  unfold genCls
  rw [hc]
  simp only [hto]
  split
  · rename_i h1; exact absurd h1 hkind
  · rename_i h1; rw [if_neg (by simpa using hne h1), h1]
  · rfl

/-- Instances of a class have the attributes that the class declares. -/
theorem hasTy_cls_inv {env : Env} {c : Nat} {cd : ClassDef} (hc : env.classes[c]? = some cd)
    (hkind : cd.kind ≠ .namedTuple false) (hne : cd.kind = .plain → cd.fields ≠ []) {v : Val} (h : HasTy env v (.cls c)) :
    ∃ fs, v = .obj c fs ∧ fs.map Prod.fst = cd.fields.map FieldDef.name ∧
      ∀ (i : Nat) f w, cd.fields[i]? = some f → fs[i]? = some w → HasTy env w.2 f.ty := by
  cases h with
  | cls hc' h1 h2 => rw [hc] at hc'; cases hc'; rw [hints_eq_fields hkind] at h2; exact ⟨_, rfl, h1, h2⟩
  | untyped hc' h1 h2 => rw [hc] at hc'; cases hc'; exact absurd h2 (hne h1)

theorem objectToJson_standard {env : Env} (hk : env.Ok) {c : Nat} {cd : ClassDef} (hc : env.classes[c]? = some cd)
    (hto : cd.toJson = none) (hkind : cd.kind ≠ .namedTuple false) (hne : cd.kind = .plain → cd.fields ≠ [])
    (hp : (cd.fields.map (writeProp cd.kind)).Nodup) {fs : List (Str × Val)}
    (hn : fs.map Prod.fst = cd.fields.map FieldDef.name) {j : Json} :
    objectToJson env (.obj c fs) = .ok j ↔
      serCreate env (.cls c) = .ok () ∧ ∃ ps, j = .obj ps ∧ WritesFields env cd.kind cd.fields fs ps := by
  rw [← genProps_iff hn (hk.fields cd (List.mem_of_getElem? hc)) hp]
  unfold objectToJson dumps
  simp only [typeOf]
  cases serCreate env (.cls c) with
  | error e => simp
  | ok u =>
    simp only [true_and]
    have : gen env (.obj c fs) (.cls c) = genCls env (.obj c fs) (.obj (genObj env fs)) c := rfl
    rw [this, genCls_standard hc hto hkind hne]

/-! ### Kinds -/

theorem enum_kind {env : Env} {e m : Nat} {j : Json} (h : genEnum env (.enum e m) e = .ok j) : j.kind ∈ enumKinds env e := by
  have hall : ∀ k : Kind, k ∈ allKinds := by intro k; cases k <;> decide
  unfold enumKinds
  cases he : env.enums[e]? with
  | none => exact hall _
  | some ed =>
    simp only
    split
    · exact hall _
    · rename_i ht
      unfold genEnum at h
      rw [he] at h
      simp only at h
      split at h
      · rename_i f hf; simp [hf] at ht
      · unfold enumValue at h
        rw [he] at h
        simp only at h
        cases hm : ed.members[m]? with
        | none => rw [hm] at h; cases h
        | some p =>
          rw [hm] at h
          cases h
          exact List.mem_map.2 ⟨p, List.mem_of_getElem? hm, rfl⟩

theorem mem_writeKindsL {env : Env} {ts : List Ty} {k : Kind} : k ∈ writeKindsL env ts ↔ ∃ t ∈ ts, k ∈ writeKinds env t := by
  induction ts with
  | nil => simp [writeKindsL]
  | cons t ts ih => simp [writeKindsL, ih]

theorem mem_rejectKindsL {env : Env} {ts : List Ty} {k : Kind} : k ∈ rejectKindsL env ts ↔ ∀ t ∈ ts, k ∈ rejectKinds env t := by
  induction ts with
  | nil => simp only [rejectKindsL]; constructor <;> intro; · simp
           · cases k <;> decide
  | cons t ts ih => simp [rejectKindsL, ih]

theorem dumps_enum {env : Env} {e m : Nat} {j : Json} (h : objectToJson env (.enum e m) = .ok j) :
    genEnum env (.enum e m) e = .ok j := by
  unfold objectToJson dumps at h
  split at h
  · cases h
  · exact h

theorem written_kind {env : Env} {v : Val} {t : Ty} (hv : HasTy env v t) {j : Json} (h : objectToJson env v = .ok j) :
    j.kind ∈ writeKinds env t := by
  have harr : ∀ {r : Res (List Json)}, arrOf r = .ok j → j.kind = .arr := by
    intro r h; cases r <;> simp [arrOf] at h; subst h; rfl
  induction hv with
  | none | bool | int | float | str | bytes | date | time | timedelta | uuid | ipv4 | ipv6 =>
    cases h; simp [writeKinds, Json.kind, Scalar.toJson]
  | @datetime d _ =>
    have h : genShape env (.datetime d) .none .datetime = .ok j := h
    simp only [genShape] at h
    split at h <;> cases h
    simp [writeKinds, Json.kind]
  | bareList | list => rw [dyn_list] at h; simp [writeKinds, harr h]
  | bareSet | set => rw [dyn_set] at h; simp [writeKinds, harr h]
  | bareTuple | tuple => rw [dyn_tuple] at h; simp [writeKinds, harr h]
  | bareDict | dict =>
    rw [dyn_dict] at h
    obtain ⟨ps, rfl, _⟩ := genPairs_obj _ _ _ h
    simp [writeKinds, Json.kind]
  | union hm _ ih => rw [writeKinds, mem_writeKindsL]; exact ⟨_, hm, ih h⟩
  | annotated _ ih => rw [writeKinds]; exact ih h
  | @literal v ls l hl hv =>
    subst hv
    rw [writeKinds, List.mem_flatMap]
    refine ⟨l, hl, ?_⟩
    cases l with
    | enum e m => exact enum_kind (dumps_enum h)
    | _ => cases h; simp [Json.kind, Lit.toVal, Scalar.toJson]
  | enum => rw [writeKinds]; exact enum_kind (dumps_enum h)
  | @cls c cd fs hc _ _ | @untyped c cd fs hc _ _ =>
    simp only [writeKinds, hc]
    split
    · cases j.kind <;> decide
    · rename_i ht
      have hto : cd.toJson = none := by cases h : cd.toJson <;> simp_all
      unfold objectToJson dumps at h
      split at h
      · cases h
      have h : genCls env (.obj c fs) (.obj (genObj env fs)) c = .ok j := h
      unfold genCls at h
      rw [hc] at h
      simp only [hto] at h
      split at h
      · obtain ⟨ps, rfl⟩ := genUntypedTuple_obj _ _ _ h; simp [Json.kind]
      · split at h
        · obtain ⟨ps, rfl, _⟩ := genUntyped_obj _ _ _ h; simp [Json.kind]
        · obtain ⟨ps, rfl, _⟩ := genProps_obj _ _ _ h; simp [Json.kind]
      · obtain ⟨ps, rfl, _⟩ := genProps_obj _ _ _ h; simp [Json.kind]

/-- Errors after which a union goes on. -/
def Refuses (env : Env) (skip : Bool) (t : Ty) (j : Json) : Prop :=
  loads env skip t j = .error .jsonKey ∨ loads env skip t j = .error .jsonType

theorem loads_annotated (env : Env) (skip : Bool) (t : Ty) (ms : List Meta) (j : Json) :
    loads env skip (.annotated t ms) j = loads env skip t j := by
  simp only [loads, compile]

theorem invertible_supported {env : Env} (hk : env.Ok) {G : Nat → Prop} (hG : ∀ c, G c → ClassInvertible env G c) {t : Ty}
    (h : Invertible env G t) : Supported env t := by
  induction h with
  | @scalar t ht =>
    simp only [scalarTys, List.mem_cons, List.not_mem_nil, or_false] at ht
    rcases ht with rfl|rfl|rfl|rfl|rfl|rfl|rfl|rfl|rfl|rfl|rfl|rfl|rfl <;> exact ⟨_, rfl⟩
  | list _ ih => obtain ⟨d, hd⟩ := ih; exact ⟨.list d, by simp [compile, hd]⟩
  | set _ ih => obtain ⟨d, hd⟩ := ih; exact ⟨.set d, by simp [compile, hd]⟩
  | @tuple ts _ ih =>
    obtain ⟨ds, hds⟩ : ∃ ds, compileL env ts = .ok ds := by
      rename_i h0; clear h0
      induction ts with
      | nil => exact ⟨[], rfl⟩
      | cons t ts iht =>
        obtain ⟨d, hd⟩ := ih t (by simp)
        obtain ⟨ds, hds⟩ := iht fun u hu => ih u (by simp [hu])
        exact ⟨d :: ds, by simp [compileL, hd, hds]⟩
    exact ⟨.tuple ds, by simp [compile, hds]⟩
  | dictStr _ ih => obtain ⟨d, hd⟩ := ih; exact ⟨.dict .str d, by simp [compile, checkKeyTy, hd]⟩
  | @dictEnum e ed t he hs _ ih =>
    obtain ⟨d, hd⟩ := ih; exact ⟨.dict (.enum e) d, by simp [compile, checkKeyTy, he, hs, hd]⟩
  | annotated _ ih => obtain ⟨d, hd⟩ := ih; exact ⟨d, by simp [compile, hd]⟩
  | literal hs hl =>
    obtain ⟨_, _, d, _, _, h⟩ := compile_literal hs fun e m hm => let ⟨_, ed, h, _⟩ := hl e m hm; ⟨ed, h⟩
    exact ⟨_, h⟩
  | enum he => obtain ⟨ed, he, _⟩ := he; exact ⟨.ref ed.key, by simp [compile, tyKey, he]⟩
  | cls hc => cases hG _ hc with
    | standard cd hc => exact ⟨_, compile_cls hc⟩
    | hooks cd hc => exact ⟨_, compile_cls hc⟩
  | union hu _ _ ih => obtain ⟨ds, h, _⟩ := compile_untagged hu ih; exact ⟨_, h⟩
  | tagged ht ha _ _ _ _ _ => exact (C23_ambiguous_iff env hk _ ht).2.2 ha

theorem readable_standard {env : Env} (hk : env.Ok) {G : Nat → Prop} (hG : ∀ c, G c → ClassInvertible env G c) {c : Nat}
    {cd : ClassDef} (hc : env.classes[c]? = some cd) (hcu : cd.custom = false) (hkind : cd.kind ≠ .namedTuple false)
    (hty : ∀ f ∈ cd.fields, Invertible env G (fieldTy cd.kind f)) : Readable env c cd :=
  ⟨hc, hcu, fun h => absurd h hkind, fun f hf => invertible_supported hk hG (hty f (hints_eq_fields hkind ▸ hf))⟩

theorem refuses_kind {env : Env} (hk : env.Ok) {G : Nat → Prop} (hG : ∀ c, G c → ClassInvertible env G c) (skip : Bool)
    (j : Json) {t : Ty} (ht : Invertible env G t) (hj : j.kind ∈ rejectKinds env t) : Refuses env skip t j := by
  induction ht with
  | @scalar t ht =>
    refine .inr (C10_kind_mismatch_partial env skip t ht j ?_ ?_) <;>
    · simp only [scalarTys, List.mem_cons, List.not_mem_nil, or_false] at ht
      rcases ht with rfl|rfl|rfl|rfl|rfl|rfl|rfl|rfl|rfl|rfl|rfl|rfl|rfl <;> revert hj <;>
        simp only [rejectKinds, documentedKinds] <;> cases j.kind <;> simp
  | list h _ | set h _ | tuple h _ | dictStr h _ | dictEnum _ _ h _ =>
    refine .inr (C15_wrong_kind env skip j _ (invertible_supported hk hG (by
      first | exact .list h | exact .set h | exact .tuple h | exact .dictStr h | exact .dictEnum ‹_› ‹_› h)) ?_)
    intro xs e; subst e; simp [rejectKinds, Json.kind] at hj
  | annotated _ ih => unfold Refuses; rw [loads_annotated]; exact ih (by simpa [rejectKinds] using hj)
  | @literal ls hs hl =>
    obtain ⟨ty, hne, hty⟩ := id hs
    cases ls with
    | nil => exact absurd rfl hne
    | cons l r =>
      have h0 := hty l (by simp)
      have hno : ∀ e m, Lit.enum e m ∉ l :: r := by
        intro e m hm
        have := hty _ hm
        rw [← h0] at this
        cases l <;> simp [Lit.ty, rejectKinds] at this hj
      refine .inr (C24_rejects env hk skip _ hs hno j ?_ ?_)
      · rintro i b hm rfl
        have := hty _ hm
        rw [← h0] at this
        cases l <;> simp [Lit.ty, rejectKinds, Json.kind] at this hj
      · rintro ⟨l', hl', h⟩
        have := hty _ hl'
        rw [← h0] at this
        cases l <;> cases l' <;> simp [Lit.ty] at this <;> simp only [LitIs] at h <;>
          first | (subst h; simp [rejectKinds, Json.kind] at hj) | simp [rejectKinds] at hj
  | enum _ => simp [rejectKinds] at hj
  | @cls c hc =>
    cases hG c hc with
    | standard cd hc hto hcu hkind hne hser hprops hsame hty habs =>
      refine .inr (loads_cls_not_obj hk skip (readable_standard hk hG hc hcu hkind hty) j ?_)
      intro kvs e; subst e; simp [rejectKinds, hc, hcu, Json.kind] at hj
    | hooks cd hc f g hto hfrom hcu => simp [rejectKinds, hc, hcu] at hj
  | @union ts hu hi _ ih =>
    rw [rejectKinds, mem_rejectKindsL] at hj
    exact .inl ((C21_error_iff env skip ts hu (fun t ht => invertible_supported hk hG (hi t ht)) j _).2
      (.inl ⟨rfl, fun u hu => ih u hu (hj u hu)⟩))
  | @tagged ts ht ha _ _ _ _ _ =>
    rw [rejectKinds, mem_rejectKindsL] at hj
    obtain ⟨table, h1, _⟩ := compile_tagged hk ht ((C23_ambiguous_iff env hk _ ht).2.2 ha)
    refine .inr ?_
    rw [loads_of_compile h1, parse_tagged]
    cases j <;> try rfl
    obtain ⟨p, hp, hp'⟩ := ht
    obtain ⟨t, ts, rfl⟩ := List.exists_cons_of_ne_nil hp
    obtain ⟨c, cd, _, rfl, hc, _⟩ := hp' t (by simp)
    have := hj (.cls c) (by simp)
    simp only [rejectKinds, hc, Json.kind] at this
    split at this <;> simp at this

theorem mapRes_first_error {f : α → Res β} {e : Err} {pre post : List α} {x : α} (hx : f x = .error e)
    (hpre : ∀ y ∈ pre, f y = .error e ∨ ∃ w, f y = .ok w) : mapRes f (pre ++ x :: post) = .error e := by
  induction pre with
  | nil => simp [mapRes, hx]
  | cons y pre ih =>
    have ih := ih fun z hz => hpre z (by simp [hz])
    rcases hpre y (by simp) with h | ⟨w, h⟩ <;> simp [mapRes, h, ih]

theorem dyn_str (env : Env) (s : Str) : objectToJson env (.str s) = .ok (.str s) := rfl

theorem loads_strLit {env : Env} (hk : env.Ok) (skip : Bool) {ls : List Lit} (hs : ∀ l ∈ ls, ∃ s, l = .str s) (hne : ls ≠ [])
    (s : Str) : Refuses env skip (.literal ls) (.str s) ∨ loads env skip (.literal ls) (.str s) = .ok (.str s) := by
  have hsame : SameType ls := ⟨.str, hne, fun l hl => by obtain ⟨s, rfl⟩ := hs l hl; rfl⟩
  have hen : ∀ e m, Lit.enum e m ∉ ls := fun e m hm => by obtain ⟨s, h⟩ := hs _ hm; cases h
  have hb : ∀ i b, Lit.int i ∈ ls → Json.str s ≠ .bool b := fun i b _ h => by cases h
  by_cases hm : Lit.str s ∈ ls
  · exact .inr ((C24_accepts_iff_partial env hk skip ls hsame (fun e m h => absurd h (hen e m)) _ hb _).2
      ⟨_, hm, rfl, rfl⟩)
  · refine .inl (.inr (C24_rejects env hk skip ls hsame hen _ hb ?_))
    rintro ⟨l, hl, h⟩
    obtain ⟨s', rfl⟩ := hs l hl
    simp only [LitIs, Json.str.injEq] at h
    subst h; exact hm hl

theorem Invertible.list_inv {env : Env} {G : Nat → Prop} {t : Ty} (h : Invertible env G (.list t)) : Invertible env G t := by
  cases h with
  | scalar h => simp [scalarTys] at h
  | list h => exact h

theorem Invertible.dict_inv {env : Env} {G : Nat → Prop} {k : KeyTy} {t : Ty} (h : Invertible env G (.dict k t)) :
    Invertible env G t := by
  cases h with
  | scalar h => simp [scalarTys] at h
  | dictStr h => exact h
  | dictEnum _ _ h => exact h

theorem Invertible.annotated_inv {env : Env} {G : Nat → Prop} {t : Ty} {ms : List Meta}
    (h : Invertible env G (.annotated t ms)) : Invertible env G t := by
  cases h with
  | scalar h => simp [scalarTys] at h
  | annotated h => exact h

theorem Invertible.literal_inv {env : Env} {G : Nat → Prop} {ls : List Lit} (h : Invertible env G (.literal ls)) :
    SameType ls := by
  cases h with
  | scalar h => simp [scalarTys] at h
  | literal h => exact h

/-- The pairs of a dictionary with distinct keys are written one by one. -/
theorem genPairs_ok {key : Key → Res Str} {t : Ty} :
    ∀ (fs : List (Key × (Ty → Res Json))) (ps acc : List (Str × Json)),
      All2 (fun f p => key f.1 = .ok p.1 ∧ f.2 t = .ok p.2) fs ps → (acc.map Prod.fst ++ ps.map Prod.fst).Nodup →
      genPairs key t acc fs = .ok (.obj (acc ++ ps)) := by
  intro fs
  induction fs with
  | nil => intro ps acc h _; cases h; simp [genPairs]
  | cons f fs ih =>
    intro ps acc h hn
    cases h with
    | @cons _ p _ ps h1 h2 =>
      obtain ⟨k, f⟩ := f
      obtain ⟨s, x⟩ := p
      simp only at h1
      simp only [genPairs, h1.1, h1.2]
      have hnot : s ∉ acc.map Prod.fst := by
        intro hm
        exact (List.nodup_append.1 hn).2.2 s hm s (by simp) rfl
      rw [upsert_of_not_mem hnot, ih ps _ h2 (by simpa using hn)]
      simp

theorem genPairs_inv {key : Key → Res Str} {t : Ty} :
    ∀ (fs : List (Key × (Ty → Res Json))) (acc : List (Str × Json)) (j : Json), genPairs key t acc fs = .ok j →
      ∃ ps : List (Str × Json), All2 (fun f p => key f.1 = .ok p.1 ∧ f.2 t = .ok p.2) fs ps := by
  intro fs
  induction fs with
  | nil => intro _ _ _; exact ⟨[], .nil⟩
  | cons f fs ih =>
    intro acc j h
    obtain ⟨k, f⟩ := f
    simp only [genPairs] at h
    split at h
    · cases h
    · rename_i s hs
      split at h
      · cases h
      · rename_i x hx
        obtain ⟨ps, hps⟩ := ih _ _ h
        exact ⟨(s, x) :: ps, .cons ⟨hs, hx⟩ hps⟩

/-- The JSON text of a dictionary key. -/
def KeyText (env : Env) : Key → Str → Prop
  | .str s, p => p = s
  | .int _, _ => False
  | .enum e m, p => ∃ ed name, env.enums[e]? = some ed ∧ ed.members[m]? = some (name, .str p)

/-- The type of keys for which dictionaries can be written and read. -/
def GoodKeyTy (env : Env) : KeyTy → Prop
  | .str => True
  | .enum e => ∃ ed, env.enums[e]? = some ed ∧ ed.strValued = true
  | .int | .other => False

theorem strValued_get {ed : EnumDef} (h : ed.strValued = true) {m : Nat} (hm : m < ed.members.length) :
    ∃ name s, ed.members[m]? = some (name, .str s) := by
  unfold EnumDef.strValued at h
  simp only [Bool.and_eq_true, List.all_eq_true] at h
  have hg := List.getElem?_eq_getElem hm
  have := h.2 _ (List.mem_of_getElem? hg)
  rw [hg]
  generalize ed.members[m] = p at this
  obtain ⟨n, x⟩ := p
  cases x <;> simp at this ⊢

theorem keyText_inj {env : Env} (hk : env.Ok) {k : KeyTy} {a b : Key} {s : Str} (ha : KeyHasTy env a k)
    (hb : KeyHasTy env b k) (h1 : KeyText env a s) (h2 : KeyText env b s) : a = b := by
  cases k with
  | int | other => cases a <;> simp [KeyHasTy] at ha
  | str =>
    cases a <;> simp [KeyHasTy] at ha
    cases b <;> simp [KeyHasTy] at hb
    simp only [KeyText] at h1 h2; rw [← h1, ← h2]
  | enum e =>
    cases a <;> simp [KeyHasTy] at ha
    cases b <;> simp [KeyHasTy] at hb
    rename_i e1 m1 e2 m2
    obtain ⟨rfl, _⟩ := ha
    obtain ⟨rfl, _⟩ := hb
    obtain ⟨ed, n1, he, hm1⟩ := h1
    obtain ⟨ed', n2, he', hm2⟩ := h2
    rw [he] at he'; cases he'
    have hok := hk.enums ed (List.mem_of_getElem? he)
    have hne : ∀ (i l : Nat) x y, i < l → ed.members[i]? = some (x, Scalar.str s) → ed.members[l]? = some (y, Scalar.str s) → False := by
      intro i l x y hil hi hl
      obtain ⟨hi1, hi2⟩ := List.getElem?_eq_some_iff.1 hi
      obtain ⟨hl1, hl2⟩ := List.getElem?_eq_some_iff.1 hl
      have := List.pairwise_iff_getElem.1 hok i l hi1 hl1 hil
      rw [hi2, hl2] at this
      simp only at this
      rw [str_pyEq.2 rfl] at this; cases this
    rcases Nat.lt_trichotomy m1 m2 with h | h | h
    · exact (hne _ _ _ _ h hm1 hm2).elim
    · rw [h]
    · exact (hne _ _ _ _ h hm2 hm1).elim

theorem untypedKey_text {env : Env} {k : KeyTy} (hg : GoodKeyTy env k) {kvs : List (Key × Val)}
    (hkeys : ∀ kv ∈ kvs, KeyHasTy env kv.1 k) {kv : Key × Val} (hkv : kv ∈ kvs) (s : Str) :
    untypedKey env (kvs.map fun kv => (kv.1, gen env kv.2)) kv.1 = .ok s ↔ KeyText env kv.1 s := by
  cases kvs with
  | nil => cases hkv
  | cons x r =>
    have hx := hkeys x (by simp)
    have hy := hkeys kv hkv
    obtain ⟨kx, vx⟩ := x
    obtain ⟨ky, vy⟩ := kv
    cases k with
    | int | other => exact hg.elim
    | str =>
      cases kx <;> simp [KeyHasTy] at hx
      cases ky <;> simp [KeyHasTy] at hy
      simp [untypedKey, keyStr, KeyText, eq_comm]
    | enum e =>
      obtain ⟨ed, he, hs⟩ := hg
      cases kx <;> simp [KeyHasTy] at hx
      cases ky <;> simp [KeyHasTy] at hy
      obtain ⟨rfl, ed', he', hm⟩ := hy
      rw [he] at he'; cases he'
      obtain ⟨name, s', hm'⟩ := strValued_get hs hm
      simp [untypedKey, keyValue, enumValue, KeyText, he, hm', Scalar.jsonKey, eq_comm]

theorem keyText_nodup {env : Env} (hk : env.Ok) {k : KeyTy} {S : Key × Val → Str × Json → Prop} :
    ∀ {kvs : List (Key × Val)} {ps : List (Str × Json)}, (kvs.map Prod.fst).Nodup → (∀ kv ∈ kvs, KeyHasTy env kv.1 k) →
      All2 (fun kv p => KeyText env kv.1 p.1 ∧ S kv p) kvs ps → (ps.map Prod.fst).Nodup := by
  intro kvs ps hn hkeys h
  induction h with
  | nil => simp
  | @cons kv p kvs ps h1 h2 ih =>
    simp only [List.map_cons, List.nodup_cons] at hn ⊢
    refine ⟨?_, ih hn.2 fun x hx => hkeys x (by simp [hx])⟩
    intro hm
    obtain ⟨q, hq, he⟩ := List.mem_map.1 hm
    obtain ⟨kv', hkv', h3, _⟩ := h2.mem_right hq
    rw [he] at h3
    refine hn.1 (List.mem_map.2 ⟨kv', hkv', ?_⟩)
    exact keyText_inj hk (hkeys _ (by simp [hkv'])) (hkeys _ (by simp)) h3 h1.1

/-- What is written for a dictionary with keys of a good type. -/
theorem dict_written {env : Env} (hk : env.Ok) {k : KeyTy} (hg : GoodKeyTy env k) {kvs : List (Key × Val)}
    (hn : (kvs.map Prod.fst).Nodup) (hkeys : ∀ kv ∈ kvs, KeyHasTy env kv.1 k) {j : Json} :
    objectToJson env (.dict kvs) = .ok j ↔
      ∃ ps, j = .obj ps ∧ All2 (fun kv p => KeyText env kv.1 p.1 ∧ objectToJson env kv.2 = .ok p.2) kvs ps := by
  rw [dyn_dict]
  have conv : ∀ ps : List (Str × Json), All2 (fun (f : Key × (Ty → Res Json)) (p : Str × Json) =>
      untypedKey env (kvs.map fun kv => (kv.1, gen env kv.2)) f.1 = .ok p.1 ∧ f.2 dynTy = .ok p.2)
        (kvs.map fun kv => (kv.1, gen env kv.2)) ps ↔
      All2 (fun kv p => KeyText env kv.1 p.1 ∧ objectToJson env kv.2 = .ok p.2) kvs ps := by
    intro ps
    rw [All2.map_left]
    constructor
    · intro h
      refine h.imp_mem fun kv hkv p _ h => ⟨(untypedKey_text hg hkeys hkv _).1 h.1, ?_⟩
      rw [← gen_dyn]; exact h.2
    · intro h
      refine h.imp_mem fun kv hkv p _ h => ⟨(untypedKey_text hg hkeys hkv _).2 h.1, ?_⟩
      rw [← gen_dyn] at h; exact h.2
  constructor
  · intro h
    obtain ⟨ps, hps⟩ := genPairs_inv _ _ _ h
    have hps' := (conv ps).1 hps
    rw [genPairs_ok _ ps [] hps (by simpa using keyText_nodup hk hn hkeys hps')] at h
    cases h
    exact ⟨ps, by simp, hps'⟩
  · rintro ⟨ps, rfl, hps⟩
    rw [genPairs_ok _ ps [] ((conv ps).2 hps) (by simpa using keyText_nodup hk hn hkeys hps)]
    simp

theorem loads_dict_error {env : Env} {skip : Bool} {t : Ty} (ht : Supported env t) {kvs : List (Str × Json)} {e : Err}
    (h : loads env skip (.dict .str t) (.obj kvs) = .error e) : ∃ kv ∈ kvs, loads env skip t kv.2 = .error e := by
  obtain ⟨d, hd⟩ := ht
  have hl : compile env (.dict .str t) = .ok (.dict .str d) := by simp [compile, checkKeyTy, hd]
  rw [loads_of_compile hl, parse_eq] at h
  simp only [parseD, parseDictK] at h
  simp only [kidsOf] at h
  split at h
  · cases h
  · rename_i e' he
    cases h
    obtain ⟨f, hf, h2⟩ := parsePairs_error he
    obtain ⟨kv, hkv, rfl⟩ := List.mem_map.1 hf
    exact ⟨kv, hkv, by rw [loads_of_compile hd]; exact h2⟩

theorem parseKey_text {env : Env} (hk : env.Ok) {k : KeyTy} {key : Key} {s : Str} (hkey : KeyHasTy env key k)
    (h : KeyText env key s) : parseKey env k s = .ok key := by
  cases k with
  | int | other => cases key <;> simp [KeyHasTy] at hkey
  | str =>
    cases key <;> simp [KeyHasTy] at hkey
    simp only [KeyText] at h; subst h; rfl
  | enum e =>
    cases key <;> simp [KeyHasTy] at hkey
    obtain ⟨rfl, _⟩ := hkey
    obtain ⟨ed, name, he, hm⟩ := h
    exact (parseKey_enum_iff he (hk.enums ed (List.mem_of_getElem? he)) s _).2 ⟨_, name, hm, rfl⟩

/-- A dictionary is read back if its values are. -/
theorem dict_read {env : Env} (hk : env.Ok) (skip : Bool) {k : KeyTy} {t : Ty} (hs : Supported env (.dict k t))
    {kvs : List (Key × Val)} (hkeys : ∀ kv ∈ kvs, KeyHasTy env kv.1 k) {ps : List (Str × Json)}
    (hn : (ps.map Prod.fst).Nodup)
    (h : All2 (fun kv p => KeyText env kv.1 p.1 ∧ loads env skip t p.2 = .ok kv.2) kvs ps) :
    loads env skip (.dict k t) (.obj ps) = .ok (.dict kvs) := by
  obtain ⟨d, hd, hl⟩ := supported_dict hs
  rw [loads_of_compile hl, parse_dict_obj _ _ _ _ _ hn]
  refine ⟨kvs, rfl, h.flip.imp_mem fun p _ kv hkv hh => ⟨parseKey_text hk (hkeys kv hkv) hh.1, ?_⟩⟩
  rw [← loads_of_compile hd]; exact hh.2

theorem mapRes_refuses {f : α → Res β} {pre post : List α} {x : α} (hx : f x = .error .jsonKey ∨ f x = .error .jsonType)
    (hpre : ∀ y ∈ pre, f y = .error .jsonKey ∨ f y = .error .jsonType ∨ ∃ w, f y = .ok w) :
    mapRes f (pre ++ x :: post) = .error .jsonKey ∨ mapRes f (pre ++ x :: post) = .error .jsonType := by
  induction pre with
  | nil => rcases hx with h | h <;> simp [mapRes, h]
  | cons y pre ih =>
    have ih := ih fun z hz => hpre z (by simp [hz])
    rcases hpre y (by simp) with h | h | ⟨w, h⟩
    · simp [mapRes, h]
    · simp [mapRes, h]
    · rcases ih with ih | ih <;> simp [mapRes, h, ih]

/-- A class refuses an object if one of its fields does, and the fields before it are read or refuse it as well. -/
theorem refuses_cls {env : Env} (hk : env.Ok) (skip : Bool) {c : Nat} {cd : ClassDef} (hr : Readable env c cd) {pre post : List FieldDef}
    {f : FieldDef} (hh : cd.hints = pre ++ f :: post) {ps : List (Str × Json)}
    (hf : readNamed env skip cd.kind ps f = .error .jsonKey ∨ readNamed env skip cd.kind ps f = .error .jsonType)
    (hpre : ∀ g ∈ pre, readNamed env skip cd.kind ps g = .error .jsonKey ∨ readNamed env skip cd.kind ps g = .error .jsonType ∨
      ∃ w, readNamed env skip cd.kind ps g = .ok w) : Refuses env skip (.cls c) (.obj ps) := by
  unfold Refuses
  rw [loads_cls_obj hk skip hr, hh]
  rcases mapRes_refuses (post := post) hf hpre with h | h <;> simp [h]

/-- Reading a field that was not written, or an optional text. -/
theorem readNamed_pre {env : Env} (hk : env.Ok) (skip : Bool) {kind kind' : ClassKind} {fds : List FieldDef} {fs : List (Str × Val)}
    {ps : List (Str × Json)} (hw : WritesFields env kind' fds fs ps) {g : FieldDef}
    (h : fieldProp kind g ∉ fds.map (writeProp kind') ∨ OptionalText kind g) :
    readNamed env skip kind ps g = .error .jsonKey ∨ readNamed env skip kind ps g = .error .jsonType ∨
      ∃ w, readNamed env skip kind ps g = .ok w := by
  rcases h with h | ⟨h1, h2⟩
  · simp only [readNamed, readField, lookupKey_none_iff'.2 fun hm => h (hw.props.subset hm)]
    cases absentValue kind g <;> simp
  · obtain ⟨v, hv⟩ := Option.isSome_iff_exists.1 h2
    simp only [readNamed, readField, hv, h1]
    cases lookupKey (fieldProp kind g) ps with
    | none => simp
    | some x =>
      cases x with
      | str s => exact .inr (.inr ⟨(g.name, .str s), rfl⟩)
      | null => simp
      | _ => exact .inr (.inl rfl)

/-- Soundness of `Apart`. -/
theorem apart_sound {env : Env} (hk : env.Ok) {G : Nat → Prop} (hG : ∀ c, G c → ClassInvertible env G c) (skip : Bool)
    {t u : Ty} (ha : Apart env t u) : ∀ (_ : Invertible env G t) (v : Val) (_ : HasTy env v u) (j : Json)
      (_ : objectToJson env v = .ok j), Refuses env skip t j ∨ loads env skip t j = .ok v := by
  induction ha with
  | kinds h => intro ht v hv j hj; exact .inl (refuses_kind hk hG skip j ht (h _ (written_kind hv hj)))
  | @list t u _ ih =>
    intro ht v hv j hj
    have ht' := ht.list_inv
    have hs := invertible_supported hk hG ht'
    cases hv with
    | @list vs _ hvs =>
      rw [dyn_list] at hj
      cases hm : mapRes (objectToJson env) vs with
      | error e => rw [hm] at hj; cases hj
      | ok js =>
        rw [hm] at hj; cases hj
        have h2 := (mapRes_ok_iff _ _ _).1 hm
        cases hl : loads env skip (.list t) (.arr js) with
        | error e =>
          obtain ⟨pre, x, post, rfl, hx, _⟩ := (C15_list_error env skip t hs js e).1 hl
          obtain ⟨w, hw, hwx⟩ := h2.mem_right (b := x) (by simp)
          left
          unfold Refuses
          rw [hl]
          rcases ih ht' w (hvs w hw) x hwx with (h | h) | h <;> rw [hx] at h <;> cases h <;> simp
        | ok v' =>
          right
          obtain ⟨xs, ws, he, rfl, h3⟩ := (C15_list env skip t hs _ _).1 hl
          cases he
          have h4 : All2 (fun x w => loads env skip t x = .ok w) js vs := by
            refine (h2.flip).imp_mem fun x hx w hw hwx => ?_
            obtain ⟨w', _, hw'⟩ := h3.mem_left hx
            rcases ih ht' w (hvs w hw) x hwx with (h | h) | h
            · rw [hw'] at h; cases h
            · rw [hw'] at h; cases h
            · exact h
          rw [All2.functional (fun a b c h h' => by rw [h] at h'; cases h'; rfl) h3 h4]
  | @dict t u _ ih =>
    intro ht v hv j hj
    have ht' := ht.dict_inv
    have hs := invertible_supported hk hG ht'
    cases hv with
    | @dict kvs _ _ hn hkeys hvs =>
      obtain ⟨ps, rfl, hps⟩ := (dict_written hk (k := .str) trivial hn hkeys).1 hj
      have hwf : (ps.map Prod.fst).Nodup := keyText_nodup hk hn hkeys hps
      cases hl : loads env skip (.dict .str t) (.obj ps) with
      | error e =>
        obtain ⟨p, hp, hx⟩ := loads_dict_error hs hl
        obtain ⟨kv, hkv, _, hw⟩ := hps.mem_right hp
        left
        unfold Refuses
        rw [hl]
        rcases ih ht' kv.2 (hvs kv hkv) p.2 hw with (h | h) | h <;> rw [hx] at h <;> cases h <;> simp
      | ok v' =>
        right
        rw [← hl]
        refine dict_read hk skip (invertible_supported hk hG ht) hkeys hwf (hps.imp_mem fun kv hkv p hp hh => ⟨hh.1, ?_⟩)
        obtain ⟨kvs', he, hall⟩ := dict_items_of_ok hl
        cases he
        obtain ⟨w, hw⟩ := hall p hp
        rcases ih ht' kv.2 (hvs kv hkv) p.2 hh.2 with (h | h) | h
        · rw [hw] at h; cases h
        · rw [hw] at h; cases h
        · exact h
  | annotatedL _ ih => intro ht v hv j hj; unfold Refuses; rw [loads_annotated]; exact ih ht.annotated_inv v hv j hj
  | annotatedR _ ih =>
    intro ht v hv j hj
    cases hv with
    | annotated hv => exact ih ht v hv j hj
  | @litStr ls h =>
    intro ht v hv j hj
    cases hv with
    | str => cases hj; exact loads_strLit hk skip h ht.literal_inv.choose_spec.1 _
  | @litLit ls ls' h h' =>
    intro ht v hv j hj
    cases hv with
    | literal hl he =>
      obtain ⟨s, rfl⟩ := h' _ hl
      subst he
      cases hj; exact loads_strLit hk skip h ht.literal_inv.choose_spec.1 _
  | @cls c d cd dd pre f post hr hd hto hkind hne hp hh hreq hf hdis =>
    intro _ v hv j hj
    left
    obtain ⟨fs, rfl, hn, _⟩ := hasTy_cls_inv hd hkind hne hv
    obtain ⟨_, ps, rfl, hw⟩ := (objectToJson_standard hk hd hto hkind hne hp hn).1 hj
    refine refuses_cls hk skip hr hh (.inl ?_) fun g hg => readNamed_pre hk skip (hw := hw) (hdis g hg)
    simp only [readNamed, readField, lookupKey_none_iff'.2 fun hm => hf (hw.props.subset hm)]
    rw [show absentValue cd.kind f = none from hreq]
  | @clsTag c d cd dd pre f post g ls ls' hr hd hto hkind hne hp hnn hh hg hgp hft hgt hne' hls hls' hdj hdis =>
    intro _ v hv j hj
    left
    obtain ⟨fs, rfl, hn, hfty⟩ := hasTy_cls_inv hd hkind hne hv
    obtain ⟨_, ps, rfl, hw⟩ := (objectToJson_standard hk hd hto hkind hne hp hn).1 hj
    refine refuses_cls hk skip hr hh (.inr ?_) fun g hg => readNamed_pre hk skip (hw := hw) (hdis g hg)
    obtain ⟨i, hi⟩ := List.getElem?_of_mem hg
    obtain ⟨w, hwi, _⟩ := attr_of_name hn hnn hi
    have hwt := hfty i g _ hi hwi
    rw [hgt] at hwt
    cases hwt with
    | @literal l _ _ hl hv =>
      obtain ⟨s, rfl⟩ := hls' _ hl
      simp only [Lit.toVal] at hv
      subst hv
      rcases hw.lookup hp hi hwi with ⟨h3, _⟩ | ⟨_, x, h4, h5⟩
      · cases h3
      · rw [hgt] at h4
        have hx : x = .str s := by
          cases ls' with
          | nil => cases hl
          | cons l0 r =>
            obtain ⟨s0, rfl⟩ := hls' l0 (by simp)
            cases h4; rfl
        subst hx
        rw [hgp] at h5
        simp only [readNamed, readField, h5, hft]
        rcases loads_strLit hk skip hls hne' s with h | h
        · rcases h with h | h
          · exfalso
            have hsame : SameType ls := ⟨.str, hne', fun l hl => by obtain ⟨s, rfl⟩ := hls l hl; rfl⟩
            have hen : ∀ e m, Lit.enum e m ∉ ls := fun e m hm => by obtain ⟨s, h⟩ := hls _ hm; cases h
            rw [C24_rejects env hk skip ls hsame hen _ (fun i b _ h => by cases h) ?_] at h
            · cases h
            · rintro ⟨l, hl', h'⟩
              obtain ⟨s', rfl⟩ := hls l hl'
              simp only [LitIs, Json.str.injEq] at h'
              subst h'; exact hdj _ hl hl'
          · rw [h]
        · exfalso
          have hsame : SameType ls := ⟨.str, hne', fun l hl => by obtain ⟨s, rfl⟩ := hls l hl; rfl⟩
          have hen : ∀ e m, Lit.enum e m ∉ ls := fun e m hm => by obtain ⟨s, h⟩ := hls _ hm; cases h
          rw [C24_rejects env hk skip ls hsame hen _ (fun i b _ h => by cases h) ?_] at h
          · cases h
          · rintro ⟨l, hl', h'⟩
            obtain ⟨s', rfl⟩ := hls l hl'
            simp only [LitIs, Json.str.injEq] at h'
            subst h'; exact hdj _ hl hl'

end Verif
