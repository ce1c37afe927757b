import Verif.Spec.Relax
import Verif.Lemmas.Evolve
/-!
# Reading with wider types
-/
namespace Verif

variable {env env' : Env}

/-! ### Types that are supported -/

theorem scalar_supported {t : Ty} (h : t ∈ scalarTys) : Supported env t := by
  simp only [scalarTys, List.mem_cons, List.not_mem_nil, or_false] at h
  rcases h with rfl | rfl | rfl | rfl | rfl | rfl | rfl | rfl | rfl | rfl | rfl | rfl | rfl <;> exact ⟨_, rfl⟩

theorem literal_supported {ls : List Lit} (hs : SameType ls) (hl : ∀ e m, Lit.enum e m ∉ ls) : Supported env (.literal ls) := by
  obtain ⟨_, _, d, _, _, h⟩ := compile_literal (env := env) hs (fun e m hm => absurd hm (hl e m))
  exact ⟨_, h⟩

theorem tuple_supported {ts : List Ty} (h : ∀ t ∈ ts, Supported env t) : Supported env (.tuple ts) := by
  obtain ⟨ds, hds⟩ := supportedL h
  exact ⟨.tuple ds, by simp only [compile, hds]⟩

theorem list_supported {t : Ty} (h : Supported env t) : Supported env (.list t) := by
  obtain ⟨d, hd⟩ := h; exact ⟨.list d, by simp only [compile, hd]⟩

theorem set_supported {t : Ty} (h : Supported env t) : Supported env (.set t) := by
  obtain ⟨d, hd⟩ := h; exact ⟨.set d, by simp only [compile, hd]⟩

theorem annotated_supported {t : Ty} {ms : List Meta} (h : Supported env t) : Supported env (.annotated t ms) := by
  obtain ⟨d, hd⟩ := h; exact ⟨d, by simp only [compile, hd]⟩

theorem union_supported {ts : List Ty} (hu : Untagged env ts) (h : ∀ t ∈ ts, Supported env t) : Supported env (.union ts) := by
  obtain ⟨ds, h, _⟩ := compile_untagged hu h; exact ⟨_, h⟩

theorem SameType.subset {ls ls' : List Lit} (h : SameType ls') (hne : ls ≠ []) (hs : ∀ l ∈ ls, l ∈ ls') : SameType ls := by
  obtain ⟨t, _, ht⟩ := h
  exact ⟨t, hne, fun l hl => ht l (hs l hl)⟩

theorem Rootless.untagged {ts : List Ty} (h : ∀ t ∈ ts, Rootless t) : Untagged env ts := by
  rintro ⟨p, hne, hp⟩
  obtain ⟨t, ht⟩ := List.exists_mem_of_ne_nil ts hne
  obtain ⟨c, _, _, rfl, _⟩ := mem_literalProps.1 (hp t ht).2
  cases h _ ht with
  | scalar hm => simp [scalarTys] at hm

theorem Rootless.supported {t : Ty} (h : Rootless t) : Supported env t := by
  induction h with
  | scalar h => exact scalar_supported h
  | literal h1 h2 => exact literal_supported h1 h2
  | annotated _ ih => exact annotated_supported ih
  | list _ ih => exact list_supported ih
  | union h ih => exact union_supported (Rootless.untagged h) ih

/-- Types that do not refer to the program are read the same by all programs. -/
theorem Rootless.eq (s s' : Bool) {t : Ty} (h : Rootless t) : ∀ j, loads env s t j = loads env' s' t j := by
  induction h with
  | scalar h =>
    intro j
    simp only [scalarTys, List.mem_cons, List.not_mem_nil, or_false] at h
    rcases h with rfl | rfl | rfl | rfl | rfl | rfl | rfl | rfl | rfl | rfl | rfl | rfl | rfl <;>
      simp only [loads, compile, parse_eq, parseD]
  | @literal ls h1 h2 =>
    intro j
    cases ls with
    | nil => rfl
    | cons l r =>
      obtain ⟨d, hd, hd', hp⟩ : ∃ d, litDeser env l = .ok d ∧ litDeser env' l = .ok d ∧
          parse env (fullHeap env s) j d = parse env' (fullHeap env' s') j d := by
        cases l with
        | enum e m => exact absurd (List.mem_cons_self ..) (h2 e m)
        | _ => exact ⟨_, rfl, rfl, by simp only [parse_eq, parseD]⟩
      have hall : compileLit env (l :: r) = compileLit env' (l :: r) := by simp only [compileLit, hd, hd']
      unfold loads
      simp only [compile]
      rw [hall]
      cases hc : compileLit env' (l :: r) with
      | error e => rfl
      | ok d2 =>
        simp only [compileLit, hd'] at hc
        split at hc
        · cases hc; simp only; rw [parse_literal, parse_literal, hp]
        · cases hc
  | annotated _ ih => intro j; rw [loads_annotated_eq, loads_annotated_eq]; exact ih j
  | @list t ht ih =>
    intro j
    by_cases hj : ∃ xs, j = .arr xs
    · obtain ⟨xs, rfl⟩ := hj
      rw [loads_list_eq ht.supported, loads_list_eq ht.supported, mapRes_congr (fun x _ => ih x)]
    · rw [loads_list_not_arr ht.supported (fun xs h => hj ⟨xs, h⟩),
        loads_list_not_arr ht.supported (fun xs h => hj ⟨xs, h⟩)]
  | @union ts h ih =>
    intro j
    have hu := Rootless.untagged (env := env) h
    have hs := fun t ht => (h t ht).supported (env := env)
    have hu' := Rootless.untagged (env := env') h
    have hs' := fun t ht => (h t ht).supported (env := env')
    cases hl : loads env' s' (.union ts) j with
    | ok v =>
      rw [C21_ok_iff env' s' ts hu' hs'] at hl
      rw [C21_ok_iff env s ts hu hs]
      obtain ⟨pre, t, post, rfl, h1, h2⟩ := hl
      refine ⟨pre, t, post, rfl, by rw [ih t (by simp)]; exact h1, ?_⟩
      intro u hum
      rw [ih u (by simp [hum])]
      exact h2 u hum
    | error e =>
      rw [C21_error_iff env' s' ts hu' hs'] at hl
      rw [C21_error_iff env s ts hu hs]
      rcases hl with ⟨h1, h2⟩ | ⟨pre, t, post, rfl, h0, h0', h1, h2⟩
      · exact .inl ⟨h1, fun u hum => by rw [ih u hum]; exact h2 u hum⟩
      · refine .inr ⟨pre, t, post, rfl, h0, h0', by rw [ih t (by simp)]; exact h1, ?_⟩
        intro u hum
        rw [ih u (by simp [hum])]
        exact h2 u hum

theorem Relaxation.cls (h : Relaxation env env') {c : Nat} {cd : ClassDef} (hc : env.classes[c]? = some cd) :
    ∃ cd', env'.classes[c]? = some cd' ∧ ClassRelaxes env env' cd cd' := h.classes.get c cd hc

theorem Relaxation.kind_eq (h : Relaxation env env') (c : Nat) : env.kind c = env'.kind c := by
  unfold Env.kind
  cases hc : env.classes[c]? with
  | some cd =>
    obtain ⟨cd', h1, h2⟩ := h.cls hc
    simp [h1, h2.kind]
  | none =>
    have : env'.classes[c]? = none := by
      rw [List.getElem?_eq_none_iff] at hc ⊢
      rw [← h.classes.length]; exact hc
    simp [this]

/-- Both types are supported. -/
theorem Relaxed.supported (h : Relaxation env env') {t u : Ty} (ht : Relaxed env env' t u) : Supported env t ∧ Supported env' u := by
  induction ht with
  | scalar h1 => exact ⟨scalar_supported h1, scalar_supported h1⟩
  | literal h1 h2 h3 h4 => exact ⟨literal_supported (h1.subset h3 h4) fun e m hm => h2 e m (h4 _ hm), literal_supported h1 h2⟩
  | @unlisted ls t h1 h2 h3 =>
    refine ⟨literal_supported ⟨t, h1, h2⟩ fun e m hm => ?_, scalar_supported h3⟩
    rw [← h2 _ hm] at h3
    simp [Lit.ty, scalarTys] at h3
  | @enum e ed ed' h1 h2 _ => exact ⟨⟨.ref ed.key, by simp [compile, tyKey, h1]⟩, ⟨.ref ed'.key, by simp [compile, tyKey, h2]⟩⟩
  | annotatedL _ ih => exact ⟨annotated_supported ih.1, ih.2⟩
  | annotatedR _ ih => exact ⟨ih.1, annotated_supported ih.2⟩
  | list _ ih => exact ⟨list_supported ih.1, list_supported ih.2⟩
  | set _ ih => exact ⟨set_supported ih.1, set_supported ih.2⟩
  | @tuple ts us hl _ ih =>
    constructor
    · refine tuple_supported fun t ht => ?_
      obtain ⟨i, hi⟩ := List.getElem?_of_mem ht
      have hlt := (List.getElem?_eq_some_iff.1 hi).1
      exact (ih i t us[i] hi (List.getElem?_eq_getElem (by omega))).1
    · refine tuple_supported fun u hu => ?_
      obtain ⟨i, hi⟩ := List.getElem?_of_mem hu
      have hlt := (List.getElem?_eq_some_iff.1 hi).1
      exact (ih i ts[i] u (List.getElem?_eq_getElem (by omega)) hi).2
  | dictStr _ ih =>
    obtain ⟨⟨d, hd⟩, ⟨d', hd'⟩⟩ := ih
    exact ⟨⟨.dict .str d, by simp [compile, checkKeyTy, hd]⟩, ⟨.dict .str d', by simp [compile, checkKeyTy, hd']⟩⟩
  | @dictEnum e ed ed' t u h1 h2 _ h3 h4 _ ih =>
    obtain ⟨⟨d, hd⟩, ⟨d', hd'⟩⟩ := ih
    exact ⟨⟨.dict (.enum e) d, by simp [compile, checkKeyTy, h1, h3, hd]⟩, ⟨.dict (.enum e) d', by simp [compile, checkKeyTy, h2, h4, hd']⟩⟩
  | cls hc =>
    obtain ⟨cd', h1, _⟩ := h.cls hc
    exact ⟨⟨_, compile_cls hc⟩, ⟨_, compile_cls h1⟩⟩
  | member hu hs _ _ _ ih => exact ⟨ih.1, union_supported hu hs⟩
  | @union ts u hu hne _ ih =>
    obtain ⟨t, ht⟩ := List.exists_mem_of_ne_nil ts hne
    exact ⟨union_supported hu fun t ht => (ih t ht).1, (ih t ht).2⟩
  | append h1 h2 h3 =>
    exact ⟨union_supported (Rootless.untagged h1) fun t ht => (h1 t ht).supported,
      union_supported h2 fun t ht => (List.mem_append.1 ht).elim (fun ht => (h1 t ht).supported) (h3 t)⟩
  | tagged h1 h2 h3 _ h5 _ =>
    obtain ⟨p, hp⟩ := h1
    exact ⟨(C23_ambiguous_iff env h.ok _ ⟨p, hp⟩).2.2 h2, (C23_ambiguous_iff env' h.ok' _ ⟨p, h5 p hp⟩).2.2 h3⟩

/-! ### Refusals -/

theorem Told.refuses (hk : env.Ok) (skip : Bool) (j : Json) {t : Ty} (ht : Told env t) (hj : j.kind ∈ rejectKinds env t) :
    Refuses env skip t j := by
  induction ht with
  | @scalar t ht =>
    refine .inr (C10_kind_mismatch_partial env skip t ht j ?_ ?_) <;>
    · simp only [scalarTys, List.mem_cons, List.not_mem_nil, or_false] at ht
      rcases ht with rfl|rfl|rfl|rfl|rfl|rfl|rfl|rfl|rfl|rfl|rfl|rfl|rfl <;> revert hj <;>
        simp only [rejectKinds, documentedKinds] <;> cases j.kind <;> simp
  | list h | set h | tuple h | dict h =>
    refine .inr (C15_wrong_kind env skip j _ (by
      first | exact list_supported h | exact set_supported h | exact tuple_supported h | exact h) ?_)
    intro xs e; subst e; simp [rejectKinds, Json.kind] at hj
  | annotated _ ih => unfold Refuses; rw [loads_annotated]; exact ih (by simpa [rejectKinds] using hj)
  | @literal ls hs hno =>
    obtain ⟨ty, hne, hty⟩ := id hs
    cases ls with
    | nil => exact absurd rfl hne
    | cons l r =>
      have h0 := hty l (by simp)
      refine .inr (C24_rejects env hk skip _ hs hno j ?_ ?_)
      · rintro i b hm rfl
        have := hty _ hm
        rw [← h0] at this
        cases l <;> simp [Lit.ty, rejectKinds, Json.kind] at this hj
      · rintro ⟨l', hl', h⟩
        have := hty _ hl'
        rw [← h0] at this
        cases l <;> cases l' <;> simp [Lit.ty] at this <;> simp only [LitIs] at h <;>
          first | (subst h; simp [rejectKinds, Json.kind] at hj) | simp [rejectKinds] at hj
  | @cls c cd hr =>
    refine .inr (loads_cls_not_obj hk skip hr j ?_)
    intro kvs e; subst e; simp [rejectKinds, hr.cls, hr.standard, Json.kind] at hj

theorem Aside.refuses (hk : env.Ok) (hk' : env'.Ok) {t p : Ty} (h : Aside env env' t p) {s s' : Bool} {j : Json} {v : Val}
    (hv : loads env s t j = .ok v) : Refuses env' s' p j := by
  obtain ⟨h1, h2, h3⟩ := h
  rcases h3 j.kind with h4 | h4
  · rcases h1.refuses hk s j h4 with h5 | h5 <;> (rw [hv] at h5; cases h5)
  · exact h2.refuses hk' s' j h4

/-! ### Literals, enumerations and sets -/

theorem loads_of_literal {ls : List Lit} {t : Ty} (hne : ls ≠ []) (hl : ∀ l ∈ ls, l.ty = t) (ht : t ∈ scalarTys) {s : Bool}
    {j : Json} {v : Val} : loads env s (.literal ls) j = .ok v ↔ loads env s t j = .ok v ∧ litMem ls v = true := by
  have hno : ∀ e m, Lit.enum e m ∉ ls := fun e m hm => by
    rw [← hl _ hm] at ht
    simp [Lit.ty, scalarTys] at ht
  obtain ⟨l, r, d, rfl, h1, h2⟩ := compile_literal (env := env) ⟨t, hne, hl⟩ (fun e m hm => absurd hm (hno e m))
  rw [hl l (by simp)] at h1
  rw [loads_of_compile h2, loads_of_compile h1, parse_literal]
  cases parse env (fullHeap env s) j d with
  | error e => simp
  | ok w =>
    simp only [Except.ok.injEq]
    constructor
    · intro h
      split at h
      · cases h; exact ⟨rfl, ‹_›⟩
      · cases h
    · rintro ⟨rfl, h⟩
      rw [if_pos h]

theorem litMem_subset {ls ls' : List Lit} (h : ∀ l ∈ ls, l ∈ ls') {v : Val} (hv : litMem ls v = true) : litMem ls' v = true := by
  obtain ⟨l, h1, h2⟩ := List.any_eq_true.1 hv
  exact List.any_eq_true.2 ⟨l, h l h1, h2⟩

theorem enumLookup_prefix {e : Nat} {ed ed' : EnumDef} (h1 : env.enums[e]? = some ed) (h2 : env'.enums[e]? = some ed')
    (hp : ed.members <+: ed'.members) {j : Json} {v : Val} (h : enumLookup env e j = .ok v) : enumLookup env' e j = .ok v := by
  unfold enumLookup at h ⊢
  rw [h1] at h
  rw [h2]
  simp only at h ⊢
  split at h
  · cases h
  · rename_i s hs
    split at h
    · rename_i i hi
      cases h
      obtain ⟨more, hm⟩ := hp
      rw [← hm, List.findIdx?_append, hi]
      rfl
    · split at h <;> cases h

theorem setItems_relaxed (hkind : ∀ c, env.kind c = env'.kind c) {s s' : Bool} {t u : Ty} : ∀ {xs : List Json} {acc vs : List Val},
    (∀ x ∈ xs, ∀ v, loads env s t x = .ok v → loads env' s' u x = .ok v) →
    parseSetItems env .none acc (xs.map fun x _ => loads env s t x) = .ok vs →
    parseSetItems env' .none acc (xs.map fun x _ => loads env' s' u x) = .ok vs
  | [], _, _, _, h => h
  | x :: xs, acc, vs, hx, h => by
    have hadd : ∀ v, setAdd env acc v = setAdd env' acc v := by
      intro v
      simp only [setAdd, hashable_kind hkind, valEq_kind hkind]
    simp only [List.map_cons, parseSetItems] at h ⊢
    split at h
    · cases h
    · rename_i v hv
      rw [hx x (by simp) v hv]
      simp only
      rw [← hadd]
      split at h
      · cases h
      · exact setItems_relaxed hkind (fun x hxm => hx x (by simp [hxm])) h

/-! ### Reading -/

theorem ClassRelaxes.hints {cd cd' : ClassDef} (h : ClassRelaxes env env' cd cd') : cd.hints = cd.fields ∧ cd'.hints = cd'.fields :=
  ⟨hints_eq_fields h.typed, hints_eq_fields (by rw [h.kind]; exact h.typed)⟩

theorem Relaxation.readable (h : Relaxation env env') {c : Nat} {cd : ClassDef} (hc : env.classes[c]? = some cd) :
    ∃ cd', ClassRelaxes env env' cd cd' ∧ Readable env c cd ∧ Readable env' c cd' := by
  obtain ⟨cd', hc', hr⟩ := h.cls hc
  refine ⟨cd', hr, ?_, ?_⟩
  · refine ⟨hc, hr.old, fun hk => absurd hk hr.typed, ?_⟩
    rw [hr.hints.1]
    intro f hf
    obtain ⟨f', _, h2⟩ := hr.fields.mem_left hf
    exact (h2.ty.supported h).1
  · refine ⟨hc', hr.new, fun hk => absurd (hr.kind ▸ hk) hr.typed, ?_⟩
    rw [hr.hints.2, hr.kind]
    intro f' hf'
    obtain ⟨f, _, h2⟩ := hr.fields.mem_right hf'
    exact (h2.ty.supported h).2

theorem FieldRelaxes.read {kind : ClassKind} {f f' : FieldDef} (h : FieldRelaxes env env' kind f f') {s : Bool} {n : Nat}
    (ih : ∀ {j : Json}, sizeOf j < n → j.Wf → ∀ v, loads env s (fieldTy kind f) j = .ok v → loads env' s (fieldTy kind f') j = .ok v)
    {kvs : List (Str × Json)} (hn : sizeOf (Json.obj kvs) < n + 1) (hw : (Json.obj kvs).Wf) {v : Val}
    (hv : readField env s kind f kvs = .ok v) : readField env' s kind f' kvs = .ok v := by
  cases hw with
  | obj hnd hw =>
    unfold readField at hv ⊢
    rw [h.prop]
    cases hl : lookupKey (fieldProp kind f) kvs with
    | none =>
      rw [hl] at hv
      simp only at hv ⊢
      split at hv
      · rename_i v' hv'
        rw [h.absent _ hv']; exact hv
      · cases hv
    | some x =>
      rw [hl] at hv
      have hm := lookupKey_some_mem hl
      by_cases hx : x = .null
      · subst hx
        simp only at hv ⊢
        split at hv
        · rename_i v' hv'
          rw [h.absent _ hv']; exact hv
        · cases hv
      · have hsz : sizeOf x < n := by
          have := sizeOf_value hm hn
          simp only at this
          omega
        have := ih hsz (hw _ hm) v (by cases x <;> first | exact hv | exact absurd rfl hx)
        cases x <;> first | exact this | exact absurd rfl hx

theorem fields_relaxed {kind : ClassKind} {s : Bool} {n : Nat}
    (ih : ∀ {t u}, Relaxed env env' t u → ∀ {j : Json}, sizeOf j < n → j.Wf → ∀ v, loads env s t j = .ok v →
      loads env' s u j = .ok v)
    {kvs : List (Str × Json)} (hn : sizeOf (Json.obj kvs) < n + 1) (hw : (Json.obj kvs).Wf) {fds fds' : List FieldDef}
    (h : All2 (FieldRelaxes env env' kind) fds fds') : ∀ {vs : List (Str × Val)},
    All2 (fun f w => w.1 = f.name ∧ readField env s kind f kvs = .ok w.2) fds vs →
    All2 (fun f w => w.1 = f.name ∧ readField env' s kind f kvs = .ok w.2) fds' vs := by
  induction h with
  | nil => intro vs hv; cases hv; exact .nil
  | cons h1 _ iht =>
    intro vs hv
    cases hv with
    | cons hv1 hv2 =>
      exact .cons ⟨by rw [h1.name]; exact hv1.1, h1.read (ih h1.ty) hn hw hv1.2⟩ (iht hv2)

theorem cls_relaxed (h : Relaxation env env') {s : Bool} {n : Nat}
    (ih : ∀ {t u}, Relaxed env env' t u → ∀ {j : Json}, sizeOf j < n → j.Wf → ∀ v, loads env s t j = .ok v →
      loads env' s u j = .ok v) {c : Nat} {cd : ClassDef} (hc : env.classes[c]? = some cd) {j : Json} (hn : sizeOf j < n + 1)
    (hw : j.Wf) (v : Val) (hv : loads env s (.cls c) j = .ok v) : loads env' s (.cls c) j = .ok v := by
  obtain ⟨cd', hr, h1, h2⟩ := h.readable hc
  obtain ⟨kvs, vs, rfl, rfl, hall, hknown⟩ := (loads_cls_ok_iff h.ok s h1 j v).1 hv
  refine (loads_cls_ok_iff h.ok' s h2 _ _).2 ⟨kvs, vs, rfl, rfl, ?_, hknown.imp id ?_⟩
  · rw [hr.hints.2, hr.kind]
    rw [hr.hints.1] at hall
    exact fields_relaxed ih hn hw hr.fields hall
  · intro hk kv hkv
    obtain ⟨f, hf, hp⟩ := hk kv hkv
    rw [hr.hints.1] at hf
    obtain ⟨f', hf', h3⟩ := hr.fields.mem_left hf
    exact ⟨f', by rw [hr.hints.2]; exact hf', by rw [hr.kind, h3.prop]; exact hp⟩

theorem tuple_relaxed {s : Bool} : ∀ {ts us : List Ty} {xs : List Json} {vs : List Val}, ts.length = us.length →
    (∀ x ∈ xs, ∀ (i : Nat) t u, ts[i]? = some t → us[i]? = some u → ∀ v, loads env s t x = .ok v → loads env' s u x = .ok v) →
    (∀ (i : Nat) x t w, xs[i]? = some x → ts[i]? = some t → vs[i]? = some w → loads env s t x = .ok w) →
    ∀ (i : Nat) x u w, xs[i]? = some x → us[i]? = some u → vs[i]? = some w → loads env' s u x = .ok w := by
  intro ts us xs vs hl h1 h2 i x u w hx hu hw
  have hlt := (List.getElem?_eq_some_iff.1 hu).1
  have ht : ts[i]? = some ts[i] := List.getElem?_eq_getElem (by omega)
  exact h1 x (List.mem_of_getElem? hx) i _ u ht hu w (h2 i x _ w hx ht hw)

/-- What the earlier program reads, the later one reads as the same value. -/
theorem relaxed_read (h : Relaxation env env') (s : Bool) : ∀ n {t u}, Relaxed env env' t u → ∀ {j : Json}, sizeOf j < n → j.Wf →
    ∀ v, loads env s t j = .ok v → loads env' s u j = .ok v := by
  intro n
  induction n with
  | zero => intro t u _ j hn; omega
  | succ n ihn =>
  intro t u ht
  induction ht with
  | scalar h1 => intro j _ _ v hv; rw [← (Rootless.scalar h1).eq (env := env) s s]; exact hv
  | @literal ls ls' h1 h2 h3 h4 =>
    intro j _ _ v hv
    obtain ⟨t, hne, hty⟩ := id h1
    have hsc : t ∈ scalarTys := by
      obtain ⟨l, hl⟩ := List.exists_mem_of_ne_nil ls' hne
      rw [← hty l hl]
      cases l with
      | enum e m => exact absurd hl (h2 e m)
      | _ => simp [Lit.ty, scalarTys]
    rw [loads_of_literal h3 (fun l hl => hty l (h4 l hl)) hsc] at hv
    rw [loads_of_literal hne hty hsc]
    exact ⟨by rw [← (Rootless.scalar hsc).eq (env := env) s s]; exact hv.1, litMem_subset h4 hv.2⟩
  | unlisted h1 h2 h3 =>
    intro j _ _ v hv
    rw [loads_of_literal h1 h2 h3] at hv
    rw [← (Rootless.scalar h3).eq (env := env) s s]
    exact hv.1
  | enum h1 h2 h3 =>
    intro j _ _ v hv
    rw [loads_enum h.ok s h1] at hv
    rw [loads_enum h.ok' s h2]
    exact enumLookup_prefix h1 h2 h3 hv
  | annotatedL _ ih => intro j hn hw v hv; exact ih hn hw v hv
  | annotatedR _ ih => intro j hn hw v hv; exact ih hn hw v hv
  | @list t u ht ih =>
    intro j hn hw v hv
    obtain ⟨hs, hs'⟩ := ht.supported h
    obtain ⟨xs, vs, rfl, rfl, hall⟩ := (C15_list env s t hs j v).1 hv
    cases hw with
    | arr hw =>
      refine (C15_list env' s u hs' _ _).2 ⟨xs, vs, rfl, rfl, ?_⟩
      exact hall.imp_mem fun x hx w _ hxw => ih (by have := List.sizeOf_lt_of_mem hx; simp at hn; omega) (hw x hx) w hxw
  | @set t u ht ih =>
    intro j hn hw v hv
    obtain ⟨hs, hs'⟩ := ht.supported h
    rw [loads_set_eq hs] at hv
    rw [loads_set_eq hs']
    cases j with
    | arr xs =>
      cases hw with
      | arr hw =>
        simp only at hv ⊢
        split at hv
        · rename_i vs hvs
          rw [setItems_relaxed h.kind_eq
            (fun x hx => ih (by have := List.sizeOf_lt_of_mem hx; simp at hn; omega) (hw x hx)) hvs]
          exact hv
        · cases hv
    | _ => cases hv
  | @tuple ts us hl ht ih =>
    intro j hn hw v hv
    have hs : ∀ t ∈ ts, Supported env t := fun t htm => by
      obtain ⟨i, hi⟩ := List.getElem?_of_mem htm
      have hlt := (List.getElem?_eq_some_iff.1 hi).1
      exact ((ht i t us[i] hi (List.getElem?_eq_getElem (by omega))).supported h).1
    have hs' : ∀ u ∈ us, Supported env' u := fun u hum => by
      obtain ⟨i, hi⟩ := List.getElem?_of_mem hum
      have hlt := (List.getElem?_eq_some_iff.1 hi).1
      exact ((ht i ts[i] u (List.getElem?_eq_getElem (by omega)) hi).supported h).2
    obtain ⟨xs, vs, rfl, rfl, h1, h2, h3⟩ := (C15_tuple env s ts hs j v).1 hv
    cases hw with
    | arr hw =>
      refine (C15_tuple env' s us hs' _ _).2 ⟨xs, vs, rfl, rfl, h1.trans hl, h2.trans hl, ?_⟩
      exact tuple_relaxed hl (fun x hx i t u hti hui => ih i t u hti hui (by have := List.sizeOf_lt_of_mem hx; simp at hn; omega) (hw x hx)) h3
  | @dictStr t u ht ih =>
    intro j hn hw v hv
    obtain ⟨hs, hs'⟩ := ht.supported h
    obtain ⟨kvs, out, rfl, rfl, hall⟩ := (C15_dict_str env s t hs j hw v).1 hv
    have hw' := hw
    cases hw' with
    | obj hnd hw' =>
      refine (C15_dict_str env' s u hs' _ hw _).2 ⟨kvs, out, rfl, rfl, ?_⟩
      exact hall.imp_mem fun x hx w _ hxw => ⟨hxw.1, ih (by have := sizeOf_value hx hn; omega) (hw' x hx) _ hxw.2⟩
  | @dictEnum e ed ed' t u h1 h2 hp h3 h4 ht ih =>
    intro j hn hw v hv
    obtain ⟨hs, hs'⟩ := (Relaxed.dictEnum h1 h2 hp h3 h4 ht).supported h
    obtain ⟨kvs, out, rfl, rfl, hall⟩ := (C15_dict_enum env s e ed h1 (h.ok.enums ed (List.mem_of_getElem? h1)) t hs j hw v).1 hv
    have hw' := hw
    cases hw' with
    | obj hnd hw' =>
      refine (C15_dict_enum env' s e ed' h2 (h.ok'.enums ed' (List.mem_of_getElem? h2)) u hs' _ hw _).2 ⟨kvs, out, rfl, rfl, ?_⟩
      refine hall.imp_mem fun x hx w _ hxw => ⟨?_, ih (by have := sizeOf_value hx hn; omega) (hw' x hx) _ hxw.2⟩
      obtain ⟨m, name, h5, h6⟩ := hxw.1
      refine ⟨m, name, ?_, h6⟩
      obtain ⟨more, hm⟩ := hp
      rw [← hm, List.getElem?_append_left (List.getElem?_eq_some_iff.1 h5).1]
      exact h5
  | cls hc => intro j hn hw v hv; exact cls_relaxed h ihn hc hn hw v hv
  | @member t u us i hu hs hi _ hcl ih =>
    intro j hn hw v hv
    refine (C21_ok_iff env' s us hu hs j v).2 ⟨us.take i, u, us.drop (i + 1), ?_, ih hn hw v hv, ?_⟩
    · have hlt := (List.getElem?_eq_some_iff.1 hi).1
      rw [List.getElem?_eq_getElem hlt] at hi
      cases hi
      simp
    · intro p hp
      obtain ⟨k, hk⟩ := List.getElem?_of_mem hp
      rw [List.getElem?_take] at hk
      split at hk
      · exact (hcl k p ‹_› hk).refuses h.ok h.ok' hv
      · cases hk
  | @union ts u hu _ ht ih =>
    intro j hn hw v hv
    obtain ⟨pre, t, post, rfl, h1, _⟩ := (C21_ok_iff env s ts hu (fun t htm => ((ht t htm).supported h).1) j v).1 hv
    exact ih t (by simp) hn hw v h1
  | @append ts more h1 h2 h3 =>
    intro j hn hw v hv
    obtain ⟨pre, t, post, rfl, h4, h5⟩ := (C21_ok_iff env s ts (Rootless.untagged h1) (fun t ht => (h1 t ht).supported) j v).1 hv
    refine (C21_ok_iff env' s _ h2 (fun t ht => (List.mem_append.1 ht).elim (fun ht => (h1 t ht).supported) (h3 t)) j v).2
      ⟨pre, t, post ++ more, by simp, ?_, fun p hp => ?_⟩
    · rw [← (h1 t (by simp)).eq (env := env) s s]; exact h4
    · rw [← (h1 p (by simp [hp])).eq (env := env) s s]; exact h5 p hp
  | @tagged ts us h1 h2 h3 h4 h5 h6 =>
    intro j hn hw v hv
    obtain ⟨kvs, c, p, x, l, rfl, hc, hp, hx, _, _, hvc⟩ := C22_never_other env h.ok s ts h1 j v hv
    obtain ⟨_, cd, _, he, hcd, _⟩ := hp.2 _ hc
    cases he
    obtain ⟨cd', hr, h7, h8⟩ := h.readable hcd
    refine union_of_member h.ok' ((C23_ambiguous_iff env' h.ok' _ ⟨p, h5 p hp⟩).2.2 h3) h8 (h4 _ hc) ?_ ⟨p, x, h5 p hp, hx⟩
      (cls_relaxed h ihn hcd hn hw v hvc)
    intro q f hq hf hfn
    exact ⟨(h6 q c cd' f [] hq (h4 _ hc) h8.cls hf hfn).1, fun ls => (h6 q c cd' f ls hq (h4 _ hc) h8.cls hf hfn).2⟩

end Verif
