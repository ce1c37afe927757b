import Verif.Spec.Reader
import Verif.Lemmas.Cache
import Verif.Lemmas.Deser2
/-!
# Which deserializers can be created: lemmas
-/
namespace Verif
section
variable {env : Env}

theorem checkKeyTy_cases (k : KeyTy) : (checkKeyTy env k = .ok () ∧ ¬ BadKey env k) ∨ (checkKeyTy env k = .error .jsonType ∧ BadKey env k) ∨
    ∃ e, k = .enum e ∧ env.enums[e]? = none := by
  cases k with
  | str => exact .inl ⟨rfl, id⟩
  | int | other => exact .inr (.inl ⟨rfl, trivial⟩)
  | enum e =>
    cases he : env.enums[e]? with
    | none => exact .inr (.inr ⟨e, rfl, he⟩)
    | some ed =>
      simp only [checkKeyTy, he, BadKey, Option.some.injEq, exists_eq_left']
      cases hs : ed.strValued with
      | true =>
        refine .inl ⟨rfl, ?_⟩
        unfold EnumDef.strValued at hs
        simp only [Bool.and_eq_true, Bool.not_eq_true', List.isEmpty_eq_false_iff, List.all_eq_true] at hs
        rintro (h | ⟨m, hm, h⟩)
        · exact hs.1 h
        · have := hs.2 m hm
          obtain ⟨n, s⟩ := m
          cases s <;> simp at this
          exact h _ rfl
      | false =>
        refine .inr (.inl ⟨rfl, ?_⟩)
        unfold EnumDef.strValued at hs
        simp only [Bool.and_eq_false_iff, Bool.not_eq_false', List.isEmpty_iff, List.all_eq_false] at hs
        rcases hs with h | ⟨m, hm, h⟩
        · exact .inl h
        · refine .inr ⟨m, hm, fun s hs => ?_⟩
          rw [hs] at h
          exact h rfl

theorem compileLit_cases (ls : List Lit) : (∃ d, compileLit env ls = .ok d ∧ SameType ls) ∨
    (compileLit env ls = .error .typeError ∧ ¬ SameType ls) ∨ Dangles env (.literal ls) := by
  cases ls with
  | nil => exact .inr (.inl ⟨rfl, fun ⟨_, h, _⟩ => h rfl⟩)
  | cons l r =>
    simp only [compileLit]
    by_cases h : r.all (fun m => l.sameTy m) = true
    · simp only [h, if_true]
      have hs := (uniform_iff l r).1 h
      cases l with
      | enum e m =>
        cases he : env.enums[e]? with
        | none => exact .inr (.inr (.literal (e := e) (m := m) (by simp) he))
        | some ed => exact .inl ⟨_, by simp only [litDeser, tyKey, he]; rfl, hs⟩
      | _ => exact .inl ⟨_, rfl, hs⟩
    · simp only [h]
      exact .inr (.inl ⟨rfl, fun hs => h ((uniform_iff l r).2 hs)⟩)

theorem not_tagged {ts : List Ty} (h : discProps env ts = []) : ¬ ∃ p, IsTag env ts p := by
  rintro ⟨p, hp⟩
  have := mem_discProps.2 hp
  rw [h] at this
  cases this

theorem tagged_of {ts : List Ty} (h : discProps env ts ≠ []) : ∃ p, IsTag env ts p := by
  obtain ⟨p, hp⟩ := List.exists_mem_of_ne_nil _ h
  exact ⟨p, mem_discProps.1 hp⟩

mutual
/-- A type has a deserializer, or a fault, or refers to something that does not exist. -/
theorem compile_cases (hk : env.Ok) : ∀ t : Ty, Supported env t ∨
    (∃ e, compile env t = .error e ∧ (e = .typeError ∨ e = .jsonType) ∧ Fault env t) ∨ Dangles env t
  | .none | .bool | .int | .float | .str | .bytes | .datetime | .date | .time | .timedelta | .uuid | .ipv4 | .ipv6 => .inl ⟨_, rfl⟩
  | .bareList | .bareSet | .bareTuple | .bareDict => .inr (.inl ⟨_, rfl, .inl rfl, .bare (by simp)⟩)
  | .list t => by
    rcases compile_cases hk t with ⟨d, h⟩ | ⟨e, h, h1, h2⟩ | h
    · exact .inl ⟨_, by simp only [compile, h]; rfl⟩
    · exact .inr (.inl ⟨e, by simp only [compile, h], h1, .list h2⟩)
    · exact .inr (.inr (.list h))
  | .set t => by
    rcases compile_cases hk t with ⟨d, h⟩ | ⟨e, h, h1, h2⟩ | h
    · exact .inl ⟨_, by simp only [compile, h]; rfl⟩
    · exact .inr (.inl ⟨e, by simp only [compile, h], h1, .set h2⟩)
    · exact .inr (.inr (.set h))
  | .annotated t _ => by
    rcases compile_cases hk t with ⟨d, h⟩ | ⟨e, h, h1, h2⟩ | h
    · exact .inl ⟨_, by simp only [compile, h]; rfl⟩
    · exact .inr (.inl ⟨e, by simp only [compile, h], h1, .annotated h2⟩)
    · exact .inr (.inr (.annotated h))
  | .dict k t => by
    rcases checkKeyTy_cases (env := env) k with ⟨hc, _⟩ | ⟨hc, hb⟩ | ⟨e, rfl, he⟩
    · rcases compile_cases hk t with ⟨d, h⟩ | ⟨e, h, h1, h2⟩ | h
      · exact .inl ⟨_, by simp only [compile, h, hc]; rfl⟩
      · exact .inr (.inl ⟨e, by simp only [compile, h, hc], h1, .dict h2⟩)
      · exact .inr (.inr (.dict h))
    · exact .inr (.inl ⟨_, by simp only [compile, hc], .inr rfl, .key hb⟩)
    · exact .inr (.inr (.key he))
  | .tuple ts => by
    rcases compileL_cases hk ts with ⟨d, h⟩ | ⟨e, h, h1, t, ht, h2⟩ | ⟨t, ht, h⟩
    · exact .inl ⟨_, by simp only [compile, h]; rfl⟩
    · exact .inr (.inl ⟨e, by simp only [compile, h], h1, .tuple ht h2⟩)
    · exact .inr (.inr (.tuple ht h))
  | .union ts => by
    by_cases hd : discProps env ts = []
    · rcases compileL_cases hk ts with ⟨d, h⟩ | ⟨e, h, h1, t, ht, h2⟩ | ⟨t, ht, h⟩
      · exact .inl ⟨_, by simp only [compile, hd, if_true, h]; rfl⟩
      · exact .inr (.inl ⟨e, by simp only [compile, hd, if_true, h], h1, .union (not_tagged hd) ht h2⟩)
      · exact .inr (.inr (.union ht h))
    · have hC := C23_ambiguous_iff env hk ts (tagged_of hd)
      by_cases ha : Ambiguous env ts
      · exact .inr (.inl ⟨_, hC.1.2 ha, .inr rfl, .ambiguous ha⟩)
      · exact .inl (hC.2.2 ha)
  | .literal ls => by
    rcases compileLit_cases (env := env) ls with ⟨d, h, _⟩ | ⟨h, hs⟩ | h
    · exact .inl ⟨d, h⟩
    · exact .inr (.inl ⟨_, h, .inl rfl, .literal hs⟩)
    · exact .inr (.inr h)
  | .enum e => by
    cases he : env.enums[e]? with
    | none => exact .inr (.inr (.enum he))
    | some ed => exact .inl ⟨_, by simp only [compile, tyKey, he, Option.map_some]; rfl⟩
  | .cls c => by
    cases hc : env.classes[c]? with
    | none => exact .inr (.inr (.cls hc))
    | some cd => exact .inl ⟨_, compile_cls hc⟩
theorem compileL_cases (hk : env.Ok) : ∀ ts : List Ty, (∃ ds, compileL env ts = .ok ds) ∨
    (∃ e, compileL env ts = .error e ∧ (e = .typeError ∨ e = .jsonType) ∧ ∃ t ∈ ts, Fault env t) ∨ ∃ t ∈ ts, Dangles env t
  | [] => .inl ⟨[], rfl⟩
  | t :: ts => by
    rcases compile_cases hk t with ⟨d, h⟩ | ⟨e, h, h1, h2⟩ | h
    · rcases compileL_cases hk ts with ⟨ds, h'⟩ | ⟨e, h', h1, u, hu, h2⟩ | ⟨u, hu, h2⟩
      · exact .inl ⟨d :: ds, by simp only [compileL, h, h']⟩
      · exact .inr (.inl ⟨e, by simp only [compileL, h, h'], h1, u, by simp [hu], h2⟩)
      · exact .inr (.inr ⟨u, by simp [hu], h2⟩)
    · exact .inr (.inl ⟨e, by simp only [compileL, h], h1, t, by simp, h2⟩)
    · exact .inr (.inr ⟨t, by simp, h⟩)
end

/-- A type with a fault has no deserializer. -/
theorem Fault.unsupported (hk : env.Ok) {t : Ty} (h : Fault env t) : ¬ Supported env t := by
  have elems : ∀ {ts : List Ty} {ds : List Deser}, compileL env ts = .ok ds → ∀ t ∈ ts, Supported env t := by
    intro ts ds h t ht
    obtain ⟨d, _, hd⟩ := (compileL_ok.1 h).mem_left ht
    exact ⟨d, hd⟩
  induction h with
  | bare h =>
    rintro ⟨d, hd⟩
    simp only [List.mem_cons, List.not_mem_nil, or_false] at h
    rcases h with rfl | rfl | rfl | rfl <;> cases hd
  | @key k t hb =>
    rintro ⟨d, hd⟩
    simp only [compile] at hd
    rcases checkKeyTy_cases (env := env) k with ⟨_, h⟩ | ⟨h, _⟩ | ⟨e, rfl, he⟩
    · exact h hb
    · rw [h] at hd; cases hd
    · simp only [checkKeyTy, he] at hd; cases hd
  | @literal ls hs =>
    rintro ⟨d, hd⟩
    rcases compileLit_cases (env := env) ls with ⟨_, _, h⟩ | ⟨h, _⟩ | h
    · exact hs h
    · simp only [compile] at hd; rw [h] at hd; cases hd
    · cases ls with
      | nil => cases hd
      | cons l r =>
        simp only [compile, compileLit] at hd
        split at hd
        · rename_i hu; exact hs ((uniform_iff l r).1 hu)
        · cases hd
  | @ambiguous ts ha =>
    have ⟨p, hp, _⟩ := ha
    exact fun hs => (C23_ambiguous_iff env hk ts ⟨p, hp⟩).2.1 hs ha
  | @list t _ ih =>
    rintro ⟨d, hd⟩
    simp only [compile] at hd
    cases h : compile env t with
    | ok d => exact ih ⟨d, h⟩
    | error e => rw [h] at hd; cases hd
  | @set t _ ih =>
    rintro ⟨d, hd⟩
    simp only [compile] at hd
    cases h : compile env t with
    | ok d => exact ih ⟨d, h⟩
    | error e => rw [h] at hd; cases hd
  | @dict k t _ ih =>
    rintro ⟨d, hd⟩
    simp only [compile] at hd
    split at hd
    · cases hd
    · cases h : compile env t with
      | ok d => exact ih ⟨d, h⟩
      | error e => rw [h] at hd; cases hd
  | @tuple ts t ht _ ih =>
    rintro ⟨d, hd⟩
    simp only [compile] at hd
    cases h : compileL env ts with
    | ok ds => exact ih (elems h t ht)
    | error e => rw [h] at hd; cases hd
  | @union ts t hn ht _ ih =>
    rintro ⟨d, hd⟩
    have he : discProps env ts = [] := Classical.byContradiction fun h => hn (tagged_of h)
    simp only [compile, he, if_true] at hd
    cases h : compileL env ts with
    | ok ds => exact ih (elems h t ht)
    | error e => rw [h] at hd; cases hd
  | annotated _ ih => exact fun ⟨d, hd⟩ => ih ⟨d, hd⟩

theorem supported_iff_faultless (hk : env.Ok) {t : Ty} (hd : ¬ Dangles env t) : Supported env t ↔ ¬ Fault env t := by
  constructor
  · exact fun hs hf => hf.unsupported hk hs
  · intro hf
    rcases compile_cases hk t with h | ⟨_, _, _, h⟩ | h
    · exact h
    · exact absurd h hf
    · exact absurd h hd

/-! ### Types of optional members -/

theorem mentions_unwrapOpt' {t : Ty} {c : Nat} (h : Mentions t c) : Mentions t.unwrapOpt c := by
  cases t with
  | union ts =>
    cases h with
    | @union _ u _ hu hm =>
      have hmem : u ∈ ts.filter (fun t => !t.isNone) := by
        refine List.mem_filter.2 ⟨hu, ?_⟩
        cases u <;> first | rfl | cases hm
      simp only [Ty.unwrapOpt]
      revert hmem
      generalize ts.filter (fun t => !t.isNone) = us
      intro hmem
      split
      · rcases List.mem_singleton.1 hmem with rfl; exact hm
      · exact .union hmem hm
  | _ => exact h

theorem mentions_fieldTy' {kind : ClassKind} {f : FieldDef} {c : Nat} (h : Mentions f.ty c) : Mentions (fieldTy kind f) c := by
  have hr : Mentions f.ty.required c := by
    unfold Ty.required
    split
    · revert h
      cases f.ty with
      | annotated t ms =>
        intro h
        cases h with
        | annotated h => exact .annotated (mentions_unwrapOpt' h)
      | _ => intro h; exact mentions_unwrapOpt' h
    · exact h
  unfold fieldTy
  split
  · exact h
  · exact hr

theorem dangles_unwrapOpt {t : Ty} (h : Dangles env t.unwrapOpt) : Dangles env t := by
  cases t with
  | union ts =>
    simp only [Ty.unwrapOpt] at h
    have hmem : ∀ t, t ∈ ts.filter (fun t => !t.isNone) → t ∈ ts := fun t ht => (List.mem_filter.1 ht).1
    revert h hmem
    generalize ts.filter (fun t => !t.isNone) = us
    intro h hmem
    split at h
    · exact .union (hmem _ (by simp)) h
    · cases h with
      | union h1 h2 => exact .union (hmem _ h1) h2
  | _ => exact h

theorem dangles_fieldTy {kind : ClassKind} {f : FieldDef} (h : Dangles env (fieldTy kind f)) : Dangles env f.ty := by
  have hr : Dangles env f.ty.required → Dangles env f.ty := by
    intro h
    unfold Ty.required at h
    split at h
    · revert h
      cases f.ty with
      | annotated t ms =>
        intro h
        cases h with
        | annotated h => exact .annotated (dangles_unwrapOpt h)
      | _ => intro h; exact dangles_unwrapOpt h
    · exact h
  unfold fieldTy at h
  split at h
  · exact h
  · exact hr h

/-! ### Creation with the cache -/

/-- There is an entry for the class. -/
def HasEntry (env : Env) (H : Heap) (c : Nat) : Prop := ∃ cd, env.classes[c]? = some cd ∧ H.Dom cd.key

/-- The type has a deserializer that refers to entries of the cache only. -/
def Served (env : Env) (H : Heap) (t : Ty) : Prop := ∃ d, compile env t = .ok d ∧ d.Refs H.Dom

theorem Served.mono {H H' : Heap} (h : ∀ k, H.Dom k → H'.Dom k) {t : Ty} : Served env H t → Served env H' t :=
  fun ⟨d, h1, h2⟩ => ⟨d, h1, h2.mono h⟩

/-- Entries of classes that are not in `P` have been completed: the types of their members have deserializers and the classes in
them have entries. -/
def Completed (env : Env) (P : Nat → Prop) (H : Heap) : Prop :=
  ∀ c cd, env.classes[c]? = some cd → H.Dom cd.key → cd.custom = false → ¬ P c →
    ∀ f ∈ cd.hints, Served env H (fieldTy cd.kind f) ∧ ∀ c', Mentions (fieldTy cd.kind f) c' → HasEntry env H c'

/-- What is shown of each step of a creation. -/
structure Created (env : Env) (P : Nat → Prop) (n : Nat) (W : Prop) (H : Heap) (r : Res α × Heap) (Q : α → Heap → Prop) : Prop where
  grows : ∀ k, H.Dom k → r.2.Dom k
  done : Completed env P H → ∀ a, r.1 = .ok a → Completed env P r.2 ∧ Q a r.2
  error : missing env H ≤ n → ∀ e, r.1 = .error e → (e = .typeError ∨ e = .jsonType) ∧ ¬ W

theorem HasEntry.mono {H H' : Heap} (h : ∀ k, H.Dom k → H'.Dom k) {c : Nat} : HasEntry env H c → HasEntry env H' c :=
  fun ⟨cd, hcd, hd⟩ => ⟨cd, hcd, h _ hd⟩

theorem class_unique (hk : env.Ok) {c c' : Nat} {cd cd' : ClassDef} (h : env.classes[c]? = some cd) (h' : env.classes[c']? = some cd')
    (he : cd.key = cd'.key) : c = c' := by
  have hn := (List.nodup_append.1 hk.keys).2.1
  have h1 : (env.classes.map ClassDef.key)[c]? = some cd.key := by rw [List.getElem?_map, h]; rfl
  have h2 : (env.classes.map ClassDef.key)[c']? = some cd.key := by rw [List.getElem?_map, h', he]; rfl
  obtain ⟨l1, e1⟩ := List.getElem?_eq_some_iff.1 h1
  obtain ⟨l2, e2⟩ := List.getElem?_eq_some_iff.1 h2
  exact (List.getElem_inj hn).1 (e1.trans e2.symm)

theorem Completed.enum (hk : env.Ok) {P : Nat → Prop} {H : Heap} (h : Completed env P H) {e : Nat} {ed : EnumDef}
    (he : env.enums[e]? = some ed) (x : Entry) : Completed env P (H.put ed.key x) := by
  intro c cd hcd hd hcus hp f hf
  have hne : cd.key ≠ ed.key := by
    intro heq
    exact (List.nodup_append.1 hk.keys).2.2 _ (List.mem_map.2 ⟨ed, List.mem_of_getElem? he, rfl⟩) _
      (List.mem_map.2 ⟨cd, List.mem_of_getElem? hcd, rfl⟩) heq.symm
  have hd' : H.Dom cd.key := by simpa [Heap.Dom, Heap.put, hne] using hd
  obtain ⟨h1, h2⟩ := h c cd hcd hd' hcus hp f hf
  exact ⟨h1.mono fun k hk => hk.put _ _, fun c' hm => (h2 c' hm).mono fun k hk => hk.put _ _⟩

/-- What is asked of the function that makes an entry for a class; it succeeds for the classes in `G`. -/
def Creates (env : Env) (G : Nat → Prop) (n : Nat) (bld : Builder) : Prop :=
  ∀ P c cd H, env.classes[c]? = some cd → H cd.key = none → Created env P n (G c) H (bld c cd H) fun _ H' => H'.Dom cd.key

theorem Created.pure {P : Nat → Prop} {n : Nat} {W : Prop} {H : Heap} {a : α} {Q : α → Heap → Prop} (h : Q a H) :
    Created env P n W H (.ok a, H) Q :=
  ⟨fun _ h => h, fun hc b hb => by cases hb; exact ⟨hc, h⟩, fun _ e he => by cases he⟩

theorem Created.throw {P : Nat → Prop} {n : Nat} {W : Prop} {H : Heap} {e : Err} {Q : α → Heap → Prop}
    (h : e = .typeError ∨ e = .jsonType) (hw : ¬ W) : Created env P n W H ((.error e, H) : Res α × Heap) Q :=
  ⟨fun _ h => h, fun _ b hb => (by cases hb), fun _ e' he => by cases he; exact ⟨h, hw⟩⟩

theorem Created.weaken {P : Nat → Prop} {n : Nat} {W W' : Prop} {H : Heap} {r : Res α × Heap} {Q : α → Heap → Prop}
    (h : Created env P n W H r Q) (hw : W' → W) : Created env P n W' H r Q :=
  ⟨h.grows, h.done, fun hm e he => ⟨(h.error hm e he).1, fun w => (h.error hm e he).2 (hw w)⟩⟩

/-- A step that fails. -/
theorem Created.errOf {P : Nat → Prop} {n : Nat} {W W' : Prop} {H H' : Heap} {r : Res α × Heap} {Q : α → Heap → Prop} {R : β → Heap → Prop} {e : Err}
    (h : Created env P n W H r Q) (hr : r = (.error e, H')) (hw : W' → W) : Created env P n W' H ((.error e, H') : Res β × Heap) R := by
  subst hr
  exact ⟨h.grows, fun _ b hb => (by cases hb), fun hm e' he => by
    cases he; exact ⟨(h.error hm _ rfl).1, fun w => (h.error hm _ rfl).2 (hw w)⟩⟩

/-- A step followed by another one. -/
theorem Created.okOf {P : Nat → Prop} {n : Nat} {W W' : Prop} {H H' : Heap} {r : Res α × Heap} {Q : α → Heap → Prop} {a : α}
    (h : Created env P n W H r Q) (hr : r = (.ok a, H')) {r' : Res β × Heap} {Q' R : β → Heap → Prop} (h' : Created env P n W' H' r' Q')
    (hQ : ∀ b H'', (∀ k, H'.Dom k → H''.Dom k) → Q a H' → Q' b H'' → R b H'') : Created env P n W' H r' R := by
  subst hr
  refine ⟨fun k hk => h'.grows k (h.grows k hk), fun hc b hb => ?_, fun hm e he => ?_⟩
  · obtain ⟨h3, h4⟩ := h.done hc a rfl
    obtain ⟨h5, h6⟩ := h'.done h3 b hb
    exact ⟨h5, hQ b r'.2 h'.grows h4 h6⟩
  · exact h'.error (Nat.le_trans (missing_mono h.grows) hm) e he

variable {n : Nat} {bld : Builder} {P G : Nat → Prop}

theorem getCls_created (hb : Creates env G n bld) {c : Nat} {cd : ClassDef} (hcd : env.classes[c]? = some cd) (H : Heap) :
    Created env P n (G c) H (getCls env bld c H) fun k H' => k = cd.key ∧ H'.Dom cd.key := by
  unfold getCls
  simp only [hcd]
  cases he : H cd.key with
  | some x => exact .pure ⟨rfl, by simp [Heap.Dom, he]⟩
  | none =>
    have h := hb P c cd H hcd he
    rcases hr : bld c cd H with ⟨r, H'⟩
    cases r with
    | error e => exact h.errOf hr id
    | ok a => exact h.okOf hr (Q' := fun k _ => k = cd.key) (.pure rfl) fun b H'' hg hq h => ⟨h, hg _ hq⟩

theorem getEnum_created (hk : env.Ok) {e : Nat} {ed : EnumDef} (he : env.enums[e]? = some ed) (H : Heap) :
    Created env P n True H (getEnum env e H) fun k H' => k = ed.key ∧ H'.Dom ed.key := by
  unfold getEnum
  simp only [he]
  cases hh : H ed.key with
  | some x => exact .pure ⟨rfl, by simp [Heap.Dom, hh]⟩
  | none =>
    exact ⟨fun k hd => hd.put _ _, fun hc b hb => (by cases hb; exact ⟨hc.enum hk he _, rfl, Heap.dom_put_self _ _ _⟩), fun _ e' h => by cases h⟩

theorem buildTagsC_created (hb : Creates env G n bld) (items : List (Str × Lit × Ty))
    (hit : ∀ e ∈ items, ∃ c cd, e.2.2 = .cls c ∧ env.classes[c]? = some cd) (table : List (Str × Lit × TKey)) (H : Heap) :
    Created env P n ((∃ tb, buildTags table (items.map (fun e => (e.1, e.2.1, tyKey env e.2.2))) = .ok tb) ∧
      ∀ e ∈ items, ∀ c, e.2.2 = .cls c → G c) H (buildTagsC env bld table items H) fun tb H' =>
      buildTags table (items.map (fun e => (e.1, e.2.1, tyKey env e.2.2))) = .ok tb ∧ (∀ e ∈ items, ∀ c, e.2.2 = .cls c → HasEntry env H' c) ∧
        ((∀ e ∈ table, H.Dom e.2.2) → ∀ e ∈ tb, H'.Dom e.2.2) := by
  induction items generalizing table H with
  | nil => exact .pure ⟨rfl, by simp, id⟩
  | cons e r ih =>
    obtain ⟨p, l, t⟩ := e
    obtain ⟨c, cd, he, hcd⟩ := hit _ List.mem_cons_self
    simp only at he
    subst he
    simp only [List.map_cons, buildTags, buildTagsC, tyKey, hcd, Option.map_some, addTag]
    cases hdup : table.any (fun e => e.1 = p && e.2.1.pyEq l) with
    | true => exact .throw (.inr rfl) (by rintro ⟨⟨tb, h⟩, _⟩; simp at h)
    | false =>
      have h := getCls_created (P := P) hb hcd H
      simp only [getMember]
      rcases hr : getCls env bld c H with ⟨r', H'⟩
      cases r' with
      | error e => exact h.errOf hr (fun hw => hw.2 _ List.mem_cons_self c rfl)
      | ok k =>
        have hkey : k = cd.key := by
          have := hr
          unfold getCls at this
          simp only [hcd] at this
          split at this
          · simp only [Prod.mk.injEq, Except.ok.injEq] at this; exact this.1.symm
          · split at this
            · simp only [Prod.mk.injEq, Except.ok.injEq] at this; exact this.1.symm
            · simp at this
        refine h.okOf hr ((ih (fun e he => hit e (by simp [he])) (table ++ [(p, l, k)]) H').weaken ?_) ?_
        · rintro ⟨⟨tb, h1⟩, h2⟩
          refine ⟨⟨tb, ?_⟩, fun e he => h2 e (by simp [he])⟩
          rw [hkey]
          simpa [tyKey] using h1
        rintro tb H'' hg ⟨rfl, hd⟩ ⟨h1, h2, h3⟩
        refine ⟨by simpa [tyKey] using h1, ?_, fun ht => h3 ?_⟩
        · intro e he c' hc'
          rcases List.mem_cons.1 he with rfl | he
          · cases hc'; exact ⟨cd, hcd, hg _ hd⟩
          · exact h2 e he c' hc'
        · intro e he
          rcases List.mem_append.1 he with he | he
          · exact by have := h.grows _ (ht e he); rwa [hr] at this
          · rcases List.mem_singleton.1 he with rfl; exact hd

theorem getLit_created (hk : env.Ok) (ls : List Lit) (hd : ¬ Dangles env (.literal ls)) (H : Heap) :
    Created env P n (SameType ls) H (getLit env ls H) fun d H' => compileLit env ls = .ok d ∧ d.Refs H'.Dom := by
  cases ls with
  | nil => exact .throw (.inl rfl) (fun ⟨_, h, _⟩ => h rfl)
  | cons l r =>
    simp only [getLit, compileLit]
    cases hu : r.all (fun m => l.sameTy m) with
    | false => exact .throw (.inl rfl) (fun hs => by rw [(uniform_iff l r).2 hs] at hu; cases hu)
    | true =>
      cases l with
      | enum e m =>
        cases he : env.enums[e]? with
        | none => exact absurd (.literal (e := e) (m := m) (by simp) he) hd
        | some ed =>
          have h := getEnum_created (n := n) (P := P) hk he H
          simp only [if_true]
          rcases hr : getEnum env e H with ⟨r', H'⟩
          cases r' with
          | error e => exact h.errOf hr (fun _ => trivial)
          | ok k =>
            refine h.okOf hr (Q' := fun d _ => d = .literal (.enum e m :: r) (.ref k)) (.pure rfl) ?_
            rintro d H'' hg ⟨rfl, hdom⟩ rfl
            exact ⟨by simp [litDeser, tyKey, he], hg _ hdom⟩
      | _ => exact .pure ⟨rfl, trivial⟩

/-- What is shown of the deserializer of a type. -/
def Gotten (env : Env) (t : Ty) (d : Deser) (H : Heap) : Prop :=
  compile env t = .ok d ∧ d.Refs H.Dom ∧ ∀ c, Mentions t c → HasEntry env H c

mutual
/-- A deserializer that is returned is the one of the type, and the classes in the type have entries. -/
theorem getWith_created (hk : env.Ok) (hl : ∀ cd ∈ env.classes, ∀ f ∈ cd.hints, f.ty.litArgs ≠ some []) (hb : Creates env G n bld) :
    ∀ (t : Ty) (H : Heap), ¬ Dangles env t → Created env P n (¬ Fault env t ∧ t.Within G) H (getWith env bld t H) (Gotten env t)
  | .none, H, _ | .bool, H, _ | .int, H, _ | .float, H, _ | .str, H, _ | .bytes, H, _ | .datetime, H, _ | .date, H, _ | .time, H, _
  | .timedelta, H, _ | .uuid, H, _ | .ipv4, H, _ | .ipv6, H, _ => .pure ⟨rfl, trivial, fun _ h => by cases h⟩
  | .bareList, H, _ | .bareDict, H, _ | .bareSet, H, _ | .bareTuple, H, _ => .throw (.inl rfl) (fun h => h.1 (.bare (by simp)))
  | .list t, H, hd => by
    have h := getWith_created hk hl hb t H (fun h => hd (.list h))
    rcases hr : getWith env bld t H with ⟨r, H'⟩
    simp only [getWith, hr]
    cases r with
    | error e => exact h.errOf hr (fun w => ⟨fun f => w.1 (.list f), w.2⟩)
    | ok d =>
      refine h.okOf hr (Q' := fun d' _ => d' = .list d) (.pure rfl) ?_
      rintro d' H'' hg ⟨h1, h0, h2⟩ rfl
      exact ⟨by simp only [compile, h1], h0.mono hg, fun c hc => by cases hc with | list hc => exact (h2 c hc).mono hg⟩
  | .set t, H, hd => by
    have h := getWith_created hk hl hb t H (fun h => hd (.set h))
    rcases hr : getWith env bld t H with ⟨r, H'⟩
    simp only [getWith, hr]
    cases r with
    | error e => exact h.errOf hr (fun w => ⟨fun f => w.1 (.set f), w.2⟩)
    | ok d =>
      refine h.okOf hr (Q' := fun d' _ => d' = .set d) (.pure rfl) ?_
      rintro d' H'' hg ⟨h1, h0, h2⟩ rfl
      exact ⟨by simp only [compile, h1], h0.mono hg, fun c hc => by cases hc with | set hc => exact (h2 c hc).mono hg⟩
  | .annotated t ms, H, hd => by
    have h := getWith_created hk hl hb t H (fun h => hd (.annotated h))
    refine ⟨h.grows, fun hc a ha => ?_, fun hm e he => ⟨(h.error hm e he).1, fun w => (h.error hm e he).2 ⟨fun f => w.1 (.annotated f), w.2⟩⟩⟩
    obtain ⟨h1, h2, h0, h3⟩ := h.done hc a ha
    exact ⟨h1, h2, h0, fun c hc => by cases hc with | annotated hc => exact h3 c hc⟩
  | .dict k t, H, hd => by
    rcases checkKeyTy_cases (env := env) k with ⟨hc, _⟩ | ⟨hc, hbad⟩ | ⟨e, rfl, he⟩
    · have h := getWith_created hk hl hb t H (fun h => hd (.dict h))
      rcases hr : getWith env bld t H with ⟨r, H'⟩
      simp only [getWith, hr, hc]
      cases r with
      | error e => exact h.errOf hr (fun w => ⟨fun f => w.1 (.dict f), w.2⟩)
      | ok d =>
        refine h.okOf hr (Q' := fun d' _ => d' = .dict k d) (.pure rfl) ?_
        rintro d' H'' hg ⟨h1, h0, h2⟩ rfl
        exact ⟨by simp only [compile, hc, h1], h0.mono hg, fun c hc => by cases hc with | dict hc => exact (h2 c hc).mono hg⟩
    · simp only [getWith, hc]
      exact .throw (.inr rfl) (fun w => w.1 (.key hbad))
    · exact absurd (.key he) hd
  | .tuple ts, H, hd => by
    have h := getWithL_created hk hl hb ts H (fun t ht h => hd (.tuple ht h))
    rcases hr : getWithL env bld ts H with ⟨r, H'⟩
    simp only [getWith, hr]
    cases r with
    | error e => exact h.errOf hr (fun w => ⟨fun t ht f => w.1 (.tuple ht f), w.2⟩)
    | ok ds =>
      refine h.okOf hr (Q' := fun d' _ => d' = .tuple ds) (.pure rfl) ?_
      rintro d' H'' hg ⟨h1, h0, h2⟩ rfl
      exact ⟨by simp only [compile, h1], Deser.RefsL.mono hg h0, fun c hc => by cases hc with | tuple ht hc => exact (h2 _ ht c hc).mono hg⟩
  | .union ts, H, hd => by
    by_cases hp : discProps env ts = []
    · have h := getWithL_created hk hl hb ts H (fun t ht h => hd (.union ht h))
      rcases hr : getWithL env bld ts H with ⟨r, H'⟩
      simp only [getWith, hp, if_true, hr]
      cases r with
      | error e => exact h.errOf hr (fun w => ⟨fun t ht f => w.1 (.union (not_tagged hp) ht f), w.2⟩)
      | ok ds =>
        refine h.okOf hr (Q' := fun d' _ => d' = .union ds) (.pure rfl) ?_
        rintro d' H'' hg ⟨h1, h0, h2⟩ rfl
        exact ⟨by simp only [compile, hp, if_true, h1], Deser.RefsL.mono hg h0, fun c hc => by cases hc with | union ht hc => exact (h2 _ ht c hc).mono hg⟩
    · obtain ⟨p, htag⟩ := tagged_of hp
      have h := buildTagsC_created (P := P) hb (tagTyItems env ts) (by
        intro e he
        obtain ⟨hm, c, hc⟩ := tagTyItems_cls he
        obtain ⟨c', cd, f, h1, hcd, _⟩ := htag.2 _ hm
        exact ⟨c', cd, h1, hcd⟩) [] H
      rcases hr : buildTagsC env bld [] (tagTyItems env ts) H with ⟨r, H'⟩
      simp only [getWith, if_neg hp, hr]
      cases r with
      | error e =>
        refine h.errOf hr (fun w => ⟨?_, fun e he c hc => ?_⟩)
        · obtain ⟨d, hd⟩ := (C23_ambiguous_iff env hk ts ⟨p, htag⟩).2.2 (fun ha => w.1 (.ambiguous ha))
          simp only [compile, if_neg hp] at hd
          rw [← tagItems_eq]
          cases hb' : buildTags [] (tagItems env ts) with
          | ok tb => exact ⟨tb, rfl⟩
          | error e => rw [hb'] at hd; cases hd
        · have h1 := Ty.withinL_iff.1 w.2 _ (tagTyItems_cls he).1
          rw [hc] at h1
          exact h1
      | ok tb =>
        refine h.okOf hr (Q' := fun d' _ => d' = .tagged (env.setOrder (discProps env ts)) tb) (.pure rfl) ?_
        rintro d' H'' hg ⟨h1, h2, h0⟩ rfl
        rw [← tagItems_eq] at h1
        refine ⟨by simp only [compile, if_neg hp, h1], fun e he => hg _ (h0 (by simp) e he), fun c hc => ?_⟩
        cases hc with
        | @union _ t _ ht hm =>
          obtain ⟨c', cd, f, rfl, hcd, hf, hfp, hs, hla⟩ := htag.2 _ ht
          obtain ⟨ls, hls⟩ := Option.isSome_iff_exists.1 hla
          have hne : ls ≠ [] := fun h => hl cd (List.mem_of_getElem? hcd) f hf (by rw [hls, h])
          obtain ⟨l, hlm⟩ := List.exists_mem_of_ne_nil _ hne
          have hmem : (p, l, Ty.cls c') ∈ tagTyItems env ts := by
            unfold tagTyItems
            simp only [List.mem_flatMap, List.mem_map]
            exact ⟨_, ht, p, (hk.setOrder _).mem_iff.2 (mem_discProps.2 htag), l, by
              rw [memberLits_of hk ⟨c', cd, f, rfl, hcd, hf, hfp, hls⟩]; exact hlm, rfl⟩
          cases hm
          exact (h2 _ hmem _ rfl).mono hg
  | .literal ls, H, hd => by
    have h := getLit_created (n := n) (P := P) hk ls hd H
    refine ⟨h.grows, fun hc a ha => ?_, (h.weaken fun w => Classical.byContradiction fun hs => w.1 (.literal hs)).error⟩
    obtain ⟨h1, h2, h0⟩ := h.done hc a ha
    exact ⟨h1, h2, h0, fun c hc => by cases hc⟩
  | .enum e, H, hd => by
    cases he : env.enums[e]? with
    | none => exact absurd (.enum he) hd
    | some ed =>
      have h := getEnum_created (n := n) (P := P) hk he H
      rcases hr : getEnum env e H with ⟨r, H'⟩
      simp only [getWith, hr]
      cases r with
      | error e => exact h.errOf hr (fun _ => trivial)
      | ok k =>
        refine h.okOf hr (Q' := fun d' _ => d' = .ref k) (.pure rfl) ?_
        rintro d' H'' hg ⟨rfl, hdom⟩ rfl
        exact ⟨by simp [compile, tyKey, he], hg _ hdom, fun c hc => by cases hc⟩
  | .cls c, H, hd => by
    cases hcd : env.classes[c]? with
    | none => exact absurd (.cls hcd) hd
    | some cd =>
      have h := getCls_created (P := P) hb hcd H
      rcases hr : getCls env bld c H with ⟨r, H'⟩
      simp only [getWith, hr]
      cases r with
      | error e => exact h.errOf hr (fun w => w.2)
      | ok k =>
        refine h.okOf hr (Q' := fun d' _ => d' = .ref k) (.pure rfl) ?_
        rintro d' H'' hg ⟨rfl, hdom⟩ rfl
        exact ⟨compile_cls hcd, hg _ hdom, fun c' hc => by cases hc; exact ⟨cd, hcd, hg _ hdom⟩⟩
theorem getWithL_created (hk : env.Ok) (hl : ∀ cd ∈ env.classes, ∀ f ∈ cd.hints, f.ty.litArgs ≠ some []) (hb : Creates env G n bld) :
    ∀ (ts : List Ty) (H : Heap), (∀ t ∈ ts, ¬ Dangles env t) →
      Created env P n ((∀ t ∈ ts, ¬ Fault env t) ∧ Ty.WithinL G ts) H (getWithL env bld ts H) fun ds H' => compileL env ts = .ok ds ∧ Deser.RefsL H'.Dom ds ∧
        ∀ t ∈ ts, ∀ c, Mentions t c → HasEntry env H' c
  | [], H, _ => .pure ⟨rfl, trivial, by simp⟩
  | t :: ts, H, hd => by
    have h := getWith_created hk hl hb t H (hd t (by simp))
    rcases hr : getWith env bld t H with ⟨r, H'⟩
    simp only [getWithL, hr]
    cases r with
    | error e => exact h.errOf hr (fun w => ⟨w.1 t (by simp), w.2.1⟩)
    | ok d =>
      have h' := getWithL_created hk hl hb ts H' (fun t ht => hd t (by simp [ht]))
      refine h.okOf hr (Q' := fun ds H'' => ∃ ds', ds = d :: ds' ∧ compileL env ts = .ok ds' ∧ Deser.RefsL H''.Dom ds' ∧
        ∀ t ∈ ts, ∀ c, Mentions t c → HasEntry env H'' c) ?_ ?_
      · rcases hr' : getWithL env bld ts H' with ⟨r', H''⟩
        simp only [hr']
        cases r' with
        | error e => exact h'.errOf hr' (fun w => ⟨fun t ht => w.1 t (by simp [ht]), w.2.2⟩)
        | ok ds =>
          refine h'.okOf hr' (Q' := fun x _ => x = d :: ds) (.pure rfl) ?_
          rintro x H3 hg ⟨h1, h0, h2⟩ rfl
          exact ⟨ds, rfl, h1, h0.mono hg, fun t ht c hc => (h2 t ht c hc).mono hg⟩
      · rintro ds H'' hg ⟨h1, h0, h2⟩ ⟨ds', rfl, h3, h5, h4⟩
        refine ⟨by simp only [compileL, h1, h3], ⟨h0.mono hg, h5⟩, fun u hu c hc => ?_⟩
        rcases List.mem_cons.1 hu with rfl | hu
        · exact (h2 c hc).mono hg
        · exact h4 u hu c hc
end

theorem getFields_created (hk : env.Ok) (hl : ∀ cd ∈ env.classes, ∀ f ∈ cd.hints, f.ty.litArgs ≠ some []) (hb : Creates env G n bld)
    (kind : ClassKind) : ∀ (fs : List FieldDef) (H : Heap), (∀ f ∈ fs, ¬ Dangles env f.ty) →
      Created env P n (∀ f ∈ fs, ¬ Fault env (fieldTy kind f) ∧ (fieldTy kind f).Within G) H (getFields env bld kind fs H) fun _ H' => ∀ f ∈ fs, Served env H' (fieldTy kind f) ∧
        ∀ c, Mentions (fieldTy kind f) c → HasEntry env H' c
  | [], H, _ => .pure (by simp)
  | f :: r, H, hd => by
    have h := getWith_created (P := P) hk hl hb (fieldTy kind f) H (fun h => hd f (by simp) (dangles_fieldTy h))
    rcases hr : getWith env bld (fieldTy kind f) H with ⟨r1, H'⟩
    simp only [getFields, hr]
    cases r1 with
    | error e => exact h.errOf hr (fun w => w f (by simp))
    | ok d =>
      have h' := getFields_created hk hl hb kind r H' (fun f hf => hd f (by simp [hf]))
      refine h.okOf hr (Q' := fun _ H'' => ∀ f ∈ r, Served env H'' (fieldTy kind f) ∧
        ∀ c, Mentions (fieldTy kind f) c → HasEntry env H'' c) ?_ ?_
      · rcases hr' : getFields env bld kind r H' with ⟨r', H''⟩
        simp only [hr']
        cases r' with
        | error e => exact h'.errOf hr' (fun w f hf => w f (by simp [hf]))
        | ok fds =>
          refine h'.okOf hr' (Q' := fun _ _ => True) (.pure trivial) ?_
          rintro x H3 hg h2 _ f hf
          exact ⟨(h2 f hf).1.mono hg, fun c hc => ((h2 f hf).2 c hc).mono hg⟩
      · rintro fds H'' hg ⟨h1, h0, h2⟩ h3 g hgm
        rcases List.mem_cons.1 hgm with rfl | hgm
        · exact ⟨⟨d, h1, h0.mono hg⟩, fun c hc => (h2 c hc).mono hg⟩
        · exact h3 g hgm

/-- Storing an entry for a class beside those under way. -/
theorem Completed.put (hk : env.Ok) {H : Heap} {c : Nat} {cd : ClassDef} (hcd : env.classes[c]? = some cd) {x : Entry}
    (h : Completed env P H) : Completed env (fun i => P i ∨ i = c) (H.put cd.key x) := by
  intro c' cd' hcd' hd hcus hp f hf
  have hne : cd'.key ≠ cd.key := fun he => hp (.inr (class_unique hk hcd' hcd he))
  have hd' : H.Dom cd'.key := by simpa [Heap.Dom, Heap.put, hne] using hd
  obtain ⟨h1, h2⟩ := h c' cd' hcd' hd' hcus (fun h => hp (.inl h)) f hf
  exact ⟨h1.mono fun k hk => hk.put _ _, fun c'' hm => (h2 c'' hm).mono fun k hk => hk.put _ _⟩

theorem buildCls_creates (hk : env.Ok) (hc : env.Complete) (hG : ClosedClasses env G) (hr : ∀ c, G c → FieldsReadable env c) (skip : Bool) :
    ∀ n, Creates env G n (buildCls env skip n)
  | 0 => by
    intro P c cd H hcd hn
    have hm : missing env H ≠ 0 := by
      have := missing_put hcd hn (Entry.custom c)
      omega
    unfold buildCls
    cases hcus : cd.custom with
    | true =>
      refine ⟨fun k h => h.put _ _, fun hC a _ => ⟨?_, Heap.dom_put_self _ _ _⟩, fun _ e he => by simp at he⟩
      intro c' cd' hcd' hd hcus' hp f hf
      have hne : c' ≠ c := by rintro rfl; rw [hcd] at hcd'; cases hcd'; rw [hcus] at hcus'; cases hcus'
      exact hC.put hk hcd c' cd' hcd' hd hcus' (fun h => h.elim hp hne) f hf
    | false => exact ⟨fun k h => h.put _ _, fun hC a ha => (by simp at ha), fun h => absurd (Nat.le_zero.1 h) hm⟩
  | n + 1 => by
    intro P c cd H hcd hn
    unfold buildCls
    cases hcus : cd.custom with
    | true =>
      refine ⟨fun k h => h.put _ _, fun hC a _ => ⟨?_, Heap.dom_put_self _ _ _⟩, fun _ e he => by simp at he⟩
      intro c' cd' hcd' hd hcus' hp f hf
      have hne : c' ≠ c := by rintro rfl; rw [hcd] at hcd'; cases hcd'; rw [hcus] at hcus'; cases hcus'
      exact hC.put hk hcd c' cd' hcd' hd hcus' (fun h => h.elim hp hne) f hf
    | false =>
      have h := getFields_created (P := fun i => P i ∨ i = c) hk hc.literal (buildCls_creates hk hc hG hr skip n) cd.kind cd.hints
        (H.put cd.key (.cls c skip none)) (hc.known cd (List.mem_of_getElem? hcd))
      have hmiss : missing env (H.put cd.key (.cls c skip none)) < missing env H := missing_put hcd hn _
      simp only [Bool.false_eq_true, if_false]
      rcases hr' : getFields env (buildCls env skip n) cd.kind cd.hints (H.put cd.key (.cls c skip none)) with ⟨r, H'⟩
      rw [hr'] at h
      cases r with
      | error e =>
        exact ⟨fun k hd => h.grows k (hd.put _ _), fun _ a ha => (by cases ha), fun hm e' he => by
          cases he
          have h1 := h.error (by omega) _ rfl
          exact ⟨h1.1, fun w => h1.2 fun f hf => ⟨hr c w cd hcd hcus f hf, hG c w cd hcd hcus f hf⟩⟩⟩
      | ok fds =>
        refine ⟨fun k hd => (h.grows k (hd.put _ _)).put _ _, fun hC a _ => ⟨?_, Heap.dom_put_self _ _ _⟩, fun _ e he => by cases he⟩
        obtain ⟨h1, h2⟩ := h.done (hC.put hk hcd) fds rfl
        intro c' cd' hcd' hd hcus' hp f hf
        by_cases hne : c' = c
        · subst hne
          rw [hcd] at hcd'; cases hcd'
          exact ⟨(h2 f hf).1.mono fun k hk => hk.put _ _, fun c'' hm => ((h2 f hf).2 c'' hm).mono fun k hk => hk.put _ _⟩
        · have hd' : H'.Dom cd'.key := by
            have : cd'.key ≠ cd.key := fun he => hne (class_unique hk hcd' hcd he)
            simpa [Heap.Dom, Heap.put, this] using hd
          obtain ⟨h3, h4⟩ := h1 c' cd' hcd' hd' hcus' (fun h => h.elim hp hne) f hf
          exact ⟨h3.mono fun k hk => hk.put _ _, fun c'' hm => (h4 c'' hm).mono fun k hk => hk.put _ _⟩

theorem completed_empty : Completed env P Heap.empty := fun _ _ _ h => absurd rfl h

end
end Verif
