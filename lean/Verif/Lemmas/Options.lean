import Verif.Spec.Options
import Verif.Lemmas.Reader
/-!
# Which option is in force: lemmas
-/
namespace Verif
section
variable {env : Env}

theorem heapBy_const (env : Env) (skip : Bool) : heapBy env (fun _ => skip) = fullHeap env skip := rfl

/-- Reading with the same option for all classes is what the other properties are about. -/
theorem loadsBy_const (env : Env) (skip : Bool) (t : Ty) (j : Json) : loadsBy env (fun _ => skip) t j = loads env skip t j := rfl

theorem heapBy_enum (hk : env.Ok) (opt : Nat → Bool) {e : Nat} {ed : EnumDef} (he : env.enums[e]? = some ed) :
    heapBy env opt ed.key = some (.enum e) := by
  have hn : (env.enums.map EnumDef.key).Nodup := (List.nodup_append.1 hk.keys).1
  unfold heapBy
  rw [firstIdx_key hn he 0]
  simp

theorem heapBy_cls (hk : env.Ok) (opt : Nat → Bool) {c : Nat} {cd : ClassDef} (hc : env.classes[c]? = some cd) :
    heapBy env opt cd.key = some (classEntry env (opt c) c cd) := by
  have h1 := fullHeap_cls hk (opt c) hc
  unfold fullHeap at h1
  unfold heapBy
  cases he : firstIdx (fun e : EnumDef => e.key = cd.key) 0 env.enums with
  | some p =>
    rw [he] at h1
    simp only [classEntry] at h1
    split at h1 <;> simp at h1
  | none =>
    simp only
    obtain ⟨-, h2, -⟩ := List.nodup_append.1 hk.keys
    rw [firstIdx_key h2 hc 0]
    simp

/-! ### What is returned does not depend on the cache -/

theorem getCls_val {bld : Builder} {c : Nat} {H : Heap} {k : TKey} (h : (getCls env bld c H).1 = .ok k) :
    ∃ cd, env.classes[c]? = some cd ∧ k = cd.key := by
  unfold getCls at h
  cases hc : env.classes[c]? with
  | none => rw [hc] at h; cases h
  | some cd =>
    refine ⟨cd, rfl, ?_⟩
    simp only [hc] at h
    split at h
    · cases h; rfl
    · split at h
      · cases h; rfl
      · cases h

theorem getEnum_val {e : Nat} {H : Heap} {k : TKey} (h : (getEnum env e H).1 = .ok k) : ∃ ed, env.enums[e]? = some ed ∧ k = ed.key := by
  unfold getEnum at h
  cases hc : env.enums[e]? with
  | none => rw [hc] at h; cases h
  | some ed =>
    refine ⟨ed, rfl, ?_⟩
    simp only [hc] at h
    split at h <;> (cases h; rfl)

/-- Entries that a step may add: enumerations, and classes in `R`, which are complete if the step succeeds. -/
def NewEntry (env : Env) (skip : Bool) (R : Nat → Prop) (good : Prop) (k : TKey) (e : Entry) : Prop :=
  (∃ i ed, env.enums[i]? = some ed ∧ k = ed.key ∧ e = .enum i) ∨
  ∃ c cd, R c ∧ env.classes[c]? = some cd ∧ k = cd.key ∧ (good → e = classEntry env skip c cd)

theorem NewEntry.imp {skip : Bool} {R : Nat → Prop} {p q : Prop} {k : TKey} {e : Entry} (h : NewEntry env skip R p k e) (hq : q → p) :
    NewEntry env skip R q k e :=
  Or.imp id (fun ⟨c, cd, h1, h2, h3, h4⟩ => ⟨c, cd, h1, h2, h3, fun g => h4 (hq g)⟩) h

/-- A step adds such entries only. -/
def Enters (env : Env) (skip : Bool) (R : Nat → Prop) (H : Heap) (r : Res α × Heap) : Prop :=
  ∀ k e, r.2 k = some e → H k = some e ∨ NewEntry env skip R (∃ a, r.1 = .ok a) k e

variable {skip : Bool} {R : Nat → Prop}

theorem Enters.same {H : Heap} {r : Res α} : Enters env skip R H (r, H) := fun _ _ h => .inl h

theorem Enters.errOf {H H' : Heap} {r : Res α × Heap} {e : Err} (h : Enters env skip R H r) (hr : r = (.error e, H')) :
    Enters env skip R H ((.error e, H') : Res β × Heap) := by
  subst hr
  intro k x hx
  exact (h k x hx).imp id fun h => h.imp fun ⟨_, h⟩ => by cases h

theorem Enters.okOf {H H' : Heap} {r : Res α × Heap} {a : α} (h : Enters env skip R H r) (hr : r = (.ok a, H')) {r' : Res β × Heap}
    (h' : Enters env skip R H' r') : Enters env skip R H r' := by
  subst hr
  intro k x hx
  rcases h' k x hx with h1 | h1
  · exact (h k x h1).imp id fun h => h.imp fun _ => ⟨a, rfl⟩
  · exact .inr h1

/-- What is asked of the function that makes an entry for a class. -/
def EntersCls (env : Env) (skip : Bool) (R : Nat → Prop) (bld : Builder) : Prop :=
  ∀ c cd H, R c → env.classes[c]? = some cd → Enters env skip R H (bld c cd H)

variable {bld : Builder}

theorem getCls_enters (hb : EntersCls env skip R bld) {c : Nat} (hc : R c) (H : Heap) : Enters env skip R H (getCls env bld c H) := by
  unfold getCls
  cases hcd : env.classes[c]? with
  | none => exact .same
  | some cd =>
    simp only
    cases H cd.key with
    | some x => exact .same
    | none =>
      have h := hb c cd H hc hcd
      simp only
      rcases hr : bld c cd H with ⟨r, H'⟩
      cases r with
      | error e => exact h.errOf hr
      | ok a => exact h.okOf hr .same

theorem getEnum_enters (e : Nat) (H : Heap) : Enters env skip R H (getEnum env e H) := by
  unfold getEnum
  cases hed : env.enums[e]? with
  | none => exact .same
  | some ed =>
    simp only
    cases H ed.key with
    | some x => exact .same
    | none =>
      intro k x hx
      simp only [Heap.put] at hx
      split at hx
      · rename_i hk
        cases hx
        exact .inr (.inl ⟨e, ed, hed, hk, rfl⟩)
      · exact .inl hx

theorem buildTagsC_enters (hb : EntersCls env skip R bld) (items : List (Str × Lit × Ty)) (hit : ∀ e ∈ items, ∃ c, e.2.2 = .cls c ∧ R c)
    (table : List (Str × Lit × TKey)) (H : Heap) : Enters env skip R H (buildTagsC env bld table items H) := by
  induction items generalizing table H with
  | nil => exact .same
  | cons e r ih =>
    obtain ⟨p, l, t⟩ := e
    obtain ⟨c, he, hc⟩ := hit _ List.mem_cons_self
    simp only at he
    subst he
    simp only [buildTagsC]
    split
    · exact .same
    · have h := getCls_enters hb hc H
      simp only [getMember]
      rcases hr : getCls env bld c H with ⟨r', H'⟩
      cases r' with
      | error e => exact h.errOf hr
      | ok k => exact h.okOf hr (ih (fun e he => hit e (by simp [he])) _ H')

theorem getLit_enters (ls : List Lit) (H : Heap) : Enters env skip R H (getLit env ls H) := by
  cases ls with
  | nil => exact .same
  | cons l r =>
    simp only [getLit]
    split
    · split
      · rename_i e m _
        have h := getEnum_enters (env := env) (skip := skip) (R := R) e H
        rcases hr : getEnum env e H with ⟨r', H'⟩
        cases r' with
        | error e => exact h.errOf hr
        | ok k => exact h.okOf hr .same
      · split <;> exact .same
    · exact .same

mutual
theorem getWith_enters (hb : EntersCls env skip R bld) : ∀ (t : Ty) (H : Heap), t.Within R → Enters env skip R H (getWith env bld t H)
  | .none, _, _ | .bool, _, _ | .int, _, _ | .float, _, _ | .str, _, _ | .bytes, _, _ | .datetime, _, _ | .date, _, _ | .time, _, _
  | .timedelta, _, _ | .uuid, _, _ | .ipv4, _, _ | .ipv6, _, _ | .bareList, _, _ | .bareDict, _, _ | .bareSet, _, _
  | .bareTuple, _, _ => .same
  | .list t, H, hw => by
    have h := getWith_enters hb t H hw
    rcases hr : getWith env bld t H with ⟨r, H'⟩
    simp only [getWith, hr]
    cases r with
    | error e => exact h.errOf hr
    | ok d => exact h.okOf hr .same
  | .set t, H, hw => by
    have h := getWith_enters hb t H hw
    rcases hr : getWith env bld t H with ⟨r, H'⟩
    simp only [getWith, hr]
    cases r with
    | error e => exact h.errOf hr
    | ok d => exact h.okOf hr .same
  | .annotated t ms, H, hw => getWith_enters hb t H hw
  | .dict k t, H, hw => by
    simp only [getWith]
    split
    · exact .same
    · have h := getWith_enters hb t H hw
      rcases hr : getWith env bld t H with ⟨r, H'⟩
      cases r with
      | error e => exact h.errOf hr
      | ok d => exact h.okOf hr .same
  | .tuple ts, H, hw => by
    have h := getWithL_enters hb ts H hw
    rcases hr : getWithL env bld ts H with ⟨r, H'⟩
    simp only [getWith, hr]
    cases r with
    | error e => exact h.errOf hr
    | ok d => exact h.okOf hr .same
  | .union ts, H, hw => by
    simp only [getWith]
    split
    · have h := getWithL_enters hb ts H hw
      rcases hr : getWithL env bld ts H with ⟨r, H'⟩
      cases r with
      | error e => exact h.errOf hr
      | ok d => exact h.okOf hr .same
    · have h := buildTagsC_enters hb (tagTyItems env ts) (by
        intro e he
        obtain ⟨hm, c, hc⟩ := tagTyItems_cls he
        refine ⟨c, hc, ?_⟩
        have h1 := Ty.withinL_iff.1 hw _ hm
        rw [hc] at h1
        exact h1) [] H
      rcases hr : buildTagsC env bld [] (tagTyItems env ts) H with ⟨r, H'⟩
      cases r with
      | error e => exact h.errOf hr
      | ok d => exact h.okOf hr .same
  | .literal ls, H, _ => getLit_enters ls H
  | .enum e, H, _ => by
    have h := getEnum_enters (env := env) (skip := skip) (R := R) e H
    rcases hr : getEnum env e H with ⟨r, H'⟩
    simp only [getWith, hr]
    cases r with
    | error e => exact h.errOf hr
    | ok d => exact h.okOf hr .same
  | .cls c, H, hw => by
    have h := getCls_enters hb hw H
    rcases hr : getCls env bld c H with ⟨r, H'⟩
    simp only [getWith, hr]
    cases r with
    | error e => exact h.errOf hr
    | ok d => exact h.okOf hr .same
theorem getWithL_enters (hb : EntersCls env skip R bld) : ∀ (ts : List Ty) (H : Heap), Ty.WithinL R ts → Enters env skip R H (getWithL env bld ts H)
  | [], _, _ => .same
  | t :: ts, H, hw => by
    have h := getWith_enters hb t H hw.1
    rcases hr : getWith env bld t H with ⟨r, H'⟩
    simp only [getWithL, hr]
    cases r with
    | error e => exact h.errOf hr
    | ok d =>
      refine h.okOf hr ?_
      have h' := getWithL_enters hb ts H' hw.2
      rcases hr' : getWithL env bld ts H' with ⟨r', H''⟩
      simp only [hr']
      cases r' with
      | error e => exact h'.errOf hr'
      | ok ds => exact h'.okOf hr' .same
end

theorem getFields_enters (hb : EntersCls env skip R bld) (kind : ClassKind) : ∀ (fs : List FieldDef) (H : Heap),
    (∀ f ∈ fs, (fieldTy kind f).Within R) → Enters env skip R H (getFields env bld kind fs H)
  | [], _, _ => .same
  | f :: r, H, hw => by
    have h := getWith_enters hb (fieldTy kind f) H (hw f (by simp))
    rcases hr : getWith env bld (fieldTy kind f) H with ⟨r1, H'⟩
    simp only [getFields, hr]
    cases r1 with
    | error e => exact h.errOf hr
    | ok d =>
      refine h.okOf hr ?_
      have h' := getFields_enters hb kind r H' (fun f hf => hw f (by simp [hf]))
      rcases hr' : getFields env bld kind r H' with ⟨r', H''⟩
      simp only [hr']
      cases r' with
      | error e => exact h'.errOf hr'
      | ok fds => exact h'.okOf hr' .same

theorem buildTagsC_val (items : List (Str × Lit × Ty)) (hit : ∀ e ∈ items, ∃ c, e.2.2 = .cls c) (table : List (Str × Lit × TKey)) (H : Heap)
    {tb : List (Str × Lit × TKey)} (h : (buildTagsC env bld table items H).1 = .ok tb) :
    buildTags table (items.map (fun e => (e.1, e.2.1, tyKey env e.2.2))) = .ok tb := by
  induction items generalizing table H with
  | nil => exact h
  | cons e r ih =>
    obtain ⟨p, l, t⟩ := e
    obtain ⟨c, he⟩ := hit _ List.mem_cons_self
    simp only at he
    subst he
    simp only [buildTagsC] at h
    split at h
    · cases h
    · rename_i hdup
      simp only [getMember] at h
      rcases hr : getCls env bld c H with ⟨r', H'⟩
      rw [hr] at h
      cases r' with
      | error e => cases h
      | ok k =>
        obtain ⟨cd, hcd, rfl⟩ := getCls_val (env := env) (bld := bld) (c := c) (H := H) (k := k) (by rw [hr])
        have := ih (fun e he => hit e (by simp [he])) _ H' h
        simp only [List.map_cons, buildTags, tyKey, hcd, Option.map_some, addTag, if_neg hdup]
        exact this

theorem getLit_val {ls : List Lit} {H : Heap} {d : Deser} (h : (getLit env ls H).1 = .ok d) : compileLit env ls = .ok d := by
  cases ls with
  | nil => cases h
  | cons l r =>
    simp only [getLit] at h
    simp only [compileLit]
    split at h
    · rename_i hu
      simp only [hu, if_true]
      cases l with
      | enum e m =>
        simp only at h
        rcases hr : getEnum env e H with ⟨r', H'⟩
        rw [hr] at h
        cases r' with
        | error e => cases h
        | ok k =>
          obtain ⟨ed, hed, rfl⟩ := getEnum_val (env := env) (e := e) (H := H) (k := k) (by rw [hr])
          simp only [litDeser, tyKey, hed, Option.map_some]
          exact h
      | _ => exact h
    · cases h

mutual
/-- What `_get_deserializer` returns is the deserializer of the type, whatever the cache. -/
theorem getWith_val : ∀ (t : Ty) (H : Heap) {d : Deser}, (getWith env bld t H).1 = .ok d → compile env t = .ok d
  | .none, _, _, h | .bool, _, _, h | .int, _, _, h | .float, _, _, h | .str, _, _, h | .bytes, _, _, h | .datetime, _, _, h
  | .date, _, _, h | .time, _, _, h | .timedelta, _, _, h | .uuid, _, _, h | .ipv4, _, _, h | .ipv6, _, _, h => h
  | .bareList, _, _, h | .bareDict, _, _, h | .bareSet, _, _, h | .bareTuple, _, _, h => h
  | .list t, H, d, h => by
    have ih := fun d => getWith_val t H (d := d)
    rcases hr : getWith env bld t H with ⟨r, H'⟩
    simp only [getWith, hr] at h
    cases r with
    | error e => cases h
    | ok d' => simp only [compile, ih d' (by rw [hr])]; exact h
  | .set t, H, d, h => by
    have ih := fun d => getWith_val t H (d := d)
    rcases hr : getWith env bld t H with ⟨r, H'⟩
    simp only [getWith, hr] at h
    cases r with
    | error e => cases h
    | ok d' => simp only [compile, ih d' (by rw [hr])]; exact h
  | .annotated t ms, H, d, h => getWith_val t H h
  | .dict k t, H, d, h => by
    have ih := fun d => getWith_val t H (d := d)
    simp only [getWith] at h
    simp only [compile]
    cases hc : checkKeyTy env k with
    | error e => rw [hc] at h; cases h
    | ok u =>
      simp only [hc] at h ⊢
      rcases hr : getWith env bld t H with ⟨r, H'⟩
      rw [hr] at h
      cases r with
      | error e => cases h
      | ok d' => simp only [ih d' (by rw [hr])]; exact h
  | .tuple ts, H, d, h => by
    have ih := fun d => getWithL_val ts H (ds := d)
    rcases hr : getWithL env bld ts H with ⟨r, H'⟩
    simp only [getWith, hr] at h
    cases r with
    | error e => cases h
    | ok d' => simp only [compile, ih d' (by rw [hr])]; exact h
  | .union ts, H, d, h => by
    have ih := fun d => getWithL_val ts H (ds := d)
    simp only [getWith] at h
    simp only [compile]
    split at h
    · rename_i hp
      rw [if_pos hp]
      rcases hr : getWithL env bld ts H with ⟨r, H'⟩
      rw [hr] at h
      cases r with
      | error e => cases h
      | ok d' => simp only [ih d' (by rw [hr])]; exact h
    · rename_i hp
      rw [if_neg hp]
      rcases hr : buildTagsC env bld [] (tagTyItems env ts) H with ⟨r, H'⟩
      rw [hr] at h
      cases r with
      | error e => cases h
      | ok tb =>
        have := buildTagsC_val (env := env) (bld := bld) (tagTyItems env ts) (fun e he => (tagTyItems_cls he).2) [] H (tb := tb) (by rw [hr])
        rw [← tagItems_eq] at this
        simp only [this]
        exact h
  | .literal ls, H, d, h => getLit_val h
  | .enum e, H, d, h => by
    rcases hr : getEnum env e H with ⟨r, H'⟩
    simp only [getWith, hr] at h
    cases r with
    | error e => cases h
    | ok k =>
      obtain ⟨ed, hed, rfl⟩ := getEnum_val (env := env) (e := e) (H := H) (k := k) (by rw [hr])
      simp only [compile, tyKey, hed, Option.map_some]
      exact h
  | .cls c, H, d, h => by
    rcases hr : getCls env bld c H with ⟨r, H'⟩
    simp only [getWith, hr] at h
    cases r with
    | error e => cases h
    | ok k =>
      obtain ⟨cd, hcd, rfl⟩ := getCls_val (env := env) (bld := bld) (c := c) (H := H) (k := k) (by rw [hr])
      rw [compile_cls hcd]
      exact h
theorem getWithL_val : ∀ (ts : List Ty) (H : Heap) {ds : List Deser}, (getWithL env bld ts H).1 = .ok ds → compileL env ts = .ok ds
  | [], _, _, h => h
  | t :: ts, H, ds, h => by
    have ih := fun d => getWith_val t H (d := d)
    rcases hr : getWith env bld t H with ⟨r, H'⟩
    simp only [getWithL, hr] at h
    cases r with
    | error e => cases h
    | ok d =>
      have ih' := fun d => getWithL_val ts H' (ds := d)
      rcases hr' : getWithL env bld ts H' with ⟨r', H''⟩
      simp only [hr'] at h
      cases r' with
      | error e => cases h
      | ok ds' => simp only [compileL, ih d (by rw [hr]), ih' ds' (by rw [hr'])]; exact h
end

theorem getFields_val (kind : ClassKind) : ∀ (fs : List FieldDef) (H : Heap) {fds : List FieldD},
    (getFields env bld kind fs H).1 = .ok fds → mapRes (compileField env kind) fs = .ok fds
  | [], _, _, h => h
  | f :: r, H, fds, h => by
    rcases hr : getWith env bld (fieldTy kind f) H with ⟨r1, H'⟩
    simp only [getFields, hr] at h
    cases r1 with
    | error e => cases h
    | ok d =>
      rcases hr' : getFields env bld kind r H' with ⟨r', H''⟩
      simp only [hr'] at h
      cases r' with
      | error e => cases h
      | ok fds' =>
        have h1 := getWith_val (env := env) (bld := bld) (fieldTy kind f) H (d := d) (by rw [hr])
        have h2 := getFields_val kind r H' (fds := fds') (by rw [hr'])
        simp only [mapRes, compileField, h1, h2]
        exact h

theorem buildCls_enters (hR : ClosedClasses env R) (skip : Bool) : ∀ n, EntersCls env skip R (buildCls env skip n)
  | 0 => by
    intro c cd H hc hcd k e he
    unfold buildCls at he ⊢
    cases hcus : cd.custom with
    | true =>
      simp only [hcus, if_true, Heap.put] at he
      split at he
      · cases he
        exact .inr (.inr ⟨c, cd, hc, hcd, by assumption, fun _ => by simp [classEntry, hcus]⟩)
      · exact .inl he
    | false =>
      simp only [hcus, Bool.false_eq_true, if_false, Heap.put] at he
      split at he
      · exact .inr (.inr ⟨c, cd, hc, hcd, by assumption, fun ⟨_, h⟩ => by simp at h⟩)
      · exact .inl he
  | n + 1 => by
    intro c cd H hc hcd k e he
    unfold buildCls at he ⊢
    cases hcus : cd.custom with
    | true =>
      simp only [hcus, if_true, Heap.put] at he
      split at he
      · cases he
        exact .inr (.inr ⟨c, cd, hc, hcd, by assumption, fun _ => by simp [classEntry, hcus]⟩)
      · exact .inl he
    | false =>
      simp only [hcus, Bool.false_eq_true, if_false] at he ⊢
      have h := getFields_enters (buildCls_enters hR skip n) cd.kind cd.hints (H.put cd.key (.cls c skip none)) (hR c hc cd hcd hcus)
      rcases hr : getFields env (buildCls env skip n) cd.kind cd.hints (H.put cd.key (.cls c skip none)) with ⟨r, H'⟩
      rw [hr] at he h
      cases r with
      | error e' =>
        simp only at he
        rcases h k e he with h1 | h1
        · simp only [Heap.put] at h1
          split at h1
          · exact .inr (.inr ⟨c, cd, hc, hcd, by assumption, fun ⟨_, h⟩ => by simp at h⟩)
          · exact .inl h1
        · exact .inr (h1.imp fun ⟨_, h⟩ => by simp at h)
      | ok fds =>
        have hf : compileFields env cd = .ok fds :=
          getFields_val (env := env) (bld := buildCls env skip n) cd.kind cd.hints (H.put cd.key (.cls c skip none)) (by rw [hr])
        simp only [Heap.put] at he
        split at he
        · cases he
          exact .inr (.inr ⟨c, cd, hc, hcd, by assumption, fun _ => by simp [classEntry, hcus, hf]⟩)
        · rename_i hne
          rcases h k e he with h1 | h1
          · simp only [Heap.put, if_neg hne] at h1
            exact .inl h1
          · exact .inr (h1.imp fun _ => ⟨fds, rfl⟩)

/-! ### Histories -/

/-- The cache holds entries of enumerations, and complete entries of the classes in `D`, made with the options `opt`. -/
structure HoldsOpt (env : Env) (D : Nat → Prop) (opt : Nat → Bool) (H : Heap) : Prop where
  entry : ∀ k e, H k = some e → (∃ i ed, env.enums[i]? = some ed ∧ k = ed.key ∧ e = .enum i) ∨
    ∃ c cd, D c ∧ env.classes[c]? = some cd ∧ k = cd.key ∧ e = classEntry env (opt c) c cd
  dom : ∀ c cd, D c → env.classes[c]? = some cd → H.Dom cd.key

theorem holdsOpt_empty (opt : Nat → Bool) : HoldsOpt env (fun _ => False) opt Heap.empty :=
  ⟨fun _ _ h => (by cases h), fun _ _ h => h.elim⟩

open Classical in
/-- A call adds the classes that its type leads to, with its option. -/
theorem HoldsOpt.step {D : Nat → Prop} {opt : Nat → Bool} {H H' : Heap} (h : HoldsOpt env D opt H) {t : Ty} {d : Deser}
    (hr : getDeser env skip t H = (.ok d, H')) (hall : ∀ c, Reaches env t c → HasEntry env H' c) :
    HoldsOpt env (fun c => D c ∨ Reaches env t c) (fun c => if D c then opt c else skip) H' := by
  have hfr : ∀ k e, H k = some e → H' k = some e := by
    intro k e he
    have := getWith_frame (env := env) k e (buildCls_frame env skip env.classes.length) t H he
    unfold getDeser at hr
    rwa [hr] at this
  have hent : ∀ k e, H k = some e → (∃ i ed, env.enums[i]? = some ed ∧ k = ed.key ∧ e = .enum i) ∨
      ∃ c cd, (D c ∨ Reaches env t c) ∧ env.classes[c]? = some cd ∧ k = cd.key ∧ e = classEntry env (if D c then opt c else skip) c cd := by
    intro k e he
    rcases h.entry k e he with h1 | ⟨c, cd, h1, h2, h3, h4⟩
    · exact .inl h1
    · exact .inr ⟨c, cd, .inl h1, h2, h3, by rw [if_pos h1]; exact h4⟩
  refine ⟨fun k e he => ?_, fun c cd hc hcd => ?_⟩
  · have hadd := getWith_enters (buildCls_enters (reaches_closed env t) skip env.classes.length) t H (reaches_within env t)
    unfold getDeser at hr
    rw [hr] at hadd
    rcases hadd k e he with h1 | h1 | ⟨c, cd, h1, h2, rfl, h4⟩
    · exact hent k e h1
    · exact .inl h1
    · by_cases hD : D c
      · obtain ⟨e0, he0⟩ := Option.ne_none_iff_exists'.1 (h.dom c cd hD h2)
        have := hfr _ _ he0
        rw [he] at this
        cases this
        exact hent _ _ he0
      · exact .inr ⟨c, cd, .inr h1, h2, rfl, by rw [if_neg hD]; exact h4 ⟨d, rfl⟩⟩
  · rcases hc with hc | hc
    · obtain ⟨e0, he0⟩ := Option.ne_none_iff_exists'.1 (h.dom c cd hc hcd)
      simp [Heap.Dom, hfr _ _ he0]
    · obtain ⟨cd', hcd', hd⟩ := hall c hc
      rw [hcd] at hcd'; cases hcd'
      exact hd

/-- Reading with such a cache. -/
theorem HoldsOpt.parse (hk : env.Ok) {D : Nat → Prop} {opt : Nat → Bool} {H : Heap} (h : HoldsOpt env D opt H)
    (hC : Completed env (fun _ => False) H) {d : Deser} (hd : d.Refs H.Dom) (j : Json) : parse env H j d = parse env (heapBy env opt) j d := by
  refine parse_agree (S := H.Dom) ⟨fun k hk' => ?_, fun k hk' c s fds he fd hfd => ?_⟩ j d hd
  · obtain ⟨e, he⟩ := Option.ne_none_iff_exists'.1 hk'
    rcases h.entry k e he with ⟨i, ed, h1, rfl, rfl⟩ | ⟨c, cd, _, h2, rfl, rfl⟩
    · rw [he, heapBy_enum hk opt h1]
    · rw [he, heapBy_cls hk opt h2]
  · rcases h.entry k _ he with ⟨i, ed, h1, rfl, h2⟩ | ⟨c', cd, _, h2, rfl, h3⟩
    · cases h2
    · unfold classEntry at h3
      cases hcus : cd.custom with
      | true => simp [hcus] at h3
      | false =>
        simp only [hcus, Bool.false_eq_true, if_false, Entry.cls.injEq] at h3
        obtain ⟨rfl, _, h4⟩ := h3
        cases hf : compileFields env cd with
        | error e => rw [hf] at h4; cases h4
        | ok fds' =>
          rw [hf] at h4; cases h4
          obtain ⟨f, hfm, hfc⟩ := ((mapRes_ok_iff _ _ _).1 hf).mem_right hfd
          obtain ⟨d', h5, h6⟩ := (hC c cd h2 hk' hcus id f hfm).1
          simp only [compileField, h5] at hfc
          cases hfc
          exact h6

end
end Verif
