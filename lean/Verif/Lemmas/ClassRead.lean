import Verif.Lemmas.Heap
import Verif.Spec.ClassRead
/-!
# Reading a class equals reading its fields
-/
namespace Verif

theorem compileFields_of {env : Env} {cd : ClassDef} (h : ∀ f ∈ cd.hints, Supported env (fieldTy cd.kind f)) :
    ∃ fds, compileFields env cd = .ok fds ∧
      All2 (fun f fd => ∃ d, compile env (fieldTy cd.kind f) = .ok d ∧
        fd = ⟨fieldProp cd.kind f, f.name, d, fieldMode cd.kind f⟩) cd.hints fds := by
  unfold compileFields
  generalize cd.hints = hs at h
  induction hs with
  | nil => exact ⟨[], rfl, .nil⟩
  | cons f hs ih =>
    obtain ⟨d, hd⟩ := h f (by simp)
    obtain ⟨fds, h1, h2⟩ := ih (fun f hf => h f (by simp [hf]))
    exact ⟨⟨fieldProp cd.kind f, f.name, d, fieldMode cd.kind f⟩ :: fds, by simp [mapRes, compileField, hd, h1],
      .cons ⟨d, hd, rfl⟩ h2⟩

theorem supported_of_compileFields {env : Env} {cd : ClassDef} {fds : List FieldD} (h : compileFields env cd = .ok fds) :
    ∀ f ∈ cd.hints, Supported env (fieldTy cd.kind f) := by
  intro f hf
  obtain ⟨fd, _, h2⟩ := ((mapRes_ok_iff _ _ _).1 h).mem_left hf
  unfold compileField at h2
  split at h2
  · rename_i d hd; exact ⟨d, hd⟩
  · cases h2

theorem parseField_eq {env : Env} {skip : Bool} {kind : ClassKind} {f : FieldDef} {d : Deser} {kvs : List (Str × Json)}
    (hd : compile env (fieldTy kind f) = .ok d) :
    parseField (kvs.map (fun p => (p.1, p.2, parse env (fullHeap env skip) p.2)))
      ⟨fieldProp kind f, f.name, d, fieldMode kind f⟩ = readField env skip kind f kvs := by
  unfold parseField readField
  simp only [lookup_kids]
  have hmode : fieldMode kind f = .required ∧ absentValue kind f = none ∨
      fieldMode kind f = .optional ∧ absentValue kind f = some .none ∨
      ∃ v, (fieldMode kind f = .dflt v ∨ fieldMode kind f = .factory v) ∧ absentValue kind f = some v := by
    unfold fieldMode absentValue
    cases kind with
    | dataclass fr =>
      cases f.dflt with
      | missing => cases f.ty.isOptional <;> simp
      | value v => simp
      | factory v => simp
    | namedTuple t => simp
    | plain => cases f.ty.isOptional <;> simp
  have hx : ∀ x, loads env skip (fieldTy kind f) x = parse env (fullHeap env skip) x d := loads_of_compile hd
  cases lookupKey (fieldProp kind f) kvs with
  | none =>
    rcases hmode with ⟨h1, h2⟩ | ⟨h1, h2⟩ | ⟨v, h1 | h1, h2⟩ <;> simp [h1, h2]
  | some x =>
    cases x <;> rcases hmode with ⟨h1, h2⟩ | ⟨h1, h2⟩ | ⟨v, h1 | h1, h2⟩ <;> simp [h1, h2, Json.isNull, hx]

/-- Reading a class: all fields in order of definition, then the check for unknown properties. -/
theorem loads_cls_obj {env : Env} (hk : env.Ok) (skip : Bool) {c : Nat} {cd : ClassDef} (hr : Readable env c cd)
    (kvs : List (Str × Json)) :
    loads env skip (.cls c) (.obj kvs) =
      match mapRes (readNamed env skip cd.kind kvs) cd.hints with
      | .error e => .error e
      | .ok vs =>
        if skip = true ∨ ∀ kv ∈ kvs, ∃ f ∈ cd.hints, fieldProp cd.kind f = kv.1 then .ok (.obj c vs)
        else .error .jsonKey := by
  obtain ⟨fds, h1, h2⟩ := compileFields_of hr.fields
  rw [loads_cls hk skip hr.cls hr.standard h1]
  simp only [kidsOf, parseCls]
  have hm : parseFields (kvs.map (fun p => (p.1, p.2, parse env (fullHeap env skip) p.2))) fds =
      mapRes (readNamed env skip cd.kind kvs) cd.hints := by
    clear h1
    unfold parseFields
    generalize cd.hints = hs at h2
    induction h2 with
    | nil => rfl
    | cons h _ ih =>
      obtain ⟨d, hd, rfl⟩ := h
      simp only [mapRes, parseField_eq hd, ih, readNamed]
      rfl
  have hall : ((kvs.map (fun p => (p.1, p.2, parse env (fullHeap env skip) p.2))).all
        (fun p => fds.any (fun fd => fd.prop = p.1))) = true ↔
      ∀ kv ∈ kvs, ∃ f ∈ cd.hints, fieldProp cd.kind f = kv.1 := by
    simp only [List.all_map, List.all_eq_true, List.any_eq_true, Function.comp, decide_eq_true_eq]
    constructor
    · intro h kv hkv
      obtain ⟨fd, hfd, he⟩ := h kv hkv
      obtain ⟨f, hf, d, _, rfl⟩ := h2.mem_right hfd
      exact ⟨f, hf, he⟩
    · intro h kv hkv
      obtain ⟨f, hf, he⟩ := h kv hkv
      obtain ⟨fd, hfd, d, _, rfl⟩ := h2.mem_left hf
      exact ⟨_, hfd, he⟩
  have hcreate : ∀ vs, createObj env c vs = .ok (.obj c vs) := by
    intro vs
    simp only [createObj, hr.cls]
    rw [if_neg]
    rintro ⟨hkind, hne⟩
    rw [hr.typed hkind] at hne; simp at hne
  rw [hm]
  cases mapRes (readNamed env skip cd.kind kvs) cd.hints with
  | error e => rfl
  | ok vs =>
    simp only
    rw [hcreate]
    by_cases hcond : skip = true ∨ ∀ kv ∈ kvs, ∃ f ∈ cd.hints, fieldProp cd.kind f = kv.1
    · rw [if_pos hcond, if_pos]
      rw [Bool.or_eq_true, hall]; exact hcond
    · rw [if_neg hcond, if_neg]
      rw [Bool.or_eq_true, hall]; exact hcond

theorem loads_cls_not_obj {env : Env} (hk : env.Ok) (skip : Bool) {c : Nat} {cd : ClassDef} (hr : Readable env c cd)
    (j : Json) (hj : ∀ kvs, j ≠ .obj kvs) : loads env skip (.cls c) j = .error .jsonType := by
  obtain ⟨fds, h1, _⟩ := compileFields_of hr.fields
  rw [loads_cls hk skip hr.cls hr.standard h1]
  cases j <;> first | rfl | exact absurd rfl (hj _)

theorem loads_cls_ok_iff {env : Env} (hk : env.Ok) (skip : Bool) {c : Nat} {cd : ClassDef} (hr : Readable env c cd)
    (j : Json) (v : Val) :
    loads env skip (.cls c) j = .ok v ↔
      ∃ kvs vs, j = .obj kvs ∧ v = .obj c vs ∧
        All2 (fun f w => w.1 = f.name ∧ readField env skip cd.kind f kvs = .ok w.2) cd.hints vs ∧
        (skip = true ∨ OnlyKnown cd kvs) := by
  by_cases hj : ∃ kvs, j = .obj kvs
  · obtain ⟨kvs, rfl⟩ := hj
    rw [loads_cls_obj hk skip hr]
    have hconv : ∀ f (w : Str × Val), readNamed env skip cd.kind kvs f = Except.ok w ↔
        w.1 = f.name ∧ readField env skip cd.kind f kvs = .ok w.2 := by
      intro f w
      obtain ⟨a, b⟩ := w
      unfold readNamed
      cases readField env skip cd.kind f kvs <;> simp [eq_comm]
    constructor
    · intro h
      split at h
      · cases h
      · rename_i vs hvs
        have ha := (mapRes_ok_iff _ _ _).1 hvs
        split at h
        · rename_i hc; cases h
          exact ⟨kvs, vs, rfl, rfl, ha.imp (fun f w h => (hconv f w).1 h), hc⟩
        · cases h
    · rintro ⟨kvs', vs, he, rfl, ha, hc⟩
      cases he
      rw [(mapRes_ok_iff _ _ _).2 (ha.imp (fun f w h => (hconv f w).2 h))]
      have hc' : skip = true ∨ ∀ kv ∈ kvs, ∃ f ∈ cd.hints, fieldProp cd.kind f = kv.1 := hc
      simp only
      rw [if_pos hc']
  · rw [loads_cls_not_obj hk skip hr j (fun kvs h => hj ⟨kvs, h⟩)]
    constructor
    · intro h; cases h
    · rintro ⟨kvs, _, rfl, _⟩; exact absurd ⟨kvs, rfl⟩ hj

end Verif
