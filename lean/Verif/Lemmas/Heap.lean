import Verif.Lemmas.Deser2
/-!
# The full cache, and reading classes and enumerations through it
-/
namespace Verif

theorem firstIdx_none {p : α → Bool} {i : Nat} {l : List α} : firstIdx p i l = none ↔ ∀ x ∈ l, p x = false := by
  induction l generalizing i with
  | nil => simp [firstIdx]
  | cons a l ih =>
    simp only [firstIdx]
    split
    · rename_i h; simp [h]
    · rename_i h; rw [ih]; simp [h]

theorem firstIdx_key {f : α → TKey} {l : List α} (hn : (l.map f).Nodup) {i : Nat} {x : α} (hx : l[i]? = some x)
    (n : Nat) : firstIdx (fun a => f a = f x) n l = some (n + i, x) := by
  induction l generalizing i n with
  | nil => simp at hx
  | cons a l ih =>
    rw [List.map_cons, List.nodup_cons] at hn
    cases i with
    | zero => simp at hx; subst hx; simp [firstIdx]
    | succ i =>
      have hx' : l[i]? = some x := by simpa using hx
      have hne : f a ≠ f x := fun e => hn.1 (List.mem_map.2 ⟨x, List.mem_of_getElem? hx', e.symm⟩)
      simp only [firstIdx, hne, decide_false, Bool.false_eq_true, if_false]
      rw [ih hn.2 hx']
      simp; omega

theorem firstIdx_some {p : α → Bool} {n i : Nat} {l : List α} {x : α} (h : firstIdx p n l = some (i, x)) :
    n ≤ i ∧ l[i - n]? = some x ∧ p x = true := by
  induction l generalizing n with
  | nil => simp [firstIdx] at h
  | cons a l ih =>
    simp only [firstIdx] at h
    split at h
    · rename_i ha; cases h; simp [ha]
    · obtain ⟨h1, h2, h3⟩ := ih h
      refine ⟨by omega, ?_, h3⟩
      have : i - n = (i - (n + 1)) + 1 := by omega
      rw [this]; simpa using h2

theorem fullHeap_enum {env : Env} (hk : env.Ok) (skip : Bool) {e : Nat} {ed : EnumDef} (he : env.enums[e]? = some ed) :
    fullHeap env skip ed.key = some (.enum e) := by
  have hn : (env.enums.map EnumDef.key).Nodup := (List.nodup_append.1 hk.keys).1
  unfold fullHeap
  rw [firstIdx_key hn he 0]
  simp

theorem fullHeap_cls {env : Env} (hk : env.Ok) (skip : Bool) {c : Nat} {cd : ClassDef} (hc : env.classes[c]? = some cd) :
    fullHeap env skip cd.key = some (classEntry env skip c cd) := by
  obtain ⟨h1, h2, h3⟩ := List.nodup_append.1 hk.keys
  have he : firstIdx (fun e : EnumDef => e.key = cd.key) 0 env.enums = none := by
    rw [firstIdx_none]
    intro ed hed
    simp only [decide_eq_false_iff_not]
    exact h3 _ (List.mem_map.2 ⟨ed, hed, rfl⟩) _ (List.mem_map.2 ⟨cd, List.mem_of_getElem? hc, rfl⟩)
  unfold fullHeap
  rw [he]
  simp only
  rw [firstIdx_key h2 hc 0]
  simp

theorem loads_enum {env : Env} (hk : env.Ok) (skip : Bool) {e : Nat} {ed : EnumDef} (he : env.enums[e]? = some ed)
    (j : Json) : loads env skip (.enum e) j = enumLookup env e j := by
  have hc : compile env (.enum e) = .ok (.ref ed.key) := by simp [compile, tyKey, he]
  rw [loads_of_compile hc, parse_ref]
  simp [parseRef, fullHeap_enum hk skip he]

theorem compile_cls {env : Env} {c : Nat} {cd : ClassDef} (hc : env.classes[c]? = some cd) :
    compile env (.cls c) = .ok (.ref cd.key) := by simp [compile, tyKey, hc]

theorem loads_cls {env : Env} (hk : env.Ok) (skip : Bool) {c : Nat} {cd : ClassDef} (hc : env.classes[c]? = some cd)
    (hcu : cd.custom = false) {fds : List FieldD} (hf : compileFields env cd = .ok fds) (j : Json) :
    loads env skip (.cls c) j = parseCls env c skip (some fds) (kidsOf env (fullHeap env skip) j) := by
  rw [loads_of_compile (compile_cls hc), parse_ref]
  simp [parseRef, fullHeap_cls hk skip hc, classEntry, hcu, hf]

theorem loads_custom {env : Env} (hk : env.Ok) (skip : Bool) {c : Nat} {cd : ClassDef} (hc : env.classes[c]? = some cd)
    (hcu : cd.custom = true) {f : Json → Res Val} (hf : cd.fromJson = some f) (j : Json) :
    loads env skip (.cls c) j = f j := by
  rw [loads_of_compile (compile_cls hc), parse_ref]
  simp [parseRef, fullHeap_cls hk skip hc, classEntry, hcu, hc, hf]

end Verif
