import Verif.Spec.JsonSchema
import Verif.Lemmas.Core
/-!
# Lemmas on schema validation
-/
namespace Verif

/-- Whatever the first validator decides, the second one decides alike. -/
def RecLe (f g : Json → Json → Option Bool) : Prop := ∀ s v b, f s v = some b → g s v = some b

theorem allO_true_iff {l : List (Option Bool)} : allO l = some true ↔ ∀ o ∈ l, o = some true := by
  induction l with
  | nil => simp [allO]
  | cons o os ih =>
    simp only [allO, List.mem_cons, forall_eq_or_imp, ← ih]
    cases o <;> cases allO os <;> simp

theorem allO_false_iff {l : List (Option Bool)} : allO l = some false ↔ (∀ o ∈ l, o ≠ none) ∧ some false ∈ l := by
  induction l with
  | nil => simp [allO]
  | cons o os ih =>
    have h : ∀ b, allO os = some b → ∀ o ∈ os, o ≠ none := by
      intro b hb
      cases b with
      | true => rw [allO_true_iff] at hb; intro o ho; simp [hb o ho]
      | false => exact (ih.1 hb).1
    have hn : allO os = none → ∃ o ∈ os, o = none := by
      intro hn
      apply Classical.byContradiction
      intro hc
      have : ∀ o ∈ os, o ≠ none := by intro o ho e; exact hc ⟨o, ho, e⟩
      by_cases hf : some false ∈ os
      · rw [ih.2 ⟨this, hf⟩] at hn; cases hn
      · have : allO os = some true := allO_true_iff.2 (by
          intro o ho
          cases o with
          | none => exact absurd rfl (this _ ho)
          | some b => cases b with | true => rfl | false => exact absurd ho hf)
        rw [this] at hn; cases hn
    simp only [allO, List.mem_cons, forall_eq_or_imp]
    cases o with
    | none => simp
    | some a =>
      cases e : allO os with
      | none =>
        obtain ⟨o, ho, rfl⟩ := hn e
        simp only [reduceCtorEq, false_iff]
        rintro ⟨⟨_, h1⟩, _⟩
        exact h1 _ ho rfl
      | some b =>
        have h1 := h b e
        cases b with
        | true =>
          rw [allO_true_iff] at e
          cases a with
          | false => simp; intro o ho; exact h1 _ ho
          | true =>
            simp
            intro _ hf
            exact absurd (e _ hf) (by simp)
        | false =>
          rw [ih] at e
          simp only [Bool.and_false, true_iff]
          exact ⟨⟨by simp, h1⟩, Or.inr e.2⟩

theorem allO_map_mono {f g : α → Option Bool} {l : List α} (h : ∀ x ∈ l, ∀ b, f x = some b → g x = some b) :
    ∀ b, allO (l.map f) = some b → allO (l.map g) = some b := by
  induction l with
  | nil => intro b hb; exact hb
  | cons x xs ih =>
    intro b
    simp only [List.map_cons, allO]
    cases ef : f x with
    | none => simp
    | some a =>
      cases el : allO (xs.map f) with
      | none => simp
      | some c =>
        rw [h x (by simp) a ef, ih (fun y hy => h y (by simp [hy])) c el]
        exact id

theorem countO_map_mono {f g : α → Option Bool} {l : List α} (h : ∀ x ∈ l, ∀ b, f x = some b → g x = some b) :
    ∀ n, countO (l.map f) = some n → countO (l.map g) = some n := by
  induction l with
  | nil => intro b hb; exact hb
  | cons x xs ih =>
    intro n
    simp only [List.map_cons, countO]
    cases ef : f x with
    | none => simp
    | some a =>
      cases el : countO (xs.map f) with
      | none => simp
      | some c =>
        rw [h x (by simp) a ef, ih (fun y hy => h y (by simp [hy])) c el]
        exact id

theorem keywordCheck_mono {vc : ValidatorCfg} {root : Json} {f g : Json → Json → Option Bool} (h : RecLe f g)
    (s : List (Str × Json)) (k : Keyword) (a v : Json) (b : Bool) :
    keywordCheck vc root f s k a v = some b → keywordCheck vc root g s k a v = some b := by
  cases k with
  | oneOf =>
    cases a with
    | arr ss =>
      simp only [keywordCheck]
      cases e : countO (ss.map fun s => f s v) with
      | none => simp
      | some n => rw [countO_map_mono (fun s _ b => h s v b) n e]; exact id
    | _ => exact id
  | ref =>
    cases a with
    | str r =>
      simp only [keywordCheck]
      cases resolveRef root r with
      | none => exact id
      | some s => exact h s v b
    | _ => exact id
  | items =>
    cases v with
    | arr xs => exact allO_map_mono (fun x _ => h a x) b
    | _ => exact id
  | prefixItems =>
    cases a with
    | arr ss =>
      cases v with
      | arr xs => exact allO_map_mono (fun x _ => h x.1 x.2) b
      | _ => exact id
    | _ => exact id
  | properties =>
    cases a with
    | obj ps =>
      cases v with
      | obj kvs =>
        refine allO_map_mono (fun p _ => ?_) b
        cases lookupKey p.1 kvs with
        | none => exact fun b => id
        | some x => exact h p.2 x
      | _ => exact id
    | _ => exact id
  | additionalProperties =>
    cases v with
    | obj kvs => exact allO_map_mono (fun kv _ => h a kv.2) b
    | _ => exact id
  | propertyNames =>
    cases v with
    | obj kvs => exact allO_map_mono (fun kv _ => h a (.str kv.1)) b
    | _ => exact id
  | _ => exact id

theorem validate_succ {vc : ValidatorCfg} {root : Json} (n : Nat) :
    RecLe (validate vc root n) (validate vc root (n + 1)) := by
  induction n with
  | zero => intro s v b h; simp [validate] at h
  | succ n ih =>
    intro s v b h
    cases s with
    | obj s => exact allO_map_mono (fun ka _ b => keywordCheck_mono ih s (keywordOf ka.1) ka.2 v b) b h
    | _ => exact h

theorem validate_mono {vc : ValidatorCfg} {root : Json} {n m : Nat} (hnm : n ≤ m) :
    RecLe (validate vc root n) (validate vc root m) := by
  induction hnm with
  | refl => intro s v b h; exact h
  | step _ ih => intro s v b h; exact validate_succ _ s v b (ih s v b h)

theorem Validates.not_rejects {vc : ValidatorCfg} {root s v : Json} (h : Validates vc root s v) : ¬ Rejects vc root s v := by
  rintro ⟨m, hm⟩
  obtain ⟨n, hn⟩ := h
  have h1 := validate_mono (Nat.le_max_left n m) _ _ _ hn
  rw [validate_mono (Nat.le_max_right n m) _ _ _ hm] at h1
  cases h1

/-- The check for a keyword succeeds with enough nesting. -/
def KwOk (vc : ValidatorCfg) (root : Json) (s : List (Str × Json)) (k : Str) (a v : Json) : Prop :=
  ∃ n, keywordCheck vc root (validate vc root n) s (keywordOf k) a v = some true

/-- The check for a keyword is decided with enough nesting. -/
def KwDone (vc : ValidatorCfg) (root : Json) (s : List (Str × Json)) (k : Str) (a v : Json) : Prop :=
  ∃ n b, keywordCheck vc root (validate vc root n) s (keywordOf k) a v = some b

/-- A list of conditions that hold eventually holds eventually as a whole. -/
theorem eventually_all {P : α → Nat → Prop} (hm : ∀ x n m, n ≤ m → P x n → P x m) (l : List α)
    (h : ∀ x ∈ l, ∃ n, P x n) : ∃ n, ∀ x ∈ l, P x n := by
  induction l with
  | nil => exact ⟨0, by simp⟩
  | cons x xs ih =>
    obtain ⟨n, hn⟩ := h x (by simp)
    obtain ⟨m, hm'⟩ := ih (fun y hy => h y (by simp [hy]))
    refine ⟨max n m, ?_⟩
    intro y hy
    rcases List.mem_cons.1 hy with rfl | hy
    · exact hm _ _ _ (Nat.le_max_left _ _) hn
    · exact hm _ _ _ (Nat.le_max_right _ _) (hm' y hy)

theorem validates_obj_iff {vc : ValidatorCfg} {root v : Json} {s : List (Str × Json)} :
    Validates vc root (.obj s) v ↔ ∀ ka ∈ s, KwOk vc root s ka.1 ka.2 v := by
  constructor
  · rintro ⟨n, hn⟩ ka hka
    cases n with
    | zero => simp [validate] at hn
    | succ n =>
      simp only [validate, allO_true_iff, List.mem_map] at hn
      exact ⟨n, hn _ ⟨ka, hka, rfl⟩⟩
  · intro h
    obtain ⟨n, hn⟩ := eventually_all (P := fun (ka : Str × Json) n => keywordCheck vc root (validate vc root n) s (keywordOf ka.1) ka.2 v = some true)
      (fun ka n m hnm => keywordCheck_mono (validate_mono hnm) _ _ _ _ _) s h
    refine ⟨n + 1, ?_⟩
    simp only [validate, allO_true_iff, List.mem_map]
    rintro o ⟨ka, hka, rfl⟩
    exact hn ka hka

theorem rejects_obj {vc : ValidatorCfg} {root v : Json} {s : List (Str × Json)} (hd : ∀ ka ∈ s, KwDone vc root s ka.1 ka.2 v)
    {k : Str} {a : Json} (hk : (k, a) ∈ s) {n : Nat} (hf : keywordCheck vc root (validate vc root n) s (keywordOf k) a v = some false) :
    Rejects vc root (.obj s) v := by
  obtain ⟨m, hm⟩ := eventually_all
    (P := fun (ka : Str × Json) n => ∃ b, keywordCheck vc root (validate vc root n) s (keywordOf ka.1) ka.2 v = some b)
    (fun ka n m hnm ⟨b, h⟩ => ⟨b, keywordCheck_mono (validate_mono hnm) _ _ _ _ _ h⟩) s hd
  refine ⟨max n m + 1, ?_⟩
  simp only [validate, allO_false_iff, List.mem_map]
  refine ⟨?_, ⟨(k, a), hk, keywordCheck_mono (validate_mono (Nat.le_max_left n m)) _ _ _ _ _ hf⟩⟩
  rintro o ⟨ka, hka, rfl⟩
  obtain ⟨b, hb⟩ := hm ka hka
  rw [keywordCheck_mono (validate_mono (Nat.le_max_right n m)) _ _ _ _ _ hb]
  simp

end Verif
