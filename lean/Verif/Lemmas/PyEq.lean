import Verif.Model.Core
/-!
# `==` on scalars is a partial equivalence
-/
namespace Verif

theorem floatEq_symm (f g : PyFloat) : floatEq f g = floatEq g f := by
  cases f <;> cases g <;> simp only [floatEq]
  · simp [eq_comm]
  · rename_i a m e b n k
    rw [Bool.eq_iff_iff]
    simp only [Bool.or_eq_true, Bool.and_eq_true, decide_eq_true_eq]
    constructor <;> rintro (⟨rfl, rfl⟩ | ⟨⟨rfl, rfl⟩, rfl⟩) <;> simp

theorem Scalar.pyEq_symm (a b : Scalar) : a.pyEq b = b.pyEq a := by
  cases a <;> cases b <;> simp only [Scalar.pyEq, Scalar.asInt] <;>
    first
    | rfl
    | exact floatEq_symm _ _
    | (rw [Bool.eq_iff_iff]; simp only [decide_eq_true_eq]; exact ⟨Eq.symm, Eq.symm⟩)

theorem Scalar.pyEq_refl (a : Scalar) (h : a ≠ .float .nan) : a.pyEq a = true := by
  cases a <;> simp [Scalar.pyEq, Scalar.asInt]
  rename_i f
  cases f <;> simp_all [floatEq]

theorem floatEqInt_inj {f : PyFloat} {i k : Int} (h : floatEqInt f i = true) (h' : floatEqInt f k = true) : i = k := by
  cases f <;> simp only [floatEqInt] at h h' <;> try contradiction
  split at h
  · rename_i hm; rw [if_pos hm] at h'; simp at h h'; omega
  · rename_i hm
    rw [if_neg hm] at h'
    split at h
    · contradiction
    · rename_i he
      rw [if_neg he] at h'
      simp only [decide_eq_true_eq] at h h'
      rw [← h, ← h']

/-- Two scalars that are not floats and equal a third scalar are equal. -/
theorem Scalar.pyEq_join {a b c : Scalar} (ha : ∀ f, a ≠ .float f) (hb : ∀ f, b ≠ .float f) (h1 : a.pyEq c = true)
    (h2 : b.pyEq c = true) : a.pyEq b = true := by
  cases a with
  | float f => exact absurd rfl (ha f)
  | none => cases b <;> cases c <;> simp_all [Scalar.pyEq, Scalar.asInt]
  | str s => cases b <;> cases c <;> simp_all [Scalar.pyEq, Scalar.asInt]
  | bool x =>
    cases b with
    | float f => exact absurd rfl (hb f)
    | none => cases c <;> simp_all [Scalar.pyEq, Scalar.asInt]
    | str s => cases c <;> simp_all [Scalar.pyEq, Scalar.asInt]
    | bool y =>
      cases c <;> simp_all [Scalar.pyEq, Scalar.asInt]
      exact floatEqInt_inj h1 h2
    | int y =>
      cases c <;> simp_all [Scalar.pyEq, Scalar.asInt]
      exact floatEqInt_inj h1 h2
  | int x =>
    cases b with
    | float f => exact absurd rfl (hb f)
    | none => cases c <;> simp_all [Scalar.pyEq, Scalar.asInt]
    | str s => cases c <;> simp_all [Scalar.pyEq, Scalar.asInt]
    | bool y =>
      cases c <;> simp_all [Scalar.pyEq, Scalar.asInt]
      exact floatEqInt_inj h1 h2
    | int y =>
      cases c <;> simp_all [Scalar.pyEq, Scalar.asInt]
      exact floatEqInt_inj h1 h2

theorem Lit.scalar_not_float {l : Lit} {s : Scalar} (h : l.scalar = some s) (f : PyFloat) : s ≠ .float f := by
  cases l <;> simp [Lit.scalar] at h <;> subst h <;> simp

/-- Two literals that equal the same JSON value are equal. -/
theorem Lit.eqJson_join {a b : Lit} {j : Json} (h1 : a.eqJson j = true) (h2 : b.eqJson j = true) : a.pyEq b = true := by
  unfold Lit.eqJson at h1 h2
  unfold Lit.pyEq
  cases hj : j.scalar with
  | none => rw [hj] at h1; cases h : a.scalar <;> simp [h] at h1
  | some s =>
    rw [hj] at h1 h2
    cases ha : a.scalar with
    | none => simp [ha] at h1
    | some x =>
      cases hb : b.scalar with
      | none => simp [hb] at h2
      | some y =>
        simp only [ha] at h1
        simp only [hb] at h2
        simp only
        exact Scalar.pyEq_join (Lit.scalar_not_float ha) (Lit.scalar_not_float hb) h1 h2

end Verif
