import Verif.Model.Mapping
import Verif.Lemmas.DateTime
/-!
# C26: field names map to JSON property names without collisions

A legal Python field name is never a keyword; nothing else is needed of it.
-/
namespace Verif

/-- C26: an explicit alias always wins. -/
theorem C26_alias_wins (id a : Str) : fieldToProperty id (some a) = a := rfl

/-- C26: the only change made to a name without alias is the removal of one underscore that follows a keyword, and it is
made exactly in that case. -/
theorem C26_underscore_iff_keyword (id p : Str) :
    fieldToProperty id none = p ↔ (id = p ++ ['_'] ∧ p ∈ pyKeywords) ∨ (id = p ∧ ∀ k ∈ pyKeywords, id ≠ k ++ ['_']) := by
  have hstrip : ∀ k : Str, dropEnd 1 (k ++ ['_']) = k := fun k => dropEnd_append k ['_']
  constructor
  · intro h
    simp only [fieldToProperty] at h
    split at h
    · rename_i he
      obtain ⟨t, rfl⟩ := endsWith_eq he
      rw [hstrip] at h
      split at h
      · rename_i hk
        subst h
        exact Or.inl ⟨rfl, by simpa [isKeyword] using hk⟩
      · rename_i hk
        refine Or.inr ⟨h, ?_⟩
        intro k hk' e
        have := List.append_inj_left' e rfl
        subst this
        simp [isKeyword, hk'] at hk
    · rename_i he
      refine Or.inr ⟨h, ?_⟩
      rintro k _ rfl
      exact he (endsWith_append _ _)
  · rintro (⟨rfl, hk⟩ | ⟨rfl, hk⟩)
    · have : isKeyword p = true := by simpa [isKeyword] using hk
      simp [fieldToProperty, endsWith_append, hstrip, this]
    · simp only [fieldToProperty]
      split
      · rename_i he
        obtain ⟨t, rfl⟩ := endsWith_eq he
        rw [hstrip]
        rw [if_neg]
        intro h
        exact hk t (by simpa [isKeyword] using h) rfl
      · rfl

/-- C26: two distinct legal field names without alias never share a property name. -/
theorem C26_no_collision (a b : Str) (ha : a ∉ pyKeywords) (hb : b ∉ pyKeywords)
    (h : fieldToProperty a none = fieldToProperty b none) : a = b := by
  rcases (C26_underscore_iff_keyword a _).1 h with ⟨e1, k1⟩ | ⟨e1, n1⟩ <;>
    rcases (C26_underscore_iff_keyword b _).1 rfl with ⟨e2, k2⟩ | ⟨e2, n2⟩
  · rw [e1, ← e2]
  · rw [← e2] at k1; exact absurd k1 hb
  · rw [← e1] at k2; exact absurd k2 ha
  · rw [e1, ← e2]

/-! ### Examples -/

example : fieldToProperty c!"from_" none = c!"from" := by decide
example : fieldToProperty c!"match_" none = c!"match_" := by decide
example : fieldToProperty c!"in__" none = c!"in__" := by decide
example : fieldToProperty c!"value" none = c!"value" := by decide
example : c!"from_" ∉ pyKeywords ∧ c!"value_" ∉ pyKeywords := by decide

/-- The premise is needed: an illegal field name that is a keyword would collide with its escaped form. -/
example : fieldToProperty c!"in" none = fieldToProperty c!"in_" none := by decide

end Verif
