import Verif.Model.StrOps
import Verif.Lemmas.Digits
/-! Lemmas on the string operations. -/
namespace Verif

theorem removeSubGo_of_not_mem (pat : Str) (x : Char) (hx : x ∈ pat) :
    ∀ s : Str, x ∉ s → removeSubGo pat 0 s = s := by
  intro s
  induction s with
  | nil => intro _; rfl
  | cons c r ih =>
    intro h
    have h1 : pat.isPrefixOf (c :: r) = false := by
      cases hp : pat.isPrefixOf (c :: r) with
      | false => rfl
      | true =>
        rw [List.isPrefixOf_iff_prefix] at hp
        exact absurd (hp.subset hx) h
    have h2 : x ∉ r := fun hr => h (List.mem_cons_of_mem _ hr)
    simp [removeSubGo, h1, ih h2]

theorem removeSub_of_not_mem (pat s : Str) (x : Char) (hx : x ∈ pat) (h : x ∉ s) : removeSub pat s = s :=
  removeSubGo_of_not_mem pat x hx s h

theorem dropWhile_of_all_not {p : Char → Bool} {s : Str} (h : ∀ c ∈ s, p c = false) : s.dropWhile p = s := by
  cases s with
  | nil => rfl
  | cons c r => simp [h c (by simp)]

theorem stripBy_of_all_not {p : Char → Bool} {s : Str} (h : ∀ c ∈ s, p c = false) : stripBy p s = s := by
  unfold stripBy
  rw [dropWhile_of_all_not h, dropWhile_of_all_not (by simpa using h), List.reverse_reverse]

theorem stripBy_sublist (p : Char → Bool) (s : Str) : (stripBy p s).Sublist s := by
  unfold stripBy
  have h1 := List.dropWhile_sublist p (l := s)
  have h2 := (List.dropWhile_sublist p (l := (s.dropWhile p).reverse)).reverse
  rw [List.reverse_reverse] at h2
  exact h2.trans h1

theorem splitOn_ne_nil (c : Char) (s : Str) : splitOn c s ≠ [] := by
  cases s with
  | nil => simp [splitOn]
  | cons x r => unfold splitOn; split <;> (try split) <;> simp

theorem splitOn_append_sep (c : Char) (p s : Str) (h : c ∉ p) : splitOn c (p ++ c :: s) = p :: splitOn c s := by
  induction p with
  | nil => simp [splitOn]
  | cons x p ih =>
    have hx : x ≠ c := fun e => h (by simp [e])
    have hp : c ∉ p := fun e => h (by simp [e])
    simp [splitOn, hx, ih hp]

theorem splitOn_no_sep (c : Char) (p : Str) (h : c ∉ p) : splitOn c p = [p] := by
  induction p with
  | nil => simp [splitOn]
  | cons x p ih =>
    have hx : x ≠ c := fun e => h (by simp [e])
    have hp : c ∉ p := fun e => h (by simp [e])
    simp [splitOn, hx, ih hp]

/-- Splitting undoes joining when no part contains the separator. -/
theorem splitOn_joinWith (c : Char) : ∀ parts : List Str, parts ≠ [] → (∀ p ∈ parts, c ∉ p) →
    splitOn c (joinWith c parts) = parts
  | [], h, _ => absurd rfl h
  | [p], _, hp => by simpa [joinWith] using splitOn_no_sep c p (hp p (by simp))
  | p :: q :: ps, _, hp => by
    have ih := splitOn_joinWith c (q :: ps) (by simp) (fun r hr => hp r (by simp [hr]))
    rw [joinWith, splitOn_append_sep c p _ (hp p (by simp)), ih]

theorem mem_joinWith (c x : Char) : ∀ parts : List Str, x ∈ joinWith c parts → x = c ∨ ∃ p ∈ parts, x ∈ p
  | [], h => by simp [joinWith] at h
  | [p], h => Or.inr ⟨p, by simp, h⟩
  | p :: q :: ps, h => by
    simp only [joinWith, List.mem_append, List.mem_cons] at h
    rcases h with h | h | h
    · exact Or.inr ⟨p, by simp, h⟩
    · exact Or.inl h
    · rcases mem_joinWith c x (q :: ps) h with h | ⟨r, hr, hx⟩
      · exact Or.inl h
      · exact Or.inr ⟨r, by simp at hr ⊢; exact Or.inr hr, hx⟩

/-- Joining undoes splitting. -/
theorem joinWith_splitOn (c : Char) (s : Str) : joinWith c (splitOn c s) = s := by
  induction s with
  | nil => simp [splitOn, joinWith]
  | cons x r ih =>
    unfold splitOn
    split
    · rename_i h; subst h
      cases h2 : splitOn x r with
      | nil => exact absurd h2 (splitOn_ne_nil _ _)
      | cons p ps => rw [joinWith, ← h2, ih]; rfl
    · split
      · rename_i h2; exact absurd h2 (splitOn_ne_nil _ _)
      · rename_i p ps h2
        rw [h2] at ih
        cases ps with
        | nil => simp [joinWith] at ih ⊢; exact ih
        | cons q ps => simp only [joinWith, List.cons_append] at ih ⊢; rw [ih]

end Verif
