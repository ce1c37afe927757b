import Verif.Model.Core
import Verif.Spec.All2
/-!
# Lemmas about `mapRes`, `lookupKey`, `upsert`
-/
namespace Verif

theorem mapRes_ok_iff (f : α → Res β) (xs : List α) (ys : List β) :
    mapRes f xs = .ok ys ↔ All2 (fun x y => f x = .ok y) xs ys := by
  induction xs generalizing ys with
  | nil =>
    constructor
    · intro h; cases h; exact .nil
    · intro h; cases h; rfl
  | cons x xs ih =>
    constructor
    · intro h
      simp only [mapRes] at h
      split at h
      · cases h
      · rename_i y hy
        split at h
        · cases h
        · rename_i ys' hys
          cases h
          exact .cons hy ((ih _).1 hys)
    · intro h
      cases h with
      | cons h1 h2 => simp [mapRes, h1, (ih _).2 h2]

/-- The error of the first element that fails. -/
theorem mapRes_error_iff (f : α → Res β) (xs : List α) (e : Err) :
    mapRes f xs = .error e ↔ ∃ pre x post, xs = pre ++ x :: post ∧ f x = .error e ∧ ∀ y ∈ pre, ∃ b, f y = .ok b := by
  induction xs with
  | nil => simp [mapRes]
  | cons x xs ih =>
    constructor
    · intro h
      simp only [mapRes] at h
      split at h
      · rename_i e' hx
        cases h
        exact ⟨[], x, xs, rfl, hx, by simp⟩
      · rename_i y hy
        split at h
        · rename_i e' hxs
          cases h
          obtain ⟨pre, z, post, rfl, hz, hp⟩ := ih.1 hxs
          exact ⟨x :: pre, z, post, rfl, hz, by
            intro w hw
            rcases List.mem_cons.1 hw with rfl | hw
            · exact ⟨y, hy⟩
            · exact hp w hw⟩
        · cases h
    · rintro ⟨pre, z, post, hxs, hz, hp⟩
      cases pre with
      | nil =>
        simp only [List.nil_append, List.cons.injEq] at hxs
        obtain ⟨rfl, rfl⟩ := hxs
        simp [mapRes, hz]
      | cons w pre =>
        simp only [List.cons_append, List.cons.injEq] at hxs
        obtain ⟨rfl, rfl⟩ := hxs
        obtain ⟨b, hb⟩ := hp x (by simp)
        have := ih.2 ⟨pre, z, post, rfl, hz, fun y hy => hp y (by simp [hy])⟩
        simp [mapRes, hb, this]

theorem mapRes_map (f : β → Res γ) (g : α → β) (xs : List α) : mapRes f (xs.map g) = mapRes (fun x => f (g x)) xs := by
  induction xs with
  | nil => rfl
  | cons x xs ih => simp [mapRes, ih]

theorem mapRes_congr {f g : α → Res β} {xs : List α} (h : ∀ x ∈ xs, f x = g x) : mapRes f xs = mapRes g xs := by
  induction xs with
  | nil => rfl
  | cons x xs ih => simp [mapRes, h x (by simp), ih (fun y hy => h y (by simp [hy]))]

theorem All2.map_left {R : β → γ → Prop} (f : α → β) {as : List α} {cs : List γ} :
    All2 R (as.map f) cs ↔ All2 (fun a c => R (f a) c) as cs := by
  constructor
  · intro h
    generalize hx : as.map f = bs at h
    induction h generalizing as with
    | nil => cases as with | nil => exact .nil | cons => simp at hx
    | cons h1 _ ih =>
      cases as with
      | nil => simp at hx
      | cons a as =>
        simp only [List.map_cons, List.cons.injEq] at hx
        obtain ⟨rfl, hx⟩ := hx
        exact .cons h1 (ih hx)
  · intro h
    induction h with
    | nil => exact .nil
    | cons h1 _ ih => exact .cons h1 ih

theorem All2.map_right {R : α → γ → Prop} (f : β → γ) {as : List α} {bs : List β} :
    All2 R as (bs.map f) ↔ All2 (fun a b => R a (f b)) as bs := by
  constructor
  · intro h
    generalize hx : bs.map f = cs at h
    induction h generalizing bs with
    | nil => cases bs with | nil => exact .nil | cons => simp at hx
    | cons h1 _ ih =>
      cases bs with
      | nil => simp at hx
      | cons a bs =>
        simp only [List.map_cons, List.cons.injEq] at hx
        obtain ⟨rfl, hx⟩ := hx
        exact .cons h1 (ih hx)
  · intro h
    induction h with
    | nil => exact .nil
    | cons h1 _ ih => exact .cons h1 ih

section
variable {κ : Type} [DecidableEq κ]

theorem lookupKey_some_mem {k : κ} {v : α} {l : List (κ × α)} (h : lookupKey k l = some v) : (k, v) ∈ l := by
  induction l with
  | nil => cases h
  | cons p l ih =>
    obtain ⟨k', v'⟩ := p
    simp only [lookupKey] at h
    split at h
    · rename_i hk; cases h; subst hk; simp
    · simp [ih h]

theorem lookupKey_none_iff {k : κ} {l : List (κ × α)} : lookupKey k l = none ↔ ∀ v, (k, v) ∉ l := by
  induction l with
  | nil => simp [lookupKey]
  | cons p l ih =>
    obtain ⟨k', v'⟩ := p
    simp only [lookupKey]
    split
    · rename_i hk; subst hk
      constructor
      · intro h; cases h
      · intro h; exact absurd (by simp) (h v')
    · rename_i hk
      rw [ih]
      simp [Ne.symm hk]

theorem lookupKey_none_iff' {k : κ} {l : List (κ × α)} : lookupKey k l = none ↔ k ∉ l.map (·.1) := by
  rw [lookupKey_none_iff]
  constructor
  · intro h hm
    obtain ⟨⟨k', v⟩, hp, rfl⟩ := List.mem_map.1 hm
    exact h v hp
  · intro h v hm
    exact h (List.mem_map.2 ⟨_, hm, rfl⟩)

theorem lookupKey_of_mem {k : κ} {v : α} {l : List (κ × α)} (hn : (l.map (·.1)).Nodup) (h : (k, v) ∈ l) :
    lookupKey k l = some v := by
  induction l with
  | nil => simp at h
  | cons p l ih =>
    obtain ⟨k', v'⟩ := p
    simp only [List.map_cons, List.nodup_cons] at hn
    simp only [lookupKey]
    rcases List.mem_cons.1 h with h | h
    · cases h; simp
    · split
      · rename_i hk; subst hk
        exact absurd (List.mem_map.2 ⟨_, h, rfl⟩) hn.1
      · exact ih hn.2 h

theorem lookupKey_map (g : α → β) (k : κ) (l : List (κ × α)) :
    lookupKey k (l.map (fun p => (p.1, g p.2))) = (lookupKey k l).map g := by
  induction l with
  | nil => rfl
  | cons p l ih =>
    obtain ⟨k', v'⟩ := p
    simp only [List.map_cons, lookupKey]
    split
    · rfl
    · exact ih

theorem lookupKey_perm {l l' : List (κ × α)} (hn : (l.map (·.1)).Nodup) (h : l.Perm l') (k : κ) :
    lookupKey k l = lookupKey k l' := by
  have hn' : (l'.map (·.1)).Nodup := (h.map _).nodup_iff.1 hn
  cases hk : lookupKey k l with
  | none =>
    symm
    rw [lookupKey_none_iff] at hk ⊢
    intro v hv
    exact hk v (h.mem_iff.2 hv)
  | some v =>
    symm
    exact lookupKey_of_mem hn' (h.mem_iff.1 (lookupKey_some_mem hk))

theorem upsert_of_not_mem {k : κ} {v : α} {l : List (κ × α)} (h : k ∉ l.map (·.1)) : upsert k v l = l ++ [(k, v)] := by
  induction l with
  | nil => rfl
  | cons p l ih =>
    obtain ⟨k', v'⟩ := p
    simp only [List.map_cons, List.mem_cons, not_or] at h
    simp [upsert, Ne.symm h.1, ih h.2]

theorem upsert_keys {k : κ} {v : α} {l : List (κ × α)} :
    (upsert k v l).map (·.1) = if k ∈ l.map (·.1) then l.map (·.1) else l.map (·.1) ++ [k] := by
  induction l with
  | nil => simp [upsert]
  | cons p l ih =>
    obtain ⟨k', v'⟩ := p
    simp only [upsert]
    split
    · rename_i h; subst h; simp
    · rename_i h
      simp only [List.map_cons, ih, List.mem_cons, Ne.symm h, false_or]
      split <;> simp

theorem upsert_nodup {k : κ} {v : α} {l : List (κ × α)} (h : (l.map (·.1)).Nodup) :
    ((upsert k v l).map (·.1)).Nodup := by
  rw [upsert_keys]
  split
  · exact h
  · rename_i hk
    rw [List.nodup_append]
    refine ⟨h, by simp, ?_⟩
    intro a ha b hb
    simp at hb; subst hb
    intro e; subst e; exact hk ha

theorem upsert_mem {k : κ} {v : α} {l : List (κ × α)} {p : κ × α} (h : p ∈ upsert k v l) : p = (k, v) ∨ p ∈ l := by
  induction l with
  | nil => simp [upsert] at h; exact Or.inl h
  | cons q l ih =>
    obtain ⟨k', v'⟩ := q
    simp only [upsert] at h
    split at h
    · rename_i hk; subst hk
      rcases List.mem_cons.1 h with h | h
      · exact Or.inl h
      · exact Or.inr (by simp [h])
    · rcases List.mem_cons.1 h with h | h
      · exact Or.inr (by simp [h])
      · rcases ih h with h | h
        · exact Or.inl h
        · exact Or.inr (by simp [h])

theorem lookupKey_upsert {k k' : κ} {v : α} {l : List (κ × α)} :
    lookupKey k' (upsert k v l) = if k = k' then some v else lookupKey k' l := by
  induction l with
  | nil => simp [upsert, lookupKey]
  | cons q l ih =>
    obtain ⟨k1, v1⟩ := q
    simp only [upsert]
    split
    · rename_i h; subst h
      simp only [lookupKey]
      split <;> rfl
    · rename_i h
      simp only [lookupKey, ih]
      by_cases h1 : k1 = k'
      · subst h1; simp [Ne.symm h]
      · simp [h1]

end

end Verif
