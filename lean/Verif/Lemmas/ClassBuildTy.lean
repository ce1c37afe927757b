import Verif.Lemmas.ClassBuildRead
/-!
# Equality of types, and unions of types
-/
namespace Verif

/-! ### Equality -/

theorem sameL_iff {as bs : List Ty} : Ty.sameL as bs = true ↔ All2 (fun a b => Ty.same a b = true) as bs := by
  induction as generalizing bs with
  | nil => cases bs <;> simp [Ty.sameL]; exact .nil; intro h; cases h
  | cons a as ih =>
    cases bs with
    | nil => simp [Ty.sameL]; intro h; cases h
    | cons b bs =>
      simp only [Ty.sameL, Bool.and_eq_true, ih]
      exact ⟨fun h => .cons h.1 h.2, fun h => by cases h with | cons h1 h2 => exact ⟨h1, h2⟩⟩

theorem allIn_iff {as bs : List Ty} : Ty.allIn as bs = true ↔ ∀ a ∈ as, ∃ b ∈ bs, Ty.same a b = true := by
  induction as with
  | nil => simp [Ty.allIn]
  | cons a as ih => simp [Ty.allIn, ih]

theorem memOf_iff {as : List Ty} {b : Ty} : Ty.memOf as b = true ↔ ∃ a ∈ as, Ty.same a b = true := by
  induction as with
  | nil => simp [Ty.memOf]
  | cons a as ih => simp [Ty.memOf, ih]

theorem same_union_iff {as bs : List Ty} : Ty.same (.union as) (.union bs) = true ↔
    (∀ a ∈ as, ∃ b ∈ bs, Ty.same a b = true) ∧ ∀ b ∈ bs, ∃ a ∈ as, Ty.same a b = true := by
  simp only [Ty.same, Bool.and_eq_true, allIn_iff, List.all_eq_true, memOf_iff]

theorem Ty.same_refl (t : Ty) : Ty.same t t = true := by
  generalize hsz : sizeOf t = sz
  induction sz using Nat.strongRecOn generalizing t with
  | _ sz ih =>
    subst hsz
    cases t with
    | list a => simp only [Ty.same]; exact ih _ (by simp) a rfl
    | set a => simp only [Ty.same]; exact ih _ (by simp) a rfl
    | dict k a => simp only [Ty.same, Bool.and_eq_true, decide_eq_true_eq, true_and]; exact ih _ (by simp; omega) a rfl
    | annotated a ms => simp only [Ty.same, decide_true, Bool.and_true]; exact ih _ (by simp; omega) a rfl
    | tuple ts =>
      simp only [Ty.same, sameL_iff]
      have : ∀ t ∈ ts, Ty.same t t = true := fun t ht => ih _ (by have := List.sizeOf_lt_of_mem ht; simp; omega) t rfl
      clear ih
      induction ts with
      | nil => exact .nil
      | cons t ts ih => exact .cons (this t (by simp)) (ih fun t ht => this t (by simp [ht]))
    | union ts =>
      rw [same_union_iff]
      have : ∀ t ∈ ts, Ty.same t t = true := fun t ht => ih _ (by have := List.sizeOf_lt_of_mem ht; simp; omega) t rfl
      exact ⟨fun a ha => ⟨a, ha, this a ha⟩, fun a ha => ⟨a, ha, this a ha⟩⟩
    | _ => simp [Ty.same]

/-- What a type is equal to. -/
theorem same_list {u t : Ty} (h : Ty.same u (.list t) = true) : ∃ a, u = .list a ∧ Ty.same a t = true := by
  cases u <;> simp [Ty.same, Ty.ctorIdx] at h
  exact ⟨_, rfl, h⟩

theorem same_annotated {u t : Ty} {ms : List Meta} (h : Ty.same u (.annotated t ms) = true) :
    ∃ a, u = .annotated a ms ∧ Ty.same a t = true := by
  cases u <;> simp [Ty.same, Ty.ctorIdx] at h
  obtain ⟨h, rfl⟩ := h
  exact ⟨_, rfl, h⟩

theorem same_union {u : Ty} {ts : List Ty} (h : Ty.same u (.union ts) = true) :
    ∃ us, u = .union us ∧ (∀ a ∈ us, ∃ b ∈ ts, Ty.same a b = true) ∧ ∀ b ∈ ts, ∃ a ∈ us, Ty.same a b = true := by
  have : ∃ us, u = .union us := by cases u <;> simp [Ty.same, Ty.ctorIdx] at h; exact ⟨_, rfl⟩
  obtain ⟨us, rfl⟩ := this
  exact ⟨us, rfl, same_union_iff.1 h⟩

theorem same_trans {a b c : Ty} (h1 : Ty.same a b = true) (h2 : Ty.same b c = true) : Ty.same a c = true := by
  generalize hsz : sizeOf c = sz
  induction sz using Nat.strongRecOn generalizing a b c with
  | _ sz ih =>
    subst hsz
    cases c with
    | list c =>
      obtain ⟨b, rfl, h4⟩ := same_list h2
      obtain ⟨a, rfl, h3⟩ := same_list h1
      simp only [Ty.same]
      exact ih _ (by simp) h3 h4 rfl
    | annotated c ms =>
      obtain ⟨b, rfl, h4⟩ := same_annotated h2
      obtain ⟨a, rfl, h3⟩ := same_annotated h1
      simp only [Ty.same, decide_true, Bool.and_true]
      exact ih _ (by simp; omega) h3 h4 rfl
    | union cs =>
      obtain ⟨bs, rfl, h3, h4⟩ := same_union h2
      obtain ⟨as, rfl, h5, h6⟩ := same_union h1
      rw [same_union_iff]
      refine ⟨fun a ha => ?_, fun c hc => ?_⟩
      · obtain ⟨b, hb, h7⟩ := h5 a ha
        obtain ⟨c, hc, h8⟩ := h3 b hb
        exact ⟨c, hc, ih _ (by have := List.sizeOf_lt_of_mem hc; simp; omega) h7 h8 rfl⟩
      · obtain ⟨b, hb, h8⟩ := h4 c hc
        obtain ⟨a, ha, h7⟩ := h6 b hb
        exact ⟨a, ha, ih _ (by have := List.sizeOf_lt_of_mem hc; simp; omega) h7 h8 rfl⟩
    | set c =>
      cases b <;> simp [Ty.same, Ty.ctorIdx] at h2
      cases a <;> simp [Ty.same, Ty.ctorIdx] at h1
      simp only [Ty.same]
      exact ih _ (by simp) h1 h2 rfl
    | dict k c =>
      cases b <;> simp [Ty.same, Ty.ctorIdx] at h2
      cases a <;> simp [Ty.same, Ty.ctorIdx] at h1
      simp only [Ty.same, Bool.and_eq_true, decide_eq_true_eq]
      exact ⟨h1.1.trans h2.1, ih _ (by simp; omega) h1.2 h2.2 rfl⟩
    | tuple cs =>
      have hb : ∃ bs, b = .tuple bs := by cases b <;> simp [Ty.same, Ty.ctorIdx] at h2; exact ⟨_, rfl⟩
      obtain ⟨bs, rfl⟩ := hb
      have ha : ∃ as, a = .tuple as := by cases a <;> simp [Ty.same, Ty.ctorIdx] at h1; exact ⟨_, rfl⟩
      obtain ⟨as, rfl⟩ := ha
      simp only [Ty.same, sameL_iff] at h1 h2 ⊢
      have hm : ∀ c ∈ cs, ∀ a b, Ty.same a b = true → Ty.same b c = true → Ty.same a c = true :=
        fun c hc a b h1 h2 => ih _ (by have := List.sizeOf_lt_of_mem hc; simp; omega) h1 h2 rfl
      clear ih
      induction h2 generalizing as with
      | nil => cases h1; exact .nil
      | cons h3 _ ih =>
        cases h1 with
        | cons h4 h5 => exact .cons (hm _ (by simp) _ _ h4 h3) (ih _ h5 fun c hc => hm c (by simp [hc]))
    | literal ls =>
      cases b <;> simp [Ty.same, Ty.ctorIdx] at h2
      subst h2; exact h1
    | enum e =>
      cases b <;> simp [Ty.same, Ty.ctorIdx] at h2
      subst h2; exact h1
    | cls e =>
      cases b <;> simp [Ty.same, Ty.ctorIdx] at h2
      subst h2; exact h1
    | _ =>
      cases b <;> simp [Ty.same, Ty.ctorIdx] at h2
      exact h1

/-- Types without parts are equal to themselves only. -/
theorem same_leaf {u t : Ty} (ht : t ∈ [Ty.bool, .int, .float, .str, .datetime, .date, .time, .timedelta, .uuid, .ipv4, .ipv6])
    (h : Ty.same u t = true) : u = t := by
  simp only [List.mem_cons, List.not_mem_nil, or_false] at ht
  rcases ht with rfl | rfl | rfl | rfl | rfl | rfl | rfl | rfl | rfl | rfl | rfl <;>
    cases u <;> simp [Ty.same, Ty.ctorIdx] at h <;> rfl

theorem same_literal {u : Ty} {ls : List Lit} (h : Ty.same u (.literal ls) = true) : u = .literal ls := by
  cases u <;> simp [Ty.same, Ty.ctorIdx] at h
  exact h ▸ rfl

theorem same_enum {u : Ty} {e : Nat} (h : Ty.same u (.enum e) = true) : u = .enum e := by
  cases u <;> simp [Ty.same, Ty.ctorIdx] at h
  exact h ▸ rfl

theorem same_cls {u : Ty} {c : Nat} (h : Ty.same u (.cls c) = true) : u = .cls c := by
  cases u <;> simp [Ty.same, Ty.ctorIdx] at h
  exact h ▸ rfl

/-! ### Unions -/

/-- The members of a union, or the type itself. -/
def pieces : Ty → List Ty
  | .union ts => ts
  | t => [t]

/-- A type that stands for itself in a union. -/
def Piece (t : Ty) : Prop := pieces t = [t] ∧ t.isOptional = false ∧ t.isNone = false

/-- A type like those made from schemas: neither `None` nor a union with `None`, nor a union inside a union. -/
def Made (t : Ty) : Prop := pieces t ≠ [] ∧ ∀ w ∈ pieces t, Piece w

theorem Piece.made {t : Ty} (h : Piece t) : Made t := by
  unfold Made; rw [h.1]; exact ⟨by simp, fun w hw => by simp at hw; exact hw ▸ h⟩

theorem flattenUnions_eq (ts : List Ty) : flattenUnions ts = ts.flatMap pieces := by
  unfold flattenUnions
  congr 1

theorem dedup_seen {ts seen : List Ty} : ∀ u ∈ seen, u ∈ dedupTys seen ts := by
  induction ts generalizing seen with
  | nil => exact fun u hu => hu
  | cons t ts ih =>
    intro u hu
    unfold dedupTys
    split
    · exact ih u hu
    · exact ih u (by simp [hu])

theorem dedup_mem {ts seen : List Ty} : ∀ u ∈ dedupTys seen ts, u ∈ seen ∨ u ∈ ts := by
  induction ts generalizing seen with
  | nil => exact fun u hu => .inl hu
  | cons t ts ih =>
    intro u hu
    unfold dedupTys at hu
    split at hu
    · rcases ih u hu with h | h
      · exact .inl h
      · exact .inr (by simp [h])
    · rcases ih u hu with h | h
      · simp at h
        rcases h with h | rfl
        · exact .inl h
        · exact .inr (by simp)
      · exact .inr (by simp [h])

/-- Every type has an equal one among those that are kept. -/
theorem dedup_same {ts seen : List Ty} : ∀ t ∈ ts, ∃ u ∈ dedupTys seen ts, Ty.same u t = true := by
  induction ts generalizing seen with
  | nil => intro t ht; cases ht
  | cons x ts ih =>
    intro t ht
    unfold dedupTys
    rcases List.mem_cons.1 ht with rfl | ht
    · split
      · rename_i h
        simp only [List.any_eq_true] at h
        obtain ⟨u, hu, h⟩ := h
        exact ⟨u, dedup_seen u hu, h⟩
      · exact ⟨t, dedup_seen t (by simp), Ty.same_refl t⟩
    · split
      · exact ih t ht
      · exact ih t ht

theorem pieces_pyUnion {ts : List Ty} {t : Ty} (hm : ∀ u ∈ ts, Made u) (h : pyUnion ts = .ok t) :
    pieces t = dedupTys [] (ts.flatMap pieces) := by
  unfold pyUnion at h
  rw [flattenUnions_eq] at h
  have hp : ∀ w ∈ dedupTys [] (ts.flatMap pieces), pieces w = [w] := by
    intro w hw
    rcases dedup_mem w hw with h | h
    · cases h
    · obtain ⟨u, hu, hw⟩ := List.mem_flatMap.1 h
      exact ((hm u hu).2 w hw).1
  generalize dedupTys [] (ts.flatMap pieces) = us at h hp
  match us, h, hp with
  | [], h, _ => cases h
  | [w], h, hp => cases h; exact hp _ (by simp)
  | a :: b :: us, h, _ => cases h; rfl

theorem Made.pyUnion {ts : List Ty} {t : Ty} (hm : ∀ u ∈ ts, Made u) (h : pyUnion ts = .ok t) : Made t := by
  have hpc := pieces_pyUnion hm h
  refine ⟨?_, ?_⟩
  · intro hnil
    rw [hpc] at hnil
    unfold Verif.pyUnion at h
    rw [flattenUnions_eq, hnil] at h
    cases h
  intro w hw
  rw [hpc] at hw
  rcases dedup_mem w hw with h | h
  · cases h
  · obtain ⟨u, hu, hw⟩ := List.mem_flatMap.1 h
    exact (hm u hu).2 w hw

theorem Made.notOptional {t : Ty} (h : Made t) : t.isOptional = false := by
  cases t with
  | union ts =>
    have : ∀ w ∈ ts, w.isNone = false := fun w hw => (h.2 w hw).2.2
    simp only [Ty.isOptional, Ty.unwrapAnn, Ty.unionArgs]
    simpa using this
  | _ => exact (h.2 _ (by simp [pieces])).2.1

/-- `Optional` of a type: what remains without `None` has the same pieces, up to equality. -/
theorem optional_made {t u : Ty} (hm : Made t) (h : pyUnion [.none, t] = .ok u) :
    u.isOptional = true ∧ Made u.required ∧ ∀ w ∈ pieces t, ∃ w' ∈ pieces u.required, Ty.same w' w = true := by
  unfold Verif.pyUnion at h
  rw [flattenUnions_eq] at h
  have e : ([Ty.none, t].flatMap pieces) = .none :: pieces t := by simp [pieces]
  rw [e] at h
  have e2 : dedupTys [] (.none :: pieces t) = dedupTys [.none] (pieces t) := by simp [dedupTys]
  rw [e2] at h
  -- `None` stays in front
  have key : ∀ (ps seen : List Ty), ∃ rest, dedupTys (.none :: seen) ps = .none :: (seen ++ rest) ∧ ∀ w ∈ rest, w ∈ ps := by
    intro ps
    induction ps with
    | nil => intro seen; exact ⟨[], by simp [dedupTys], by simp⟩
    | cons p ps ih =>
      intro seen
      unfold dedupTys
      split
      · obtain ⟨rest, h1, h2⟩ := ih seen
        exact ⟨rest, h1, fun w hw => by simp [h2 w hw]⟩
      · obtain ⟨rest, h1, h2⟩ := ih (seen ++ [p])
        refine ⟨p :: rest, by simpa using h1, fun w hw => ?_⟩
        rcases List.mem_cons.1 hw with rfl | hw
        · simp
        · simp [h2 w hw]
  obtain ⟨rest, h1, h2⟩ := key (pieces t) []
  simp only [List.nil_append] at h1
  rw [h1] at h
  have hrest : ∀ w ∈ rest, Piece w := fun w hw => hm.2 w (h2 w hw)
  have hne : rest ≠ [] := by
    have := List.exists_mem_of_ne_nil _ hm.1
    obtain ⟨w, hw⟩ := this
    obtain ⟨w', hw', hs⟩ := dedup_same (seen := [.none]) w hw
    rw [h1] at hw'
    rcases List.mem_cons.1 hw' with rfl | hw'
    · have := (hm.2 w hw).2.2
      cases w <;> simp [Ty.same, Ty.ctorIdx, Ty.isNone] at hs this
    · intro h; rw [h] at hw'; cases hw'
  obtain ⟨r, rs, rfl⟩ : ∃ r rs, rest = r :: rs := by
    cases rest with
    | nil => exact absurd rfl hne
    | cons r rs => exact ⟨r, rs, rfl⟩
  cases h
  have ho : Ty.isOptional (.union (.none :: r :: rs)) = true := by simp [Ty.isOptional, Ty.unwrapAnn, Ty.unionArgs, Ty.isNone]
  have hfil : (Ty.none :: r :: rs).filter (fun t => !t.isNone) = r :: rs := by
    rw [List.filter_cons_of_neg (by simp [Ty.isNone])]
    exact List.filter_eq_self.2 fun w hw => by simp [(hrest w hw).2.2]
  have hreq : pieces (Ty.required (.union (.none :: r :: rs))) = r :: rs := by
    rw [Ty.required, if_pos ho]
    simp only [Ty.unwrapOptional, Ty.unwrapOpt, hfil]
    cases rs with
    | nil => exact (hrest r (by simp)).1
    | cons r' rs => rfl
  refine ⟨ho, ⟨by rw [hreq]; simp, by rw [hreq]; exact hrest⟩, fun w hw => ?_⟩
  obtain ⟨w', hw', hs⟩ := dedup_same (seen := [.none]) w hw
  rw [h1] at hw'
  rw [hreq]
  rcases List.mem_cons.1 hw' with rfl | hw'
  · have := (hm.2 w hw).2.2
    cases w <;> simp [Ty.same, Ty.ctorIdx, Ty.isNone] at hs this
  · exact ⟨w', hw', hs⟩

end Verif
