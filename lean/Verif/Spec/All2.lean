/-!
# Pointwise relations between lists
-/
namespace Verif

/-- Two lists have the same length and corresponding elements are related. -/
inductive All2 (R : α → β → Prop) : List α → List β → Prop
  | nil : All2 R [] []
  | cons {a b as bs} : R a b → All2 R as bs → All2 R (a :: as) (b :: bs)

theorem All2.length {R : α → β → Prop} {as : List α} {bs : List β} (h : All2 R as bs) : as.length = bs.length := by
  induction h with
  | nil => rfl
  | cons _ _ ih => simp [ih]

theorem All2.imp {R S : α → β → Prop} {as : List α} {bs : List β} (h : All2 R as bs)
    (hRS : ∀ a b, R a b → S a b) : All2 S as bs := by
  induction h with
  | nil => exact .nil
  | cons h _ ih => exact .cons (hRS _ _ h) ih

theorem All2.imp_mem {R S : α → β → Prop} {as : List α} {bs : List β} (h : All2 R as bs)
    (hRS : ∀ a ∈ as, ∀ b ∈ bs, R a b → S a b) : All2 S as bs := by
  induction h with
  | nil => exact .nil
  | cons h _ ih =>
    exact .cons (hRS _ (by simp) _ (by simp) h) (ih (fun a ha b hb => hRS a (by simp [ha]) b (by simp [hb])))

theorem All2.get {R : α → β → Prop} {as : List α} {bs : List β} (h : All2 R as bs) (i : Nat) (a : α)
    (ha : as[i]? = some a) : ∃ b, bs[i]? = some b ∧ R a b := by
  induction h generalizing i with
  | nil => simp at ha
  | cons h _ ih =>
    cases i with
    | zero => simp at ha; subst ha; exact ⟨_, rfl, h⟩
    | succ i => simp at ha; simpa using ih i ha

theorem All2.mem_left {R : α → β → Prop} {as : List α} {bs : List β} (h : All2 R as bs) {a : α} (ha : a ∈ as) :
    ∃ b ∈ bs, R a b := by
  induction h with
  | nil => simp at ha
  | cons h _ ih =>
    rcases List.mem_cons.1 ha with rfl | ha
    · exact ⟨_, by simp, h⟩
    · obtain ⟨b, hb, hr⟩ := ih ha
      exact ⟨b, by simp [hb], hr⟩

theorem All2.mem_right {R : α → β → Prop} {as : List α} {bs : List β} (h : All2 R as bs) {b : β} (hb : b ∈ bs) :
    ∃ a ∈ as, R a b := by
  induction h with
  | nil => simp at hb
  | cons h _ ih =>
    rcases List.mem_cons.1 hb with rfl | hb
    · exact ⟨_, by simp, h⟩
    · obtain ⟨a, ha, hr⟩ := ih hb
      exact ⟨a, by simp [ha], hr⟩

theorem All2.of_get {R : α → β → Prop} : ∀ {as : List α} {bs : List β}, as.length = bs.length →
    (∀ (i : Nat) a b, as[i]? = some a → bs[i]? = some b → R a b) → All2 R as bs
  | [], [], _, _ => .nil
  | a :: as, b :: bs, hl, h =>
    .cons (h 0 a b rfl rfl) (All2.of_get (by simpa using hl) fun i x y hx hy => h (i + 1) x y (by simpa using hx) (by simpa using hy))
  | [], _ :: _, hl, _ => by simp at hl
  | _ :: _, [], hl, _ => by simp at hl

theorem All2.functional {R : α → β → Prop} (hf : ∀ a b c, R a b → R a c → b = c) {as : List α} {bs cs : List β}
    (h : All2 R as bs) (h' : All2 R as cs) : bs = cs := by
  induction h generalizing cs with
  | nil => cases h'; rfl
  | cons h1 _ ih =>
    cases h' with
    | cons h2 h3 => rw [hf _ _ _ h1 h2, ih h3]

theorem all2_perm {R : α → β → Prop} {as as' : List α} {bs : List β} (h : All2 R as bs) (hp : as.Perm as') :
    ∃ bs', bs.Perm bs' ∧ All2 R as' bs' := by
  induction hp generalizing bs with
  | nil => cases h; exact ⟨[], .refl _, .nil⟩
  | cons x _ ih =>
    cases h with
    | cons h1 h2 =>
      obtain ⟨bs', h3, h4⟩ := ih h2
      exact ⟨_ :: bs', h3.cons _, .cons h1 h4⟩
  | swap x y l =>
    cases h with
    | cons h1 h2 => cases h2 with
      | cons h3 h4 => exact ⟨_, .swap _ _ _, .cons h3 (.cons h1 h4)⟩
  | trans _ _ ih1 ih2 =>
    obtain ⟨bs1, h1, h2⟩ := ih1 h
    obtain ⟨bs2, h3, h4⟩ := ih2 h2
    exact ⟨bs2, h1.trans h3, h4⟩

end Verif
