import Verif.Lemmas.Inspection
/-!
# C42: `is_generic_instance` decides membership
-/
namespace Verif

/-- C42 in full: the function answers for every type and object, and the answer is whether the object is a value of the
type. -/
def C42_statement (env : Env) (t : Ty) (v : Val) : Prop :=
  ∃ b, isGeneric env t v = .ok b ∧ (b = true ↔ Instance env v t)

/-- What the code decides, for all types without `Annotated` and `Literal`: membership except that tuples are compared up to
the shorter of the two lengths. -/
theorem C42_loose (env : Env) (t : Ty) (ht : PlainTy True t) (v : Val) :
    ∃ b, isGeneric env t v = .ok b ∧ (b = true ↔ InstOf env (fun _ _ => True) v t) := by
  change Decides (isGeneric env t v) (InstOf env (fun _ _ => True) v t)
  induction ht generalizing v with
  | @atom t h =>
    have : isGeneric env t v = .ok (isInstance env t v) := by
      cases t <;> first | (cases h; done) | simp only [isGeneric]
    rw [this]
    exact Decides.pure (isInstance_iff env _ t v h)
  | @list t _ ih =>
    simp only [isGeneric]
    cases v with
    | list vs =>
      refine (Decides.all (fun w _ => ih w)).congr ⟨.list, ?_⟩
      intro h; cases h with | list h => exact h
    | _ => exact ⟨false, rfl, by simp; intro h; cases h⟩
  | @set t _ ih =>
    simp only [isGeneric]
    cases v with
    | set vs =>
      refine (Decides.all (fun w _ => ih w)).congr ⟨.set, ?_⟩
      intro h; cases h with | set h => exact h
    | _ => exact ⟨false, rfl, by simp; intro h; cases h⟩
  | @dict k t hk _ ih =>
    simp only [isGeneric]
    cases v with
    | dict kvs =>
      refine (Decides.all (P := fun kv : Key × Val => KeyInst kv.1 k ∧ InstOf env (fun _ _ => True) kv.2 t)
        (fun kv _ => Decides.andRes (keyInstance_iff k kv.1 hk) (ih kv.2))).congr ⟨?_, ?_⟩
      · intro h; exact .dict (fun kv hkv => (h kv hkv).1) (fun kv hkv => (h kv hkv).2)
      · intro h; cases h with | dict h1 h2 => exact fun kv hkv => ⟨h1 kv hkv, h2 kv hkv⟩
    | _ => exact ⟨false, rfl, by simp; intro h; cases h⟩
  | @tuple ts _ _ ih =>
    simp only [isGeneric]
    cases hv : tupleItems env v with
    | some vs =>
      refine (isGenericZip_decides env (fun t w => InstOf env (fun _ _ => True) w t) ts vs
        (fun t ht w => ih t ht w)).congr ⟨?_, ?_⟩
      · intro h; exact .tuple ((tupleItems_iff env v vs).1 hv) trivial h
      · intro h
        cases h with
        | @tuple _ vs' _ hl _ h =>
          have := (tupleItems_iff env v vs').2 hl
          rw [hv] at this; cases this
          exact h
    | none =>
      refine ⟨false, rfl, ?_⟩
      simp only [Bool.false_eq_true, false_iff]
      intro h
      cases h with
      | tuple hl _ _ => rw [(tupleItems_iff env v _).2 hl] at hv; cases hv
  | @union ts _ ih =>
    simp only [isGeneric]
    refine (isGenericAny_decides env (fun t w => InstOf env (fun _ _ => True) w t) v ts (fun t ht => ih t ht v)).congr ⟨?_, ?_⟩
    · rintro ⟨t, ht, h⟩; exact .union ht h
    · intro h; cases h with | union ht h => exact ⟨_, ht, h⟩

theorem InstOf.mono {env : Env} {L L' : Nat → Nat → Prop} (hL : ∀ m n, L m n → L' m n) {v : Val} {t : Ty}
    (h : InstOf env L v t) : InstOf env L' v t := by
  induction h with
  | list _ ih => exact .list ih
  | set _ ih => exact .set ih
  | dict h1 _ ih => exact .dict h1 ih
  | tuple h1 h2 _ ih => exact .tuple h1 (hL _ _ h2) ih
  | union h1 _ ih => exact .union h1 ih
  | annotated _ ih => exact .annotated ih
  | literal h1 h2 => exact .literal h1 h2
  | bareTuple h => exact .bareTuple h
  | _ => constructor

/-- No value of a type is rejected, tuples included. -/
theorem C42_complete (env : Env) (t : Ty) (ht : PlainTy True t) (v : Val) (h : Instance env v t) :
    isGeneric env t v = .ok true := by
  obtain ⟨b, h1, h2⟩ := C42_loose env t ht v
  rw [h1, h2.2 (h.mono (fun _ _ _ => trivial))]

theorem PlainTy.weaken {P : Prop} {t : Ty} (h : PlainTy P t) : PlainTy True t := by
  induction h with
  | atom h => exact .atom h
  | list _ ih => exact .list ih
  | set _ ih => exact .set ih
  | dict hk _ ih => exact .dict hk ih
  | tuple _ _ ih => exact .tuple trivial ih
  | union _ ih => exact .union ih

theorem InstOf.exact {env : Env} {L : Nat → Nat → Prop} {t : Ty} (ht : PlainTy False t) {v : Val}
    (h : InstOf env L v t) : Instance env v t := by
  induction ht generalizing v with
  | @atom t ht => exact (isInstance_iff env _ t v ht).1 ((isInstance_iff env L t v ht).2 h)
  | list _ ih => cases h with | list h => exact .list (fun w hw => ih (h w hw))
  | set _ ih => cases h with | set h => exact .set (fun w hw => ih (h w hw))
  | dict _ _ ih => cases h with | dict h1 h2 => exact .dict h1 (fun w hw => ih (h2 w hw))
  | tuple hf => exact hf.elim
  | union _ ih => cases h with | union ht h => exact .union ht (ih _ ht h)

/-- C42 in part: the full statement for types without fixed-length tuples, `Annotated` and `Literal`.  Missing are these three,
see `C42_violated`. -/
theorem C42_partial (env : Env) (t : Ty) (ht : PlainTy False t) (v : Val) : C42_statement env t v := by
  obtain ⟨b, h1, h2⟩ := C42_loose env t ht.weaken v
  exact ⟨b, h1, h2.trans ⟨fun h => h.exact ht, fun h => h.mono (fun _ _ _ => trivial)⟩⟩

/-- The full statement is false: a tuple that is too short passes, and `Annotated` and `Literal` types raise `TypeError`. -/
theorem C42_violated (env : Env) :
    (¬ C42_statement env (.tuple [.int, .int]) (.tuple [.int 1]) ∧
      isGeneric env (.tuple [.int, .int]) (.tuple [.int 1]) = .ok true) ∧
    (∀ t ms v, ¬ C42_statement env (.annotated t ms) v ∧ isGeneric env (.annotated t ms) v = .error .typeError) ∧
    (∀ ls v, ¬ C42_statement env (.literal ls) v ∧ isGeneric env (.literal ls) v = .error .typeError) := by
  refine ⟨⟨?_, rfl⟩, fun t ms v => ⟨?_, rfl⟩, fun ls v => ⟨?_, rfl⟩⟩
  · rintro ⟨b, h1, h2⟩
    cases h1
    have h := h2.1 rfl
    cases h with
    | tuple hl h _ => cases hl with | tuple => simp at h
  · rintro ⟨b, h1, -⟩; cases h1
  · rintro ⟨b, h1, -⟩; cases h1

/-! ### Examples -/

/-- A dictionary of lists of unions meets the hypothesis of `C42_partial`. -/
example : PlainTy False (.dict .str (.list (.union [.int, .str, .none]))) :=
  .dict (by simp) (.list (.union (by
    intro t ht; simp at ht; rcases ht with rfl | rfl | rfl <;> exact .atom rfl)))

example (env : Env) :
    isGeneric env (.dict .str (.list (.union [.int, .none]))) (.dict [(.str c!"a", .list [.int 1, .none])]) = .ok true := rfl

example (env : Env) :
    isGeneric env (.dict .str (.list (.union [.int, .none]))) (.dict [(.str c!"a", .list [.int 1, .str c!"x"])]) = .ok false := rfl

example (env : Env) : Instance env (.tuple [.int 1, .str c!"x"]) (.tuple [.int, .str]) := by
  refine .tuple .tuple rfl ?_
  intro i w t hw ht
  match i with
  | 0 => simp at hw ht; subst hw; subst ht; exact .int
  | 1 => simp at hw ht; subst hw; subst ht; exact .str
  | i + 2 => simp at hw

end Verif
