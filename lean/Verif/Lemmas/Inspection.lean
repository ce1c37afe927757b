import Verif.Model.Inspection
import Verif.Spec.Inspection
/-!
# Lemmas about the type helpers and the recursive checks
-/
namespace Verif

/-- The computation ends without an exception and decides `P`. -/
def Decides (r : Res Bool) (P : Prop) : Prop := ∃ b, r = .ok b ∧ (b = true ↔ P)

theorem Decides.congr {r : Res Bool} {P Q : Prop} (h : Decides r P) (hPQ : P ↔ Q) : Decides r Q := by
  obtain ⟨b, h1, h2⟩ := h
  exact ⟨b, h1, h2.trans hPQ⟩

theorem Decides.pure {b : Bool} {P : Prop} (h : b = true ↔ P) : Decides (.ok b) P := ⟨b, rfl, h⟩

theorem Decides.andRes {a : Res Bool} {b : Unit → Res Bool} {P Q : Prop} (ha : Decides a P) (hb : Decides (b ()) Q) :
    Decides (andRes a b) (P ∧ Q) := by
  obtain ⟨x, rfl, hx⟩ := ha
  cases x with
  | false => exact ⟨false, rfl, by simp [← hx]⟩
  | true =>
    obtain ⟨y, h1, hy⟩ := hb
    exact ⟨y, h1, by rw [hy]; simp [← hx]⟩

theorem Decides.all {f : α → Res Bool} {P : α → Prop} : ∀ {xs : List α}, (∀ x ∈ xs, Decides (f x) (P x)) →
    Decides (allRes f xs) (∀ x ∈ xs, P x)
  | [], _ => ⟨true, rfl, by simp⟩
  | x :: xs, h => by
    obtain ⟨b, hb, hP⟩ := h x (by simp)
    cases b with
    | false => exact ⟨false, by simp [allRes, hb], by simp [← hP]⟩
    | true =>
      obtain ⟨b', hb', hP'⟩ := Decides.all (f := f) (P := P) (xs := xs) (fun y hy => h y (by simp [hy]))
      refine ⟨b', by simp [allRes, hb, hb'], ?_⟩
      rw [hP', List.forall_mem_cons]
      simp [← hP]

theorem tupleItems_iff (env : Env) (v : Val) (vs : List Val) : tupleItems env v = some vs ↔ TupleLike env v vs := by
  constructor
  · intro h
    cases v with
    | tuple ws => simp only [tupleItems, Option.some.injEq] at h; subst h; exact .tuple
    | obj c fs =>
      simp only [tupleItems] at h
      cases hc : env.classes[c]? with
      | none => rw [hc] at h; cases h
      | some cd =>
        rw [hc] at h
        simp only at h
        cases hk : cd.kind with
        | namedTuple b => rw [hk] at h; simp only [Option.some.injEq] at h; subst h; exact .named hc hk
        | dataclass b => rw [hk] at h; cases h
        | plain => rw [hk] at h; cases h
    | _ => cases h
  · intro h
    cases h with
    | tuple => rfl
    | named hc hk => simp [tupleItems, hc, hk]

theorem isInstance_iff (env : Env) (L : Nat → Nat → Prop) (t : Ty) (v : Val) (ht : t.isType = true) :
    isInstance env t v = true ↔ InstOf env L v t := by
  constructor
  · intro h
    cases t <;> first
      | (cases ht; done)
      | (cases v <;> first
          | (cases h; done)
          | (constructor; done)
          | (simp only [isInstance, decide_eq_true_eq] at h; subst h; constructor)
          | (simp only [isInstance] at h
             obtain ⟨vs, hvs⟩ := Option.isSome_iff_exists.1 h
             exact .bareTuple ((tupleItems_iff env _ vs).1 hvs)))
  · intro h
    cases h <;> first
      | rfl
      | (cases ht; done)
      | (simp [isInstance]; done)
      | (rename_i hv; simp [isInstance, (tupleItems_iff env _ _).2 hv])

theorem keyInstance_iff (k : KeyTy) (key : Key) (hk : k ≠ .other) : Decides (keyInstance k key) (KeyInst key k) := by
  cases k with
  | other => exact absurd rfl hk
  | str =>
    cases key with
    | str s => exact ⟨true, rfl, by simp [KeyInst.str]⟩
    | _ => exact ⟨false, rfl, by simp; intro h; cases h⟩
  | int =>
    cases key with
    | int i => exact ⟨true, rfl, by simp [KeyInst.int]⟩
    | _ => exact ⟨false, rfl, by simp; intro h; cases h⟩
  | enum e =>
    cases key with
    | enum e' m =>
      refine ⟨decide (e = e'), rfl, ?_⟩
      rw [decide_eq_true_eq]
      constructor
      · rintro rfl; exact .enum
      · intro h; cases h; rfl
    | _ => exact ⟨false, rfl, by simp; intro h; cases h⟩

theorem isGenericZip_decides (env : Env) (P : Ty → Val → Prop) : ∀ (ts : List Ty) (vs : List Val),
    (∀ t ∈ ts, ∀ v, Decides (isGeneric env t v) (P t v)) →
    Decides (isGenericZip env ts vs) (∀ (i : Nat) w t, vs[i]? = some w → ts[i]? = some t → P t w)
  | [], _, _ => ⟨true, by simp [isGenericZip], by simp⟩
  | _ :: _, [], _ => ⟨true, by simp [isGenericZip], by simp⟩
  | t :: ts, v :: vs, h => by
    have h1 := h t (by simp) v
    have h2 := isGenericZip_decides env P ts vs (fun u hu => h u (by simp [hu]))
    have h3 := Decides.andRes (b := fun _ => isGenericZip env ts vs) h1 h2
    rw [← isGenericZip] at h3
    refine h3.congr ⟨?_, ?_⟩
    · rintro ⟨ha, hb⟩ i w u hw hu
      cases i with
      | zero => simp at hw hu; subst hw; subst hu; exact ha
      | succ i => exact hb i w u (by simpa using hw) (by simpa using hu)
    · intro hall
      exact ⟨hall 0 v t rfl rfl, fun i w u hw hu => hall (i + 1) w u (by simpa using hw) (by simpa using hu)⟩

theorem isGenericAny_decides (env : Env) (P : Ty → Val → Prop) (v : Val) : ∀ ts : List Ty,
    (∀ t ∈ ts, Decides (isGeneric env t v) (P t v)) → Decides (isGenericAny env ts v) (∃ t ∈ ts, P t v)
  | [], _ => ⟨false, by simp [isGenericAny], by simp⟩
  | t :: ts, h => by
    obtain ⟨b, hb, hP⟩ := h t (by simp)
    cases b with
    | true => exact ⟨true, by simp [isGenericAny, hb], by simp [hP.1 rfl]⟩
    | false =>
      obtain ⟨b', hb', hP'⟩ := isGenericAny_decides env P v ts (fun u hu => h u (by simp [hu]))
      refine ⟨b', by simp [isGenericAny, hb, hb'], ?_⟩
      have : ¬ P t v := by rw [← hP]; simp
      rw [hP']; simp [this]

/-! ### Checker -/

theorem checkSeq_eq (env : Env) (p : Ty → Val → Bool) (vs : List Val) : checkSeq env p vs = vs.map (check env p) := by
  induction vs with
  | nil => rfl
  | cons v vs ih => simp [checkSeq, ih]

theorem checkDict_eq (env : Env) (p : Ty → Val → Bool) (kvs : List (Key × Val)) :
    checkDict env p kvs = kvs.map (fun kv => check env p kv.2) := by
  induction kvs with
  | nil => rfl
  | cons kv kvs ih => obtain ⟨k, v⟩ := kv; simp [checkDict, ih]

theorem checkObj_eq (env : Env) (p : Ty → Val → Bool) (fs : List (Str × Val)) :
    checkObj env p fs = fs.map (fun q => (q.1, check env p q.2)) := by
  induction fs with
  | nil => rfl
  | cons q fs ih => obtain ⟨k, v⟩ := q; simp [checkObj, ih]

theorem check_union (env : Env) (p : Ty → Val → Bool) (v : Val) (ts : List Ty) :
    check env p v (.union ts) = .ok (p (.union ts) v) := by
  cases v <;> rfl

theorem allRes_map (f : β → Res Bool) (g : α → β) (xs : List α) : allRes f (xs.map g) = allRes (fun x => f (g x)) xs := by
  induction xs with
  | nil => rfl
  | cons x xs ih => simp only [List.map_cons, allRes, ih]

mutual
theorem stripAnn_id : ∀ {t : Ty}, NoAnn t → t.stripAnn = t
  | _, .atom (t := t) h => by cases t <;> first | rfl | (cases h; done)
  | _, .literal => rfl
  | _, .list h => by simp only [Ty.stripAnn]; rw [stripAnn_id h]
  | _, .set h => by simp only [Ty.stripAnn]; rw [stripAnn_id h]
  | _, .dict h => by simp only [Ty.stripAnn]; rw [stripAnn_id h]
  | _, .tuple h => by simp only [Ty.stripAnn]; rw [stripAnnL_id h]
  | _, .union h => by simp only [Ty.stripAnn]; rw [stripAnnL_id h]
theorem stripAnnL_id : ∀ {ts : List Ty}, NoAnnL ts → stripAnnL ts = ts
  | _, .nil => rfl
  | _, .cons h hs => by simp only [stripAnnL]; rw [stripAnn_id h, stripAnnL_id hs]
end

theorem classOf_own (v : Val) : OwnTy v (classOf v) := by cases v <;> constructor

end Verif
