import Verif.Lemmas.Reader
import Verif.Model.Serializer
/-!
# C77: for which types there is a deserializer
-/
namespace Verif

private theorem getDeser_created (env : Env) (hk : env.Ok) (hc : env.Complete) (skip : Bool) (t : Ty) (ht : ¬ Dangles env t)
    (G : Nat → Prop) (hG : ClosedClasses env G) (hr : ∀ c, G c → FieldsReadable env c) (H : Heap) :
    Created env (fun _ => False) env.classes.length (¬ Fault env t ∧ t.Within G) H (getDeser env skip t H) (Gotten env t) :=
  getWith_created hk hc.literal (buildCls_creates hk hc hG hr skip _) t H ht

/-- C77, enough: whatever has been read before, also if it failed, the deserializer of a readable type can be created. -/
theorem C77_suffices (env : Env) (hk : env.Ok) (hc : env.Complete) (skip : Bool) (t : Ty) (ht : ¬ Dangles env t) (h : HasReader env t)
    (H : Heap) : ∃ d, (getDeser env skip t H).1 = .ok d := by
  have h1 := getDeser_created env hk hc skip t ht (Reaches env t) (reaches_closed env t) h.2 H
  cases hr : (getDeser env skip t H).1 with
  | ok d => exact ⟨d, rfl⟩
  | error e => exact absurd ⟨h.1, reaches_within env t⟩ (h1.error (missing_le env H) e hr).2

private theorem completed_history (env : Env) (hk : env.Ok) (hc : env.Complete) (calls : List Call)
    (hcalls : ∀ c ∈ calls, ¬ Dangles env c.ty ∧ HasReader env c.ty) (H : Heap) (hH : Completed env (fun _ => False) H) :
    Completed env (fun _ => False) (history env calls H) := by
  induction calls generalizing H with
  | nil => exact hH
  | cons c cs ih =>
    refine ih (fun c hc => hcalls c (by simp [hc])) _ ?_
    obtain ⟨h1, h2⟩ := hcalls c (by simp)
    obtain ⟨d, hd⟩ := C77_suffices env hk hc c.skip c.ty h1 h2 H
    have h3 := ((getDeser_created env hk hc c.skip c.ty h1 (fun _ => False) (fun _ h => h.elim) (fun _ h => h.elim) H).done hH d hd).1
    unfold jsonToObject
    rcases hr : getDeser env c.skip c.ty H with ⟨r, H'⟩
    rw [hr] at h3
    cases r <;> exact h3

/-- C77, exactly: in an interpreter that has read readable types only, the deserializer of a type can be created exactly if neither
the type nor the type of a member of a class that it leads to has a fault. -/
theorem C77_exists (env : Env) (hk : env.Ok) (hc : env.Complete) (calls : List Call)
    (hcalls : ∀ c ∈ calls, ¬ Dangles env c.ty ∧ HasReader env c.ty) (skip : Bool) (t : Ty) (ht : ¬ Dangles env t) :
    (∃ d, (getDeser env skip t (history env calls Heap.empty)).1 = .ok d) ↔ HasReader env t := by
  refine ⟨fun ⟨d, hd⟩ => ?_, fun h => C77_suffices env hk hc skip t ht h _⟩
  have hC := completed_history env hk hc calls hcalls Heap.empty completed_empty
  revert hC hd
  generalize history env calls Heap.empty = H
  intro hd hC
  obtain ⟨h1, h2, -, h3⟩ := (getDeser_created env hk hc skip t ht (fun _ => False) (fun _ h => h.elim) (fun _ h => h.elim) H).done hC d hd
  have hall : ∀ c, Reaches env t c → HasEntry env (getDeser env skip t H).2 c := by
    intro c hr
    induction hr with
    | here hm => exact h3 _ hm
    | field _ hcd hcus hf hm ih =>
      obtain ⟨cd', hcd', hd'⟩ := ih
      rw [hcd] at hcd'; cases hcd'
      exact (h1 _ _ hcd hd' hcus id _ hf).2 _ (mentions_fieldTy' hm)
  refine ⟨(supported_iff_faultless hk ht).1 ⟨d, h2⟩, fun c hr cd hcd hcus f hf => ?_⟩
  obtain ⟨cd', hcd', hd'⟩ := hall c hr
  rw [hcd] at hcd'; cases hcd'
  exact (supported_iff_faultless hk fun h => hc.known cd (List.mem_of_getElem? hcd) f hf (dangles_fieldTy h)).1
    (let ⟨d, h, _⟩ := (h1 _ _ hcd hd' hcus id f hf).1; ⟨d, h⟩)

/-- C77, errors: whatever has been read before, the creation of a deserializer raises nothing but `TypeError` and `JsonTypeError`; in
particular it does not run into the recursion limit. -/
theorem C77_errors (env : Env) (hk : env.Ok) (hc : env.Complete) (skip : Bool) (t : Ty) (ht : ¬ Dangles env t) (H : Heap) (e : Err)
    (he : (getDeser env skip t H).1 = .error e) : e = .typeError ∨ e = .jsonType :=
  ((getDeser_created env hk hc skip t ht (fun _ => False) (fun _ h => h.elim) (fun _ h => h.elim) H).error (missing_le env H) e he).1

/-! ### Other parts of the library differ -/

/-- A bare `list` has a serializer, but no deserializer. -/
theorem C77_written_fails (env : Env) (hk : env.Ok) (hc : env.Complete) (skip : Bool) :
    serCreate env .bareList = .ok () ∧ ∀ d, (getDeser env skip .bareList Heap.empty).1 ≠ .ok d := by
  refine ⟨rfl, fun d hd => ?_⟩
  exact ((C77_exists env hk hc [] (by simp) skip .bareList (fun h => by cases h)).1 ⟨d, hd⟩).1 (.bare (by simp))

/-- `class Node: children: list["Node"]; next: Optional["Node"]` and `class Sack: things: list; nodes: dict[str, Node]` and
`class Bag: sack: Optional[Sack]; count: int` -/
def sackEnv : Env :=
  ⟨[], [{ module := c!"m", name := c!"Node", kind := .dataclass false,
          fields := [{ name := c!"children", ty := .list (.cls 0), fwd := true },
                     { name := c!"next", ty := .union [.cls 0, .none], fwd := true, dflt := .value .none }] },
        { module := c!"m", name := c!"Sack", kind := .dataclass false,
          fields := [{ name := c!"things", ty := .bareList }, { name := c!"nodes", ty := .dict .str (.cls 0) }] },
        { module := c!"m", name := c!"Bag", kind := .dataclass false,
          fields := [{ name := c!"sack", ty := .union [.cls 1, .none] }, { name := c!"count", ty := .int }] }], id⟩

theorem sackEnv_ok : sackEnv.Ok := ⟨by decide +kernel, by simp [sackEnv], by simp [sackEnv], fun _ => .refl _⟩

private theorem tree_known {c : Nat} (h : Dangles sackEnv (.cls c)) : 3 ≤ c := by
  cases h with
  | cls h => exact List.getElem?_eq_none_iff.1 h

theorem sackEnv_complete : sackEnv.Complete := by
  constructor
  · intro cd hcd f hf h
    simp only [sackEnv, List.mem_cons, List.not_mem_nil, or_false] at hcd
    rcases hcd with rfl | rfl | rfl <;> simp only [ClassDef.hints, List.mem_cons, List.not_mem_nil, or_false] at hf <;>
      rcases hf with rfl | rfl <;> simp only at h
    · cases h with | list h => exact absurd (tree_known h) (by decide)
    · cases h with
      | union ht h =>
        simp only [List.mem_cons, List.not_mem_nil, or_false] at ht
        rcases ht with rfl | rfl
        · exact absurd (tree_known h) (by decide)
        · cases h
    · cases h
    · cases h with | dict h => exact absurd (tree_known h) (by decide)
    · cases h with
      | union ht h =>
        simp only [List.mem_cons, List.not_mem_nil, or_false] at ht
        rcases ht with rfl | rfl
        · exact absurd (tree_known h) (by decide)
        · cases h
    · cases h
  · intro cd hcd f hf
    simp only [sackEnv, List.mem_cons, List.not_mem_nil, or_false] at hcd
    rcases hcd with rfl | rfl | rfl <;> simp only [ClassDef.hints, List.mem_cons, List.not_mem_nil, or_false] at hf <;>
      rcases hf with rfl | rfl <;> simp [Ty.litArgs, Ty.unwrapAnn]

/-- A class that refers to itself has a deserializer, but no serializer. -/
theorem C77_recursive_fails : (∀ skip, ∃ d, (getDeser sackEnv skip (.cls 0) Heap.empty).1 = .ok d) ∧
    serCreate sackEnv (.cls 0) = .error .recursion := ⟨fun skip => (by cases skip <;> exact ⟨_, rfl⟩), rfl⟩

/-- After a creation that has failed, C77 does not hold any more: the second time, the class has a deserializer (which does not
work, `C29_poisoned`). -/
theorem C77_after_failure_fails : ¬ HasReader sackEnv (.cls 2) ∧
    ∃ d, (getDeser sackEnv false (.cls 2) (history sackEnv [⟨false, .cls 2, .null⟩] Heap.empty)).1 = .ok d := by
  refine ⟨fun h => ?_, _, rfl⟩
  have h1 : Reaches sackEnv (.cls 2) 1 := .field (.here .cls) (cd := sackEnv.classes[2]) rfl rfl
    (f := { name := c!"sack", ty := .union [.cls 1, .none] }) (by simp [sackEnv, ClassDef.hints]) (.union (t := .cls 1) (by simp) .cls)
  exact h.2 1 h1 _ rfl rfl { name := c!"things", ty := .bareList } (by simp [ClassDef.hints])
    (.bare (t := .bareList) (by simp))

/-! ### The hypotheses are met -/

/-- The class that refers to itself is readable, after having been read before. -/
example : HasReader sackEnv (.list (.cls 0)) :=
  (C77_exists sackEnv sackEnv_ok sackEnv_complete [] (by simp) false (.list (.cls 0))
    (fun h => by cases h with | list h => exact absurd (tree_known h) (by decide))).1 ⟨_, rfl⟩

/-- The bag is not: the error is in a class that it leads to. -/
example : (getDeser sackEnv false (.cls 2) Heap.empty).1 = .error .typeError := rfl

end Verif
