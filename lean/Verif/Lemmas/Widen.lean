import Verif.Spec.Widen
import Verif.Lemmas.SchemaRead
/-!
# Values of a type in two versions of a program: lemmas
-/
namespace Verif

variable {vc : ValidatorCfg} {cfg : SchemaCfg}

/-- What is needed of the classes to carry over the values of types from one program to another, for values with `P`. -/
structure CarryClass (P : Json → Prop) (cd cd' : ClassDef) : Prop where
  known : ∀ kvs, P (.obj kvs) → (cd.hints ≠ [] → ∀ kv ∈ kvs, ∃ f ∈ cd.hints, jsonName f = kv.1) →
    cd'.hints ≠ [] → ∀ kv ∈ kvs, ∃ f ∈ cd'.hints, jsonName f = kv.1
  values : ∀ kvs, P (.obj kvs) → (cd.hints ≠ [] → ∀ kv ∈ kvs, ∃ f ∈ cd.hints, jsonName f = kv.1) →
    ∀ f ∈ cd'.hints, f ∈ cd.hints ∨ ∀ kv ∈ kvs, kv.1 ≠ jsonName f
  required : ∀ f ∈ cd'.hints, f.ty.isOptional = false → f ∈ cd.hints

theorem admits_carry {E E' : Env} {P : Json → Prop} (harr : ∀ xs, P (.arr xs) → ∀ x ∈ xs, P x)
    (hobj : ∀ kvs, P (.obj kvs) → ∀ kv ∈ kvs, P kv.2) (henums : E'.enums = E.enums)
    (hcls : ∀ (c : Nat) cd, E.classes[c]? = some cd → ∃ cd', E'.classes[c]? = some cd' ∧ CarryClass P cd cd' ∧
      ∀ f ∈ cd.hints, f ∈ cd'.hints → Exclusive vc cfg E' f.ty.required) :
    ∀ (n : Nat) (t : Ty), Exclusive vc cfg E' t → ∀ j : Json, sizeOf j < n → j.Wf → P j → Admits vc cfg E t j → Admits vc cfg E' t j := by
  intro n
  induction n with
  | zero => intro t _ j h; omega
  | succ n ihn =>
  intro t ht
  induction ht with
  | leaf h =>
    intro j _ _ _ ha
    simp only [List.mem_cons, List.not_mem_nil, or_false] at h
    rcases h with rfl | rfl | rfl | rfl | rfl | rfl | rfl | rfl | rfl | rfl | rfl | rfl | rfl | rfl | rfl | rfl | rfl <;>
    · rw [Admits] at ha ⊢
      · exact ha
      all_goals (intros; contradiction)
  | literal => intro j _ _ _ ha; rw [Admits] at ha ⊢; exact ha
  | enum => intro j _ _ _ ha; rw [Admits] at ha ⊢; rw [henums]; exact ha
  | annotated _ ih =>
    intro j hj hw hP ha
    rw [Admits] at ha ⊢
    exact ⟨ih j hj hw hP ha.1, ha.2⟩
  | list _ ih =>
    intro j hj hw hP ha
    rw [Admits] at ha ⊢
    obtain ⟨xs, rfl, ha⟩ := ha
    cases hw with
    | arr hw =>
      exact ⟨xs, rfl, fun x hm => ih x (by have := List.sizeOf_lt_of_mem hm; simp at hj; omega) (hw x hm) (harr xs hP x hm) (ha x hm)⟩
  | set _ ih =>
    intro j hj hw hP ha
    rw [Admits] at ha ⊢
    obtain ⟨xs, rfl, ha, hd⟩ := ha
    cases hw with
    | arr hw =>
      exact ⟨xs, rfl, fun x hm => ih x (by have := List.sizeOf_lt_of_mem hm; simp at hj; omega) (hw x hm) (harr xs hP x hm) (ha x hm), hd⟩
  | tuple _ ih =>
    intro j hj hw hP ha
    rw [Admits] at ha ⊢
    obtain ⟨xs, rfl, hl, ha⟩ := ha
    cases hw with
    | arr hw =>
      refine ⟨xs, rfl, hl, fun i t x ht hx => ?_⟩
      have hm := List.mem_of_getElem? hx
      exact ih t (List.mem_of_getElem? ht) x (by have := List.sizeOf_lt_of_mem hm; simp at hj; omega) (hw x hm) (harr xs hP x hm)
        (ha i t x ht hx)
  | @dict k t _ ih =>
    intro j hj hw hP ha
    rw [Admits] at ha ⊢
    obtain ⟨kvs, rfl, ha⟩ := ha
    cases hw with
    | obj _ hw =>
      refine ⟨kvs, rfl, fun kv hm => ⟨?_, ih kv.2 (Nat.lt_of_succ_lt (sizeOf_value hm hj)) (hw kv hm) (hobj kvs hP kv hm) (ha kv hm).2⟩⟩
      have := (ha kv hm).1
      cases k <;> simp only [KeyAdmits, henums] at this ⊢
      exact this
  | @union ts _ hex ih =>
    intro j hj hw hP ha
    rw [Admits] at ha ⊢
    obtain ⟨i, t, ht, ha, _⟩ := ha
    have ha' := ih t (List.mem_of_getElem? ht) j hj hw hP ha
    exact ⟨i, t, ht, ha', fun k u hk hu hau => hex k i u t hk hu ht j hw ⟨hau, ha'⟩⟩
  | @cls c =>
    intro j hj hw hP ha
    rw [Admits] at ha ⊢
    obtain ⟨kvs, cd, rfl, hc, h1, h2, h3⟩ := ha
    obtain ⟨cd', hc', hcc, hex⟩ := hcls c cd hc
    refine ⟨kvs, cd', rfl, hc', hcc.known kvs hP h1, ?_, ?_⟩
    · intro f hf kv hm hk
      rcases hcc.values kvs hP h1 f hf with hf' | hno
      · cases hw with
        | obj _ hw =>
          exact ihn _ (hex f hf' hf) kv.2 (Nat.lt_of_succ_lt_succ (sizeOf_value hm hj)) (hw kv hm) (hobj kvs hP kv hm) (h2 f hf' kv hm hk)
      · exact absurd hk (hno kv hm)
    · intro f hf ho
      exact h3 f (hcc.required f hf ho) ho

end Verif
