import Verif.Lemmas.Cache
/-!
# Lemmas: classes with an entry in the cache, in all programs
-/
namespace Verif

variable {env : Env}

/-- A class that is created has an entry, even if creation fails. -/
theorem buildCls_left (skip : Bool) (n : Nat) (c : Nat) (cd : ClassDef) (H : Heap) : (buildCls env skip n c cd H).2.Dom cd.key := by
  unfold buildCls
  split
  · exact Heap.dom_put_self _ _ _
  · cases n with
    | zero => exact Heap.dom_put_self _ _ _
    | succ n =>
      have := getFields_frame (env := env) _ _ (buildCls_frame env skip n) cd.kind cd.hints _
        (Heap.put_self H cd.key (.cls c skip Option.none))
      simp only
      split <;> rename_i hm <;> rw [hm] at this
      · exact Heap.dom_put_self _ _ _
      · exact fun hn => nomatch hn.symm.trans this

/-- After a call for a class there is an entry for it. -/
theorem jsonToObject_left (skip : Bool) {c : Nat} {cd : ClassDef} (hc : env.classes[c]? = some cd) (j : Json) (H : Heap) :
    (jsonToObject env skip (.cls c) j H).2.Dom cd.key := by
  have : (getDeser env skip (.cls c) H).2.Dom cd.key := by
    simp only [getDeser, getWith, getCls, hc]
    cases he : H cd.key with
    | some e => simp [Heap.Dom, he]
    | none =>
      have := buildCls_left (env := env) skip env.classes.length c cd H
      simp only
      split <;> rename_i hm <;> split at hm <;> rename_i hm' <;> rw [hm'] at this <;> cases hm <;> exact this
  unfold jsonToObject
  split <;> rename_i hm <;> rw [hm] at this <;> exact this

theorem history_left (calls : List Call) {c : Nat} {cd : ClassDef} (hc : env.classes[c]? = some cd) : ∀ (H : Heap),
    (∃ call ∈ calls, call.ty = .cls c) → (history env calls H).Dom cd.key := by
  induction calls with
  | nil => rintro _ ⟨_, h, -⟩; cases h
  | cons x cs ih =>
    rintro H ⟨call, hm, ht⟩
    rcases List.mem_cons.1 hm with rfl | hm
    · obtain ⟨s, t, j⟩ := call
      cases ht
      obtain ⟨e, he⟩ := Option.ne_none_iff_exists'.1 (jsonToObject_left s hc j H)
      exact fun hn => nomatch hn.symm.trans (history_frame env cs _ _ e he)
    · exact ih _ ⟨call, hm, ht⟩

/-- Classes with the same key are read in the same way when there is an entry, with any options. -/
theorem jsonToObject_same {c c' : Nat} {cd cd' : ClassDef} (hc : env.classes[c]? = some cd) (hc' : env.classes[c']? = some cd')
    (hk : cd.key = cd'.key) {H : Heap} (h : H.Dom cd.key) (skip skip' : Bool) (j : Json) :
    jsonToObject env skip (.cls c) j H = jsonToObject env skip' (.cls c') j H := by
  obtain ⟨e, he⟩ := Option.ne_none_iff_exists'.1 h
  simp only [jsonToObject, getDeser, getWith, getCls, hc, hc', ← hk, he]

end Verif
