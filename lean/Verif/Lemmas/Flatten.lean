import Verif.Spec.Flatten
import Verif.Lemmas.Core
/-!
# Lemmas about flattening
-/
namespace Verif

/-- The nested node that the loop looks at. -/
def flatObj (o : FlatOpts) (c : SNode) : SNode := if o.recursive then flatten o c else c

/-- Properties that a property of the source contributes. -/
def contribProps (o : FlatOpts) (name : Str) : SNode → List (Str × SNode)
  | .leaf j => [(name, .leaf j)]
  | .object p a r x => ((flatObj o (.object p a r x)).props.getD []).map (fun q => (qualify o name q.1, q.2))

/-- Required names that a property of the source contributes. -/
def contribReqs (o : FlatOpts) (src : List Str) (name : Str) : SNode → List Str
  | .leaf _ => if name ∈ src then [name] else []
  | .object p a r x => ((flatObj o (.object p a r x)).required.getD []).map (qualify o name)

theorem flatStep_eq (o : FlatOpts) (src : List Str) (name : Str) (c : SNode) (st : List (Str × SNode) × List Str) :
    flatStep o src name c (flatten o c) st = (updateProps st.1 (contribProps o name c), st.2 ++ contribReqs o src name c) := by
  cases c with
  | leaf j =>
    simp only [flatStep, contribProps, contribReqs, updateProps]
    split <;> simp
  | object p a r x =>
    simp only [flatStep, contribProps, contribReqs, addProps, addReqs, flatObj]
    generalize (if o.recursive = true then flatten o (.object p a r x) else .object p a r x) = obj
    cases h1 : obj.props <;> cases h2 : obj.required <;> simp [updateProps]

theorem updateProps_append (d l l' : List (Str × SNode)) : updateProps d (l ++ l') = updateProps (updateProps d l) l' := by
  induction l generalizing d with
  | nil => rfl
  | cons p l ih => obtain ⟨k, v⟩ := p; exact ih _

/-- All contributions of a list of properties. -/
def allProps (o : FlatOpts) (l : List (Str × SNode)) : List (Str × SNode) := l.flatMap (fun p => contribProps o p.1 p.2)
def allReqs (o : FlatOpts) (src : List Str) (l : List (Str × SNode)) : List Str := l.flatMap (fun p => contribReqs o src p.1 p.2)

theorem flattenProps_eq (o : FlatOpts) (src : List Str) (l : List (Str × SNode)) (st : List (Str × SNode) × List Str) :
    flattenProps o src l st = (updateProps st.1 (allProps o l), st.2 ++ allReqs o src l) := by
  induction l generalizing st with
  | nil => simp [flattenProps, allProps, allReqs, updateProps]
  | cons p l ih =>
    obtain ⟨n, c⟩ := p
    simp only [flattenProps, flatStep_eq, ih]
    simp [allProps, allReqs, updateProps_append]

/-! ### Dictionaries -/

theorem updateProps_mem {d l : List (Str × SNode)} {p : Str × SNode} (h : p ∈ updateProps d l) : p ∈ d ∨ p ∈ l := by
  induction l generalizing d with
  | nil => exact Or.inl h
  | cons q l ih =>
    obtain ⟨k, v⟩ := q
    rcases ih h with h | h
    · rcases upsert_mem h with rfl | h
      · exact Or.inr (by simp)
      · exact Or.inl h
    · exact Or.inr (by simp [h])

theorem updateProps_keys {d l : List (Str × SNode)} {k : Str} :
    k ∈ (updateProps d l).map (·.1) ↔ k ∈ d.map (·.1) ∨ k ∈ l.map (·.1) := by
  induction l generalizing d with
  | nil => simp [updateProps]
  | cons q l ih =>
    obtain ⟨k', v⟩ := q
    simp only [updateProps, ih, upsert_keys, List.map_cons, List.mem_cons]
    split
    · rename_i h
      constructor
      · rintro (h' | h')
        · exact Or.inl h'
        · exact Or.inr (Or.inr h')
      · rintro (h' | rfl | h')
        · exact Or.inl h'
        · exact Or.inl h
        · exact Or.inr h'
    · simp only [List.mem_append, List.mem_singleton]
      constructor
      · rintro ((h' | h') | h')
        · exact Or.inl h'
        · exact Or.inr (Or.inl h')
        · exact Or.inr (Or.inr h')
      · rintro (h' | h' | h')
        · exact Or.inl (Or.inl h')
        · exact Or.inl (Or.inr h')
        · exact Or.inr h'

theorem updateProps_nodup {d l : List (Str × SNode)} (h : (d.map (·.1)).Nodup) : ((updateProps d l).map (·.1)).Nodup := by
  induction l generalizing d with
  | nil => exact h
  | cons q l ih => obtain ⟨k, v⟩ := q; exact ih (upsert_nodup h)

theorem updateProps_fresh {d l : List (Str × SNode)} (h : ((d ++ l).map (·.1)).Nodup) : updateProps d l = d ++ l := by
  induction l generalizing d with
  | nil => simp [updateProps]
  | cons q l ih =>
    obtain ⟨k, v⟩ := q
    have hk : k ∉ d.map (·.1) := by
      simp only [List.map_append, List.map_cons] at h
      intro hk
      exact (List.nodup_append.1 h).2.2 k hk k (by simp) rfl
    rw [updateProps, upsert_of_not_mem hk, ih (by simpa using h)]
    simp

theorem orNone_getD (l : List α) : (orNone l).getD [] = l := by
  unfold orNone
  cases l <;> simp

theorem orNone_mem {l : List α} {x : α} : x ∈ (orNone l).getD [] ↔ x ∈ l := by rw [orNone_getD]

/-! ### The result of flattening an object -/

theorem flatten_object_eq (o : FlatOpts) (p : Option (List (Str × SNode))) (a : Option Bool) (r : Option (List Str)) (x : Json) :
    flatten o (.object p a r x) = .object (orNone (updateProps [] (allProps o (p.getD [])))) (some false)
      (orNone (allReqs o (r.getD []) (p.getD []))) x := by
  cases p with
  | none => simp [flatten, allProps, allReqs, updateProps, orNone]
  | some l => simp [flatten, flattenProps_eq]

theorem flatten_props (o : FlatOpts) (p : Option (List (Str × SNode))) (a : Option Bool) (r : Option (List Str)) (x : Json) :
    (flatten o (.object p a r x)).props.getD [] = updateProps [] (allProps o (p.getD [])) := by
  rw [flatten_object_eq]
  exact orNone_getD _

theorem flatten_required (o : FlatOpts) (p : Option (List (Str × SNode))) (a : Option Bool) (r : Option (List Str)) (x : Json) :
    (flatten o (.object p a r x)).required.getD [] = allReqs o (r.getD []) (p.getD []) := by
  rw [flatten_object_eq]
  exact orNone_getD _

theorem allProps_mem {o : FlatOpts} {l : List (Str × SNode)} {q : Str × SNode} :
    q ∈ allProps o l ↔ ∃ n c, (n, c) ∈ l ∧ q ∈ contribProps o n c := by
  simp [allProps, List.mem_flatMap]

theorem allReqs_mem {o : FlatOpts} {src : List Str} {l : List (Str × SNode)} {q : Str} :
    q ∈ allReqs o src l ↔ ∃ n c, (n, c) ∈ l ∧ q ∈ contribReqs o src n c := by
  simp [allReqs, List.mem_flatMap]

theorem flatEntry_ne_nil {o : FlatOpts} {s : SNode} {p : List Str} {v : SNode} (h : FlatEntry o s p v) : p ≠ [] := by
  cases h <;> simp

theorem flatReq_ne_nil {o : FlatOpts} {s : SNode} {p : List Str} (h : FlatReq o s p) : p ≠ [] := by
  cases h <;> simp

theorem pathName_cons (o : FlatOpts) (n : Str) {p : List Str} (h : p ≠ []) : pathName o (n :: p) = qualify o n (pathName o p) := by
  cases p with
  | nil => exact absurd rfl h
  | cons m p =>
    simp only [pathName, qualify]
    split
    · simp [joinWith]
    · simp [List.getLastD]

theorem pathName_one (o : FlatOpts) (n : Str) : pathName o [n] = n := by
  simp [pathName, joinWith]

mutual

/-- Every property of the result comes from a path. -/
theorem flatten_sound (o : FlatOpts) : ∀ (s : SNode) (n : Str) (v : SNode), (n, v) ∈ (flatten o s).props.getD [] →
    ∃ p, FlatEntry o s p v ∧ pathName o p = n
  | .leaf j, n, v, h => by simp [flatten, SNode.props] at h
  | .object none a r x, n, v, h => by simp [flatten, SNode.props] at h
  | .object (some l) a r x, n, v, h => by
    have ih := flatten_soundL o l
    rw [flatten_props] at h
    rcases updateProps_mem h with h | h
    · simp at h
    obtain ⟨m, c, hmc, hq⟩ := allProps_mem.1 h
    have ihc := ih m c hmc
    cases c with
    | leaf j =>
      simp only [contribProps, List.mem_singleton, Prod.mk.injEq] at hq
      obtain ⟨rfl, rfl⟩ := hq
      exact ⟨[n], .here hmc, pathName_one o n⟩
    | object p' a' r' x' =>
      simp only [contribProps, List.mem_map, Prod.mk.injEq] at hq
      obtain ⟨⟨k, w⟩, hq, rfl, rfl⟩ := hq
      cases hr : o.recursive with
      | true =>
        simp only [flatObj, hr, if_true] at hq
        obtain ⟨p, hp, hn⟩ := ihc k w hq
        exact ⟨m :: p, .nested hr hmc hp, by rw [pathName_cons o m (flatEntry_ne_nil hp), hn]⟩
      | false =>
        simp only [flatObj, hr, Bool.false_eq_true, if_false, SNode.props] at hq
        cases p' with
        | none => simp at hq
        | some l' =>
          exact ⟨[m, k], .one hr hmc hq, by rw [pathName_cons o m (by simp), pathName_one]⟩

theorem flatten_soundL (o : FlatOpts) : ∀ (l : List (Str × SNode)) (m : Str) (c : SNode), (m, c) ∈ l →
    ∀ (n : Str) (v : SNode), (n, v) ∈ (flatten o c).props.getD [] → ∃ p, FlatEntry o c p v ∧ pathName o p = n
  | [], m, c, h, _, _, _ => absurd h (by simp)
  | (m', c') :: l, m, c, h, n, v, hv => by
    have ih1 := flatten_sound o c'
    have ih2 := flatten_soundL o l
    rcases List.mem_cons.1 h with h | h
    · simp only [Prod.mk.injEq] at h
      obtain ⟨rfl, rfl⟩ := h
      exact ih1 n v hv
    · exact ih2 m c h n v hv

end

/-- Every path gives a property name of the result. -/
theorem flatten_complete (o : FlatOpts) {s : SNode} {p : List Str} {v : SNode} (h : FlatEntry o s p v) :
    pathName o p ∈ ((flatten o s).props.getD []).map (·.1) := by
  induction h with
  | @here l a r x n j hm =>
    rw [flatten_props, updateProps_keys, pathName_one]
    refine Or.inr (List.mem_map.2 ⟨(n, .leaf j), allProps_mem.2 ⟨n, .leaf j, hm, by simp [contribProps]⟩, rfl⟩)
  | @nested l a r x n c p v hr hm hp ih =>
    rw [flatten_props, updateProps_keys, pathName_cons o n (flatEntry_ne_nil hp)]
    obtain ⟨⟨k, w⟩, hk, e⟩ := List.mem_map.1 ih
    simp only at e
    rw [← e]
    refine Or.inr (List.mem_map.2 ⟨(qualify o n k, w), allProps_mem.2 ⟨n, c, hm, ?_⟩, rfl⟩)
    cases hc : c with
    | leaf j => rw [hc] at hk; simp [flatten, SNode.props] at hk
    | object p' a' r' x' =>
      simp only [contribProps, flatObj, hr, if_true]
      rw [← hc]
      exact List.mem_map.2 ⟨(k, w), hk, rfl⟩
  | @one l a r x n l' a' r' x' m v hr hm hv =>
    rw [flatten_props, updateProps_keys, pathName_cons o n (by simp), pathName_one]
    refine Or.inr (List.mem_map.2 ⟨(qualify o n m, v), allProps_mem.2 ⟨n, _, hm, ?_⟩, rfl⟩)
    simp only [contribProps, flatObj, hr, Bool.false_eq_true, if_false, SNode.props, Option.getD_some]
    exact List.mem_map.2 ⟨(m, v), hv, rfl⟩

mutual

theorem flatten_reqs_sound (o : FlatOpts) : ∀ (s : SNode) (n : Str), n ∈ (flatten o s).required.getD [] →
    ∃ p, FlatReq o s p ∧ pathName o p = n
  | .leaf j, n, h => by simp [flatten, SNode.required] at h
  | .object none a r x, n, h => by simp [flatten, SNode.required] at h
  | .object (some l) a r x, n, h => by
    have ih := flatten_reqs_soundL o l
    rw [flatten_required] at h
    obtain ⟨m, c, hmc, hq⟩ := allReqs_mem.1 h
    have ihc := ih m c hmc
    cases c with
    | leaf j =>
      simp only [contribReqs] at hq
      split at hq
      · rename_i hsrc
        simp only [List.mem_singleton] at hq
        subst hq
        cases r with
        | none => simp at hsrc
        | some rs => exact ⟨[n], .here hmc hsrc, pathName_one o n⟩
      · simp at hq
    | object p' a' r' x' =>
      simp only [contribReqs, List.mem_map] at hq
      obtain ⟨k, hq, rfl⟩ := hq
      cases hr : o.recursive with
      | true =>
        simp only [flatObj, hr, if_true] at hq
        obtain ⟨p, hp, hn⟩ := ihc k hq
        exact ⟨m :: p, .nested hr hmc hp, by rw [pathName_cons o m (flatReq_ne_nil hp), hn]⟩
      | false =>
        simp only [flatObj, hr, Bool.false_eq_true, if_false, SNode.required] at hq
        cases r' with
        | none => simp at hq
        | some rs => exact ⟨[m, k], .one hr hmc hq, by rw [pathName_cons o m (by simp), pathName_one]⟩

theorem flatten_reqs_soundL (o : FlatOpts) : ∀ (l : List (Str × SNode)) (m : Str) (c : SNode), (m, c) ∈ l →
    ∀ (n : Str), n ∈ (flatten o c).required.getD [] → ∃ p, FlatReq o c p ∧ pathName o p = n
  | [], m, c, h, _, _ => absurd h (by simp)
  | (m', c') :: l, m, c, h, n, hv => by
    have ih1 := flatten_reqs_sound o c'
    have ih2 := flatten_reqs_soundL o l
    rcases List.mem_cons.1 h with h | h
    · simp only [Prod.mk.injEq] at h
      obtain ⟨rfl, rfl⟩ := h
      exact ih1 n hv
    · exact ih2 m c h n hv

end

theorem flatten_reqs_complete (o : FlatOpts) {s : SNode} {p : List Str} (h : FlatReq o s p) :
    pathName o p ∈ (flatten o s).required.getD [] := by
  induction h with
  | @here l a rs x n j hm hr =>
    rw [flatten_required, pathName_one]
    exact allReqs_mem.2 ⟨n, .leaf j, hm, by simp [contribReqs, hr]⟩
  | @nested l a r x n c p hr hm hp ih =>
    rw [flatten_required, pathName_cons o n (flatReq_ne_nil hp)]
    refine allReqs_mem.2 ⟨n, c, hm, ?_⟩
    cases hc : c with
    | leaf j => rw [hc] at ih; simp [flatten, SNode.required] at ih
    | object p' a' r' x' =>
      simp only [contribReqs, flatObj, hr, if_true]
      rw [← hc]
      exact List.mem_map.2 ⟨_, ih, rfl⟩
  | @one l a r x n p' a' rs x' m hr hm hv =>
    rw [flatten_required, pathName_cons o n (by simp), pathName_one]
    refine allReqs_mem.2 ⟨n, _, hm, ?_⟩
    simp only [contribReqs, flatObj, hr, Bool.false_eq_true, if_false, SNode.required, Option.getD_some]
    exact List.mem_map.2 ⟨m, hv, rfl⟩

/-- A recursive path to a required property is a path to a property. -/
theorem flatReq_entry {o : FlatOpts} (hr : o.recursive = true) {s : SNode} {p : List Str} (h : FlatReq o s p) :
    ∃ v, FlatEntry o s p v := by
  induction h with
  | here hm _ => exact ⟨_, .here hm⟩
  | nested h1 h2 h3 ih =>
    obtain ⟨v, hv⟩ := ih
    exact ⟨v, .nested h1 h2 hv⟩
  | one h1 => rw [hr] at h1; exact absurd h1 (by decide)

theorem flatEntry_leaf {o : FlatOpts} (hr : o.recursive = true) {s : SNode} {p : List Str} {v : SNode} (h : FlatEntry o s p v) :
    ∃ j, v = .leaf j := by
  induction h with
  | here => exact ⟨_, rfl⟩
  | nested _ _ _ ih => exact ih
  | one h1 => rw [hr] at h1; exact absurd h1 (by decide)

/-- In a dictionary a name has one value. -/
theorem mem_nodup_unique {l : List (Str × SNode)} (h : (l.map (·.1)).Nodup) {n : Str} {a b : SNode} (ha : (n, a) ∈ l)
    (hb : (n, b) ∈ l) : a = b := by
  have h1 := lookupKey_of_mem h ha
  have h2 := lookupKey_of_mem h hb
  rw [h1] at h2
  exact Option.some.inj h2

/-- A path leads to one property. -/
theorem flatEntry_functional {o : FlatOpts} {s : SNode} (hw : s.Wf) {p : List Str} {v w : SNode} (h : FlatEntry o s p v)
    (h' : FlatEntry o s p w) : v = w := by
  induction h generalizing w with
  | @here l a r x n j hm =>
    cases hw with
    | some hn hw =>
    cases h' with
    | here hm' => exact mem_nodup_unique hn hm hm'
    | nested _ _ hp => exact absurd rfl (flatEntry_ne_nil hp)
  | @nested l a r x n c p v hr hm hp ih =>
    cases hw with
    | some hn hw =>
    cases h' with
    | here hm' => exact absurd rfl (flatEntry_ne_nil hp)
    | nested _ hm' hp' =>
      have := mem_nodup_unique hn hm hm'
      subst this
      exact ih (hw _ hm) hp'
    | one hr' => rw [hr] at hr'; exact absurd hr' (by decide)
  | @one l a r x n l' a' r' x' m v hr hm hv =>
    cases hw with
    | some hn hw =>
    cases h' with
    | nested hr' => rw [hr] at hr'; exact absurd hr' (by decide)
    | one _ hm' hv' =>
      have := mem_nodup_unique hn hm hm'
      injection this with e1 e2 e3 e4
      injection e1 with e1
      subst e1
      have hw' := hw _ hm
      cases hw' with
      | some hn' _ => exact mem_nodup_unique hn' hv hv'

/-! ### Names with dots -/

theorem joinWith_dotfree_inj : ∀ (p q : List Str), p ≠ [] → q ≠ [] → (∀ x ∈ p, '.' ∉ x) → (∀ x ∈ q, '.' ∉ x) →
    joinWith '.' p = joinWith '.' q → p = q := by
  have split : ∀ (x y s t : Str), '.' ∉ x → '.' ∉ y → x ++ '.' :: s = y ++ '.' :: t → x = y ∧ s = t := by
    intro x
    induction x with
    | nil =>
      intro y s t _ hy h
      cases y with
      | nil => simpa using h
      | cons c y => simp at h; exact absurd h.1 (by simp at hy; exact hy.1)
    | cons c x ih =>
      intro y s t hx hy h
      cases y with
      | nil => simp at h; exact absurd h.1.symm (by simp at hx; exact hx.1)
      | cons d y =>
        simp only [List.cons_append, List.cons.injEq] at h
        simp only [List.mem_cons, not_or] at hx hy
        have := ih y s t hx.2 hy.2 h.2
        exact ⟨by rw [h.1, this.1], this.2⟩
  have nodot : ∀ (x y s : Str), '.' ∉ x → x ≠ y ++ '.' :: s := by
    intro x y s hx e
    rw [e] at hx
    simp at hx
  intro p
  induction p with
  | nil => intro q h; exact absurd rfl h
  | cons x p ih =>
    intro q _ hq hp hq' h
    cases q with
    | nil => exact absurd rfl hq
    | cons y q =>
      cases p with
      | nil =>
        cases q with
        | nil => simpa [joinWith] using h
        | cons y' q => exact absurd h (nodot _ _ _ (hp x (by simp)))
      | cons x' p =>
        cases q with
        | nil => exact absurd h.symm (nodot _ _ _ (hq' y (by simp)))
        | cons y' q =>
          simp only [joinWith] at h
          obtain ⟨e1, e2⟩ := split x y _ _ (hp x (by simp)) (hq' y (by simp)) h
          have := ih (y' :: q) (by simp) (by simp) (fun z hz => hp z (by simp [List.mem_cons.1 hz]))
            (fun z hz => hq' z (by simp [List.mem_cons.1 hz])) e2
          rw [e1, this]

theorem flatEntry_dotfree {o : FlatOpts} {s : SNode} (hd : DotFree s) {p : List Str} {v : SNode} (h : FlatEntry o s p v) :
    ∀ x ∈ p, '.' ∉ x := by
  induction h with
  | here hm =>
    cases hd with
    | some h1 h2 => intro x hx; simp only [List.mem_singleton] at hx; subst hx; exact h1 _ hm
  | nested _ hm _ ih =>
    cases hd with
    | some h1 h2 =>
      intro x hx
      rcases List.mem_cons.1 hx with rfl | hx
      · exact h1 _ hm
      · exact ih (h2 _ hm) x hx
  | one _ hm hv =>
    cases hd with
    | some h1 h2 =>
      have h3 := h2 _ hm
      cases h3 with
      | some h3 _ =>
        intro x hx
        simp only [List.mem_cons, List.not_mem_nil, or_false] at hx
        rcases hx with rfl | rfl
        · exact h1 _ hm
        · exact h3 _ hv

/-! ### Flattening twice -/

/-- A node whose properties are all leaves. -/
def AllLeaves (l : List (Str × SNode)) : Prop := ∀ n v, (n, v) ∈ l → ∃ j, v = .leaf j

theorem allProps_leaves (o : FlatOpts) : ∀ {l : List (Str × SNode)}, AllLeaves l → allProps o l = l
  | [], _ => rfl
  | (n, c) :: l, h => by
    obtain ⟨j, rfl⟩ := h n c (by simp)
    have ih := allProps_leaves o (l := l) (fun n v hv => h n v (by simp [hv]))
    simp only [allProps] at ih
    simp only [allProps, List.flatMap_cons, ih]
    rfl

theorem allReqs_leaves (o : FlatOpts) (src : List Str) : ∀ {l : List (Str × SNode)}, AllLeaves l →
    allReqs o src l = (l.map (·.1)).filter (· ∈ src)
  | [], _ => rfl
  | (n, c) :: l, h => by
    obtain ⟨j, rfl⟩ := h n c (by simp)
    have ih := allReqs_leaves o src (l := l) (fun n v hv => h n v (by simp [hv]))
    simp only [allReqs] at ih
    simp only [allReqs, List.flatMap_cons, ih, List.map_cons, List.filter_cons, decide_eq_true_eq]
    simp only [contribReqs]
    split <;> simp

/-- Flattening an object whose properties are all leaves only reorders and filters the required names. -/
theorem flatten_leaves (o : FlatOpts) {l : List (Str × SNode)} {rs : List Str} {x : Json} (hl : AllLeaves l)
    (hn : (l.map (·.1)).Nodup) (a : Option Bool) :
    flatten o (.object (orNone l) a (orNone rs) x) =
      .object (orNone l) (some false) (orNone ((l.map (·.1)).filter (· ∈ rs))) x := by
  rw [flatten_object_eq, orNone_getD, orNone_getD, allProps_leaves o hl, allReqs_leaves o rs hl, updateProps_fresh (by simpa using hn)]
  simp

theorem sublist_filter_eq : ∀ {rs ks : List Str}, ks.Nodup → rs.Sublist ks → ks.filter (· ∈ rs) = rs
  | rs, [], _, h => by simp at h; simp [h]
  | rs, k :: ks, hn, h => by
    have hk : k ∉ ks := (List.nodup_cons.1 hn).1
    have hn' := (List.nodup_cons.1 hn).2
    cases h with
    | cons _ h =>
      have hkr : k ∉ rs := fun hk' => hk (h.subset hk')
      simp [List.filter_cons, hkr, sublist_filter_eq hn' h]
    | @cons_cons rs' _ _ h =>
      have ih := sublist_filter_eq hn' h
      have : ks.filter (· ∈ k :: rs') = ks.filter (· ∈ rs') := by
        refine List.filter_congr ?_
        intro y hy
        have : y ≠ k := fun e => hk (e ▸ hy)
        simp [this]
      simp only [List.filter_cons, List.mem_cons, true_or, decide_true, if_true]
      simp only [List.mem_cons] at this
      rw [this, ih]

theorem qualify_inj (o : FlatOpts) (n : Str) {a b : Str} (h : qualify o n a = qualify o n b) : a = b := by
  unfold qualify at h
  split at h
  · simpa using h
  · exact h

/-- Names contributed by a property. -/
theorem contribProps_entry {o : FlatOpts} {n : Str} {c : SNode} {k : Str} (h : k ∈ (contribProps o n c).map (·.1))
    {l : List (Str × SNode)} (hm : (n, c) ∈ l) (a : Option Bool) (r : Option (List Str)) (x : Json) :
    ∃ p v, FlatEntry o (.object (some l) a r x) (n :: p) v ∧ pathName o (n :: p) = k := by
  obtain ⟨⟨k', w⟩, hq, rfl⟩ := List.mem_map.1 h
  cases c with
  | leaf j =>
    simp only [contribProps, List.mem_singleton, Prod.mk.injEq] at hq
    obtain ⟨rfl, rfl⟩ := hq
    exact ⟨[], _, .here hm, pathName_one o _⟩
  | object p' a' r' x' =>
    simp only [contribProps, List.mem_map, Prod.mk.injEq] at hq
    obtain ⟨⟨k, w'⟩, hq, rfl, rfl⟩ := hq
    cases hr : o.recursive with
    | true =>
      simp only [flatObj, hr, if_true] at hq
      obtain ⟨p, hp, hn⟩ := flatten_sound o _ k w' hq
      exact ⟨p, _, .nested hr hm hp, by rw [pathName_cons o n (flatEntry_ne_nil hp), hn]⟩
    | false =>
      simp only [flatObj, hr, Bool.false_eq_true, if_false, SNode.props] at hq
      cases p' with
      | none => simp at hq
      | some l' => exact ⟨[k], _, .one hr hm hq, by rw [pathName_cons o n (by simp), pathName_one]⟩

theorem flatten_nodup (o : FlatOpts) (s : SNode) : (((flatten o s).props.getD []).map (·.1)).Nodup := by
  cases s with
  | leaf j => simp [flatten, SNode.props]
  | object p a r x => rw [flatten_props]; exact updateProps_nodup (by simp)

theorem contribProps_nodup (o : FlatOpts) (hr : o.recursive = true) (n : Str) (c : SNode) : ((contribProps o n c).map (·.1)).Nodup := by
  cases c with
  | leaf j => simp [contribProps]
  | object p a r x =>
    have := flatten_nodup o (.object p a r x)
    simp only [contribProps, flatObj, hr, if_true, List.map_map]
    have e : (fun q : Str × SNode => q.1) ∘ (fun q : Str × SNode => (qualify o n q.1, q.2)) = (qualify o n) ∘ (·.1) := rfl
    rw [e, ← List.map_map]
    exact List.Pairwise.map _ (fun a b hab e => hab (qualify_inj o n e)) this

/-- Without collisions the names contributed by a list of properties are distinct. -/
theorem allProps_nodup {o : FlatOpts} (hr : o.recursive = true) {l : List (Str × SNode)} {a : Option Bool} {r : Option (List Str)}
    {x : Json} (hn : (l.map (·.1)).Nodup) (hc : NoCollision o (.object (some l) a r x)) :
    ((allProps o l).map (·.1)).Nodup := by
  have key : ∀ l' : List (Str × SNode), (∀ q ∈ l', q ∈ l) → (l'.map (·.1)).Nodup → ((allProps o l').map (·.1)).Nodup := by
    intro l'
    induction l' with
    | nil => intro _ _; simp [allProps]
    | cons q l' ih =>
      intro hs hn'
      obtain ⟨n, c⟩ := q
      have ih' := ih (fun q hq => hs q (by simp [hq])) (List.nodup_cons.1 hn').2
      have e : allProps o ((n, c) :: l') = contribProps o n c ++ allProps o l' := rfl
      rw [e, List.map_append]
      refine List.nodup_append.2 ⟨contribProps_nodup o hr n c, ih', ?_⟩
      intro k hk k' hk' ekk
      subst ekk
      obtain ⟨⟨k2, w⟩, hq, e2⟩ := List.mem_map.1 hk'
      obtain ⟨m, d, hmd, hq'⟩ := allProps_mem.1 hq
      obtain ⟨p1, v1, h1, e1⟩ := contribProps_entry hk (hs (n, c) (by simp)) a r x
      obtain ⟨p2, v2, h2, e3⟩ := contribProps_entry (k := k) (List.mem_map.2 ⟨_, hq', e2⟩) (hs (m, d) (by simp [hmd])) a r x
      have := hc _ _ _ _ h1 h2 (e1.trans e3.symm)
      injection this with e4 _
      subst e4
      exact (List.nodup_cons.1 hn').1 (List.mem_map.2 ⟨(n, d), hmd, rfl⟩)
  exact key l (fun q hq => hq) hn

theorem noCollision_nested {o : FlatOpts} (hr : o.recursive = true) {l : List (Str × SNode)} {a : Option Bool}
    {r : Option (List Str)} {x : Json} (hc : NoCollision o (.object (some l) a r x)) {n : Str} {c : SNode} (hm : (n, c) ∈ l) :
    NoCollision o c := by
  intro p q v w hp hq e
  have := hc (n :: p) (n :: q) v w (.nested hr hm hp) (.nested hr hm hq)
    (by rw [pathName_cons o n (flatEntry_ne_nil hp), pathName_cons o n (flatEntry_ne_nil hq), e])
  injection this

mutual

/-- Without collisions the required names of the result are in the order of its properties. -/
theorem flatten_reqs_sublist (o : FlatOpts) (hr : o.recursive = true) : ∀ (s : SNode), s.Wf → NoCollision o s →
    ((flatten o s).required.getD []).Sublist (((flatten o s).props.getD []).map (·.1))
  | .leaf j, _, _ => by simp [flatten, SNode.required, SNode.props]
  | .object none a r x, _, _ => by simp [flatten, SNode.required, SNode.props]
  | .object (some l) a r x, hw, hc => by
    have ih := flatten_reqs_sublistL o hr l
    rw [flatten_props, flatten_required]
    simp only [Option.getD_some]
    cases hw with
    | some hn hw =>
    have hnd := allProps_nodup hr hn hc
    rw [updateProps_fresh (by simpa using hnd), List.nil_append]
    have ih' := ih hw (fun n c hm => noCollision_nested hr hc hm)
    clear ih hw hc hn hnd
    induction l with
    | nil => simp [allReqs, allProps]
    | cons q l ihl =>
      obtain ⟨n, c⟩ := q
      have e1 : allProps o ((n, c) :: l) = contribProps o n c ++ allProps o l := rfl
      have e2 : allReqs o (r.getD []) ((n, c) :: l) = contribReqs o (r.getD []) n c ++ allReqs o (r.getD []) l := rfl
      rw [e1, e2, List.map_append]
      refine List.Sublist.append ?_ (ihl (fun m d hm => ih' m d (by simp [hm])))
      have := ih' n c (by simp)
      cases c with
      | leaf j =>
        simp only [contribReqs, contribProps]
        split <;> simp
      | object p' a' r' x' =>
        simp only [contribReqs, contribProps, flatObj, hr, if_true, List.map_map]
        have e : (fun q : Str × SNode => q.1) ∘ (fun q : Str × SNode => (qualify o n q.1, q.2)) = (qualify o n) ∘ (·.1) := rfl
        rw [e, ← List.map_map]
        exact this.map _

theorem flatten_reqs_sublistL (o : FlatOpts) (hr : o.recursive = true) : ∀ (l : List (Str × SNode)), (∀ p ∈ l, p.2.Wf) →
    (∀ n c, (n, c) ∈ l → NoCollision o c) → ∀ n c, (n, c) ∈ l →
    ((flatten o c).required.getD []).Sublist (((flatten o c).props.getD []).map (·.1))
  | [], _, _, n, c, h => absurd h (by simp)
  | (m, d) :: l, hw, hc, n, c, h => by
    have ih1 := flatten_reqs_sublist o hr d
    have ih2 := flatten_reqs_sublistL o hr l
    rcases List.mem_cons.1 h with h | h
    · simp only [Prod.mk.injEq] at h
      obtain ⟨rfl, rfl⟩ := h
      exact ih1 (hw (n, c) (by simp)) (hc n c (by simp))
    · exact ih2 (fun p hp => hw p (by simp [hp])) (fun n c hm => hc n c (by simp [hm])) n c h

end

end Verif
