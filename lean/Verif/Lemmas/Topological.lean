import Verif.Model.Topological
import Verif.Spec.Graph
/-! Invariants of depth-first search. -/
namespace Verif

variable {α : Type} [DecidableEq α]

theorem lookup_some_mem {β : Type} {l : List (α × β)} {k : α} {v : β} (h : l.lookup k = some v) : (k, v) ∈ l := by
  induction l with
  | nil => cases h
  | cons p l ih =>
    obtain ⟨k', v'⟩ := p
    simp only [List.lookup_cons] at h
    by_cases e : k = k'
    · subst e; simp at h; subst h; simp
    · have : (k == k') = false := by simpa using e
      rw [this] at h
      exact List.mem_cons_of_mem _ (ih h)

theorem lookup_of_mem {β : Type} {l : List (α × β)} {k : α} {v : β} (hn : (l.map Prod.fst).Nodup) (h : (k, v) ∈ l) :
    l.lookup k = some v := by
  induction l with
  | nil => cases h
  | cons p l ih =>
    obtain ⟨k', v'⟩ := p
    simp only [List.map_cons, List.nodup_cons] at hn
    simp only [List.lookup_cons]
    rcases List.mem_cons.1 h with e | h2
    · cases e; simp
    · have hne : k ≠ k' := by
        intro e; subst e
        exact hn.1 (List.mem_map.2 ⟨(k, v), h2, rfl⟩)
      have : (k == k') = false := by simpa using hne
      rw [this]
      exact ih hn.2 h2

theorem lookup_none_iff {β : Type} {l : List (α × β)} {k : α} : l.lookup k = none ↔ k ∉ l.map Prod.fst := by
  induction l with
  | nil => simp
  | cons p l ih =>
    obtain ⟨k', v'⟩ := p
    simp only [List.lookup_cons, List.map_cons, List.mem_cons, not_or]
    by_cases e : k = k'
    · subst e; simp
    · have : (k == k') = false := by simpa using e
      rw [this]; simp [e, ih]

theorem lookup_cons_self {β : Type} (k : α) (v : β) (l : List (α × β)) : ((k, v) :: l).lookup k = some v := by
  simp

theorem lookup_cons_ne {β : Type} {k k' : α} (h : k ≠ k') (v : β) (l : List (α × β)) :
    ((k', v) :: l).lookup k = l.lookup k := by
  rw [List.lookup_cons]
  have : (k == k') = false := by simpa using h
  rw [this]

theorem Before.append {l : List α} {m n : α} (h : Before l m n) (r : List α) : Before (l ++ r) m n := by
  obtain ⟨l1, l2, rfl, hm⟩ := h
  exact ⟨l1, l2 ++ r, by simp, hm⟩

/-- State invariant. -/
structure TopoInv (g : List (α × List α)) (st : TopoState α) : Prop where
  perm : ∀ x, st.seen.lookup x = some true ↔ x ∈ st.ordered
  nodup : st.ordered.Nodup
  keys : ∀ x ∈ st.ordered, x ∈ g.map Prod.fst
  after : ∀ x ∈ st.ordered, ∀ m, Edge g x m → Before st.ordered m x

/-- Relation between the states before and after a successful visit. -/
structure TopoExt (st st' : TopoState α) : Prop where
  ext : ∃ t, st'.ordered = st.ordered ++ t
  temp : ∀ x, st'.seen.lookup x = some false ↔ st.seen.lookup x = some false

theorem TopoExt.refl (st : TopoState α) : TopoExt st st := ⟨⟨[], by simp⟩, fun _ => Iff.rfl⟩

theorem TopoExt.trans {a b c : TopoState α} (h1 : TopoExt a b) (h2 : TopoExt b c) : TopoExt a c := by
  obtain ⟨⟨t, ht⟩, h1⟩ := h1
  obtain ⟨⟨u, hu⟩, h2⟩ := h2
  exact ⟨⟨t ++ u, by rw [hu, ht, List.append_assoc]⟩, fun x => (h2 x).trans (h1 x)⟩

theorem edge_iff_adj {g : List (α × List α)} (hk : GraphKeys g) {n m : α} {ms : List α} (h : adj g n = some ms) :
    Edge g n m ↔ m ∈ ms.filter (· ≠ n) := by
  have hmem := lookup_some_mem h
  constructor
  · rintro ⟨ms', h1, h2, h3⟩
    have := lookup_of_mem hk h1
    unfold adj at h
    rw [h] at this
    injection this with this
    subst this
    simp [h2, h3]
  · intro h1
    simp only [List.mem_filter, decide_eq_true_eq] at h1
    exact ⟨ms, hmem, h1.1, h1.2⟩

theorem visitList_ok (g : List (α × List α)) (v : α → TopoState α → Option (Res (TopoState α)))
    (hv : ∀ m st st', TopoInv g st → v m st = some (.ok st') → TopoInv g st' ∧ TopoExt st st' ∧ m ∈ st'.ordered) :
    ∀ (ms : List α) st st', TopoInv g st → visitList v ms st = some (.ok st') →
      TopoInv g st' ∧ TopoExt st st' ∧ ∀ m ∈ ms, m ∈ st'.ordered := by
  intro ms
  induction ms with
  | nil =>
    intro st st' hi h
    simp only [visitList, Option.some.injEq, Except.ok.injEq] at h
    subst h
    exact ⟨hi, TopoExt.refl _, by simp⟩
  | cons m ms ih =>
    intro st st' hi h
    unfold visitList at h
    split at h
    · cases h
    · cases h
    · rename_i st1 h1
      obtain ⟨i1, e1, m1⟩ := hv m st st1 hi h1
      obtain ⟨i2, e2, m2⟩ := ih st1 st' i1 h
      refine ⟨i2, e1.trans e2, ?_⟩
      intro x hx
      rcases List.mem_cons.1 hx with rfl | hx
      · obtain ⟨t, ht⟩ := e2.ext
        rw [ht]; simp [m1]
      · exact m2 x hx

theorem visit_ok (g : List (α × List α)) (hk : GraphKeys g) : ∀ fuel n st st', TopoInv g st →
    visit g fuel n st = some (.ok st') → TopoInv g st' ∧ TopoExt st st' ∧ n ∈ st'.ordered := by
  intro fuel
  induction fuel with
  | zero => intro n st st' _ h; cases h
  | succ fuel ih =>
    intro n st st' hi h
    unfold visit at h
    split at h
    · rename_i hs
      simp only [Option.some.injEq, Except.ok.injEq] at h
      subst h
      exact ⟨hi, TopoExt.refl _, (hi.perm n).1 hs⟩
    · cases h
    · rename_i hs
      simp only at h
      split at h
      · cases h
      · rename_i ms hms
        have hnk : n ∈ g.map Prod.fst := List.mem_map.2 ⟨_, lookup_some_mem hms, rfl⟩
        split at h
        · cases h
        · cases h
        · rename_i st1 h1
          simp only [Option.some.injEq, Except.ok.injEq] at h
          subst h
          have hn0 : n ∉ st.ordered := by
            intro hn; rw [(hi.perm n).2 hn] at hs; cases hs
          have hi0 : TopoInv g { st with seen := (n, false) :: st.seen } := by
            refine ⟨?_, hi.nodup, hi.keys, hi.after⟩
            intro x
            by_cases e : x = n
            · subst e; rw [lookup_cons_self]; simp [hn0]
            · rw [lookup_cons_ne e]; exact hi.perm x
          obtain ⟨i1, e1, m1⟩ := visitList_ok g _ ih _ _ _ hi0 h1
          have ht1 : st1.seen.lookup n = some false := (e1.temp n).2 (lookup_cons_self _ _ _)
          have hn1 : n ∉ st1.ordered := by
            intro hn; rw [(i1.perm n).2 hn] at ht1; cases ht1
          refine ⟨⟨?_, ?_, ?_, ?_⟩, ⟨?_, ?_⟩, by simp⟩
          · intro x
            by_cases e : x = n
            · subst e; rw [lookup_cons_self]; simp
            · rw [lookup_cons_ne e, i1.perm x]; simp [e]
          · simp only [List.nodup_append, List.nodup_cons, List.not_mem_nil, not_false_eq_true, List.nodup_nil, and_self,
              List.mem_singleton, true_and]
            refine ⟨i1.nodup, ?_⟩
            rintro a ha b rfl e
            subst e; exact hn1 ha
          · intro x hx
            simp only [List.mem_append, List.mem_singleton] at hx
            rcases hx with hx | rfl
            · exact i1.keys x hx
            · exact hnk
          · intro x hx m hm
            simp only [List.mem_append, List.mem_singleton] at hx
            rcases hx with hx | rfl
            · exact (i1.after x hx m hm).append _
            · have := (edge_iff_adj hk hms).1 hm
              exact ⟨st1.ordered, [], rfl, m1 m this⟩
          · obtain ⟨t, ht⟩ := e1.ext
            exact ⟨t ++ [n], by simp only [ht, List.append_assoc]⟩
          · intro x
            by_cases e : x = n
            · subst e; rw [lookup_cons_self, hs]; simp
            · rw [lookup_cons_ne e, e1.temp x, lookup_cons_ne e]

/-- An error is either a cycle or a missing key. -/
theorem visit_err (g : List (α × List α)) (hk : GraphKeys g) : ∀ fuel n st e, TopoInv g st →
    (∀ t, st.seen.lookup t = some false → Path g t n) →
    visit g fuel n st = some (.error e) → (e = .runtime ∧ Cyclic g) ∨ (e = .key ∧ ¬ GraphClosed g) ∨
      (e = .key ∧ n ∉ g.map Prod.fst) := by
  intro fuel
  induction fuel with
  | zero => intro n st e _ _ h; cases h
  | succ fuel ih =>
    intro n st e hi hp h
    unfold visit at h
    split at h
    · cases h
    · rename_i hs
      simp only [Option.some.injEq, Except.error.injEq] at h
      exact Or.inl ⟨h.symm, n, hp n hs⟩
    · rename_i hs
      simp only at h
      split at h
      · rename_i hms
        simp only [Option.some.injEq, Except.error.injEq] at h
        exact Or.inr (Or.inr ⟨h.symm, lookup_none_iff.1 hms⟩)
      · rename_i ms hms
        have hn0 : n ∉ st.ordered := by
          intro hn; rw [(hi.perm n).2 hn] at hs; cases hs
        have hi0 : TopoInv g { st with seen := (n, false) :: st.seen } := by
          refine ⟨?_, hi.nodup, hi.keys, hi.after⟩
          intro x
          by_cases e : x = n
          · subst e; rw [lookup_cons_self]; simp [hn0]
          · rw [lookup_cons_ne e]; exact hi.perm x
        split at h
        · cases h
        · rename_i e' h1
          simp only [Option.some.injEq, Except.error.injEq] at h
          subst h
          -- every adjacent node is reachable from all temporarily marked nodes
          have hp' : ∀ m ∈ ms.filter (· ≠ n), ∀ t, ((n, false) :: st.seen).lookup t = some false → Path g t m := by
            intro m hm t ht
            have he := (edge_iff_adj hk hms).2 hm
            by_cases e : t = n
            · subst e; exact Path.one he
            · rw [lookup_cons_ne e] at ht; exact Path.more (hp t ht) he
          -- strengthen to track membership of the list
          have key : ∀ (l : List α), (∀ m ∈ l, m ∈ ms.filter (· ≠ n)) → ∀ st0, TopoInv g st0 →
              (∀ t, st0.seen.lookup t = some false ↔ ((n, false) :: st.seen).lookup t = some false) →
              visitList (visit g fuel) l st0 = some (.error e') →
              (e' = .runtime ∧ Cyclic g) ∨ (e' = .key ∧ ¬ GraphClosed g) := by
            intro l
            induction l with
            | nil => intro _ st0 _ _ h; simp [visitList] at h
            | cons m l ihl =>
              intro hl st0 hi0 ht0 h
              have hmm := hl m (by simp)
              unfold visitList at h
              split at h
              · cases h
              · rename_i e2 h2
                simp only [Option.some.injEq, Except.error.injEq] at h
                subst h
                rcases ih m st0 _ hi0 (fun t ht => hp' m hmm t ((ht0 t).1 ht)) h2 with r | r | r
                · exact Or.inl r
                · exact Or.inr r
                · refine Or.inr ⟨r.1, ?_⟩
                  intro hc
                  exact r.2 (hc n ms (lookup_some_mem hms) m (List.mem_filter.1 hmm).1)
              · rename_i st1 h2
                obtain ⟨i1, e1, _⟩ := visit_ok g hk _ _ _ _ hi0 h2
                exact ihl (fun m' hm' => hl m' (by simp [hm'])) st1 i1 (fun t => (e1.temp t).trans (ht0 t)) h
          rcases key _ (fun _ h => h) _ hi0 (fun _ => Iff.rfl) h1 with r | r
          · exact Or.inl r
          · exact Or.inr (Or.inl r)
        · cases h

/-! ### The recursion depth is bounded by the number of nodes -/

/-- Keys without any mark. -/
def unseen (g : List (α × List α)) (st : TopoState α) : List α :=
  (g.map Prod.fst).filter (fun x => (st.seen.lookup x).isNone)

theorem filter_length_mono {l : List α} {p q : α → Bool} (h : ∀ x, p x = true → q x = true) :
    (l.filter p).length ≤ (l.filter q).length := by
  induction l with
  | nil => simp
  | cons x l ih =>
    simp only [List.filter_cons]
    cases hp : p x with
    | true => rw [h x hp]; simp; omega
    | false =>
      cases q x <;> simp <;> omega

theorem filter_length_lt {l : List α} {p q : α → Bool} (h : ∀ x, p x = true → q x = true) {n : α} (hn : n ∈ l)
    (hp : p n = false) (hq : q n = true) : (l.filter p).length < (l.filter q).length := by
  induction l with
  | nil => cases hn
  | cons x l ih =>
    simp only [List.filter_cons]
    rcases List.mem_cons.1 hn with rfl | hn
    · rw [hp, hq]
      have := filter_length_mono (l := l) h
      simp; omega
    · have := ih hn
      cases hp : p x with
      | true => rw [h x hp]; simp; omega
      | false => cases q x <;> simp <;> omega

theorem visit_enough (g : List (α × List α)) : ∀ fuel n st, (unseen g st).length < fuel →
    ∃ r, visit g fuel n st = some r ∧ ∀ st', r = .ok st' → (unseen g st').length ≤ (unseen g st).length := by
  intro fuel
  induction fuel with
  | zero => intro n st h; omega
  | succ fuel ih =>
    intro n st h
    unfold visit
    split
    · exact ⟨_, rfl, by rintro st' e; cases e; omega⟩
    · exact ⟨_, rfl, by rintro st' e; cases e⟩
    · rename_i hs
      simp only
      split
      · exact ⟨_, rfl, by rintro st' e; cases e⟩
      · rename_i ms hms
        have hnk : n ∈ g.map Prod.fst := List.mem_map.2 ⟨_, lookup_some_mem hms, rfl⟩
        have hlt : (unseen g { st with seen := (n, false) :: st.seen }).length < (unseen g st).length := by
          apply filter_length_lt (n := n) ?_ hnk
          · simp
          · simp [hs]
          · intro x hx
            by_cases e : x = n
            · subst e; simp at hx
            · simpa only [lookup_cons_ne e] using hx
        have hl : ∀ (l : List α) st0, (unseen g st0).length < fuel →
            ∃ r, visitList (visit g fuel) l st0 = some r ∧ ∀ st', r = .ok st' → (unseen g st').length ≤ (unseen g st0).length := by
          intro l
          induction l with
          | nil => intro st0 _; exact ⟨_, rfl, by rintro st' e; cases e; omega⟩
          | cons m l ihl =>
            intro st0 h0
            obtain ⟨r, hr, hle⟩ := ih m st0 h0
            unfold visitList
            rw [hr]
            cases r with
            | error e => exact ⟨_, rfl, by rintro st' e; cases e⟩
            | ok st1 =>
              have := hle st1 rfl
              obtain ⟨r', hr', hle'⟩ := ihl st1 (by omega)
              exact ⟨r', hr', fun st' e => Nat.le_trans (hle' st' e) this⟩
        obtain ⟨r, hr, hle⟩ := hl (ms.filter (· ≠ n)) { st with seen := (n, false) :: st.seen } (by omega)
        rw [hr]
        cases r with
        | error e => exact ⟨_, rfl, by rintro st' e; cases e⟩
        | ok st1 =>
          refine ⟨_, rfl, ?_⟩
          rintro st' e
          cases e
          have h1 := hle st1 rfl
          have h2 : (unseen g { ordered := st1.ordered ++ [n], seen := (n, true) :: st1.seen }).length ≤ (unseen g st1).length := by
            apply filter_length_mono
            intro x hx
            by_cases e : x = n
            · subst e; simp at hx
            · simpa only [lookup_cons_ne e] using hx
          omega

theorem visitList_enough (g : List (α × List α)) (fuel : Nat) : ∀ (l : List α) st, (unseen g st).length < fuel →
    ∃ r, visitList (visit g fuel) l st = some r := by
  intro l
  induction l with
  | nil => intro st _; exact ⟨_, rfl⟩
  | cons m l ih =>
    intro st h
    obtain ⟨r, hr, hle⟩ := visit_enough g fuel m st h
    unfold visitList
    rw [hr]
    cases r with
    | error e => exact ⟨_, rfl⟩
    | ok st1 => exact ih st1 (by have := hle st1 rfl; omega)

theorem topoSortFuel_enough (g : List (α × List α)) : ∃ r, topoSortFuel (g.length + 1) g = some r := by
  have h : (unseen g ⟨[], []⟩).length < g.length + 1 := by
    have := List.length_filter_le (fun x => ((TopoState.mk [] [] : TopoState α).seen.lookup x).isNone) (g.map Prod.fst)
    unfold unseen
    rw [List.length_map] at this
    omega
  obtain ⟨r, hr⟩ := visitList_enough g (g.length + 1) (g.map Prod.fst) _ h
  unfold topoSortFuel
  rw [hr]
  cases r <;> exact ⟨_, rfl⟩

theorem topoInv_init (g : List (α × List α)) : TopoInv g ⟨[], []⟩ :=
  ⟨by simp, by simp, by simp, by simp⟩

theorem topoSort_ok {g : List (α × List α)} (hk : GraphKeys g) {ord : List α} (h : topoSort g = .ok ord) : TopoOrder g ord := by
  unfold topoSort topoSortFuel at h
  cases h1 : visitList (visit g (g.length + 1)) (g.map Prod.fst) ⟨[], []⟩ with
  | none => rw [h1] at h; cases h
  | some r =>
    rw [h1] at h
    cases r with
    | error e => cases h
    | ok st =>
      simp only [Except.ok.injEq] at h
      subst h
      obtain ⟨i, _, m⟩ := visitList_ok g _ (visit_ok g hk _) _ _ _ (topoInv_init g) h1
      refine ⟨i.nodup, fun n => ⟨i.keys n, m n⟩, ?_⟩
      intro n k he
      have hn : n ∈ st.ordered := by
        obtain ⟨ms, h1, _, _⟩ := he
        exact m n (List.mem_map.2 ⟨_, h1, rfl⟩)
      exact i.after n hn k he

theorem topoSort_err {g : List (α × List α)} (hk : GraphKeys g) {e : Err} (h : topoSort g = .error e) :
    (e = .runtime ∧ Cyclic g) ∨ (e = .key ∧ ¬ GraphClosed g) := by
  obtain ⟨r0, hr0⟩ := topoSortFuel_enough g
  unfold topoSort at h
  rw [hr0] at h
  simp only at h
  subst h
  unfold topoSortFuel at hr0
  cases h1 : visitList (visit g (g.length + 1)) (g.map Prod.fst) ⟨[], []⟩ with
  | none => rw [h1] at hr0; cases hr0
  | some r =>
    rw [h1] at hr0
    cases r with
    | ok st => simp at hr0
    | error e' =>
      simp only [Option.some.injEq, Except.error.injEq] at hr0
      subst hr0
      have key : ∀ (l : List α), (∀ m ∈ l, m ∈ g.map Prod.fst) → ∀ st0, TopoInv g st0 →
          (∀ t, st0.seen.lookup t ≠ some false) →
          visitList (visit g (g.length + 1)) l st0 = some (.error e') →
          (e' = .runtime ∧ Cyclic g) ∨ (e' = .key ∧ ¬ GraphClosed g) := by
        intro l
        induction l with
        | nil => intro _ st0 _ _ h; simp [visitList] at h
        | cons m l ihl =>
          intro hl st0 hi0 ht0 h
          unfold visitList at h
          split at h
          · cases h
          · rename_i e2 h2
            simp only [Option.some.injEq, Except.error.injEq] at h
            subst h
            rcases visit_err g hk _ m st0 _ hi0 (fun t ht => absurd ht (ht0 t)) h2 with r | r | r
            · exact Or.inl r
            · exact Or.inr r
            · exact absurd (hl m (by simp)) r.2
          · rename_i st1 h2
            obtain ⟨i1, e1, _⟩ := visit_ok g hk _ _ _ _ hi0 h2
            exact ihl (fun m' hm' => hl m' (by simp [hm'])) st1 i1 (fun t ht => ht0 t ((e1.temp t).1 ht)) h
      exact key _ (fun _ h => h) _ (topoInv_init g) (by simp) h1

/-! ### A topological order excludes cycles -/

theorem idxOf_before {l : List α} (hn : l.Nodup) {m n : α} (h : Before l m n) : l.idxOf m < l.idxOf n := by
  obtain ⟨l1, l2, rfl, hm⟩ := h
  have hn1 : n ∉ l1 := by
    intro h
    rw [List.nodup_append] at hn
    exact hn.2.2 n h n (by simp) rfl
  rw [List.idxOf_append, List.idxOf_append, if_pos hm, if_neg hn1]
  have := List.idxOf_lt_length_of_mem hm
  omega

theorem topoOrder_path {g : List (α × List α)} {ord : List α} (h : TopoOrder g ord) {n m : α} (p : Path g n m) :
    ord.idxOf m < ord.idxOf n := by
  induction p with
  | one e => exact idxOf_before h.nodup (h.after _ _ e)
  | more _ e ih => exact Nat.lt_trans (idxOf_before h.nodup (h.after _ _ e)) ih

theorem topoOrder_acyclic {g : List (α × List α)} {ord : List α} (h : TopoOrder g ord) : ¬ Cyclic g := by
  rintro ⟨n, p⟩
  exact Nat.lt_irrefl _ (topoOrder_path h p)

end Verif
