import Verif.Lemmas.Collector
import Verif.Props.C30_C31_Topological
/-!
# C32: `type_topological_sort`; C33: referenced types
-/
namespace Verif

/-- The graph that is collected for some types. -/
theorem collect_ok (env : Env) (he : env.Defined) (ts : List Ty) (ht : ∀ t ∈ ts, TyDefined env t) :
    ∃ g, collect env ts = .ok g ∧ Stepped env .root (tyNodesL ts) [(.root, [])] g := by
  have hu : unseenCls env [(.root, [])] ≤ env.classes.length := by
    unfold unseenCls
    exact Nat.le_trans (List.length_filter_le _ _) (by simp)
  obtain ⟨g, h1, h2⟩ := meetAll_stepped (expandOk env he env.classes.length) (c := .root) (tyNodesL ts) [(.root, [])]
    (by simp [gKeys]) (by simp [gKeys]) (fun n hn => by
      obtain ⟨t, ht', hm⟩ := mentionsL_of_mem hn
      cases n with
      | cls c => exact ht t ht' c hm
      | _ => trivial) hu
  exact ⟨g, by simpa only [collect, runTyL_eq] using h1, h2⟩

theorem root_not_direct {env : Env} {n : Node} : ¬ Direct env n .root := by
  rintro ⟨_, _, hm⟩
  have : ∀ {t n}, TypeMentions t n → n ≠ .root := by
    intro t n h
    induction h with
    | list _ ih => exact ih
    | set _ ih => exact ih
    | dict _ ih => exact ih
    | tuple _ _ ih => exact ih
    | union _ _ ih => exact ih
    | annotated _ ih => exact ih
    | _ => simp
  exact this hm rfl

/-- Nodes of the graph other than `_ROOT` are those reachable from the types; all edges stay in the graph. -/
theorem collect_keys {env : Env} {ts : List Ty} {g : TGraph} (h : Stepped env .root (tyNodesL ts) [(.root, [])] g) :
    (∀ n, n ∈ gKeys g ↔ n = .root ∨ ∃ t ∈ ts, Reachable env t n) ∧
    (∀ n k, k ∈ gAdj g n ↔ (n = .root ∧ ∃ t ∈ ts, TypeMentions t k) ∨ (n ∈ gKeys g ∧ Direct env n k)) := by
  have hroot : Node.root ∈ gKeys g := h.keys _ (by simp [gKeys])
  have hmem : ∀ n, n ∈ tyNodesL ts ↔ ∃ t ∈ ts, TypeMentions t n := by
    intro n; rw [tyNodesL_mem]; simp only [mentions_iff]
  have hclosed : ∀ n k, Leads env n k → n ∈ tyNodesL ts → k ∈ gKeys g := by
    intro n k hl hn
    induction hl with
    | refl => exact h.met n hn
    | @step m k _ hd ih =>
      have hm : m ∈ gKeys g := ih
      have hmr : m ∉ gKeys [(Node.root, ([] : List Node))] := by
        intro hr; simp [gKeys] at hr; subst hr
        cases hd
      exact (h.new m hm hmr).2.1 k (direct_iff.1 hd)
  constructor
  · intro n
    constructor
    · intro hn
      by_cases hr : n = .root
      · exact .inl hr
      · obtain ⟨-, -, m, hm, hl⟩ := h.new n hn (by simp [gKeys, hr])
        obtain ⟨t, ht, hmt⟩ := (hmem m).1 hm
        exact .inr ⟨t, ht, m, hmt, hl⟩
    · rintro (rfl | ⟨t, ht, m, hm, hl⟩)
      · exact hroot
      · exact hclosed m n hl ((hmem m).2 ⟨t, ht, hm⟩)
  · intro n k
    by_cases hr : n = .root
    · subst hr
      rw [h.self, hmem]
      constructor
      · rintro (h | h)
        · simp [gAdj, lookupKey] at h
        · exact .inl ⟨rfl, h⟩
      · rintro (⟨-, h⟩ | ⟨-, h⟩)
        · exact .inr h
        · cases h
    · by_cases hn : n ∈ gKeys g
      · rw [(h.new n hn (by simp [gKeys, hr])).1, ← direct_iff]
        simp [hr, hn]
      · have : lookupKey n g = none := lookupKey_none_iff'.2 hn
        simp [gAdj, this, hr, hn]

theorem gAdj_mem {g : TGraph} (hn : (gKeys g).Nodup) {n : Node} {ms : List Node} (h : (n, ms) ∈ g) : gAdj g n = ms := by
  simp [gAdj, lookupKey_of_mem hn h]

theorem gAdj_exists {g : TGraph} {n k : Node} (h : k ∈ gAdj g n) : ∃ ms, (n, ms) ∈ g ∧ k ∈ ms := by
  unfold gAdj at h
  cases hl : lookupKey n g with
  | none => rw [hl] at h; simp at h
  | some ms => rw [hl] at h; exact ⟨ms, lookupKey_some_mem hl, h⟩

/-- C33: for every type, also of recursive classes, `get_referenced_types` returns, and the result has exactly the classes
reachable from the type through generic arguments and class members. -/
theorem C33_referenced (env : Env) (he : env.Defined) (t : Ty) (ht : TyDefined env t) :
    ∃ ns, getReferenced env t = .ok ns ∧ ∀ n, n ∈ ns ↔ Reachable env t n := by
  obtain ⟨g, h1, h2⟩ := collect_ok env he [t] (by simpa using ht)
  obtain ⟨hk, ha⟩ := collect_keys h2
  refine ⟨references g, by simp only [getReferenced, h1], fun n => ?_⟩
  have href : n ∈ references g ↔ ∃ m, n ∈ gAdj g m := by
    unfold references
    rw [List.mem_flatMap]
    constructor
    · rintro ⟨⟨m, ms⟩, hm, hn⟩; exact ⟨m, by rw [gAdj_mem h2.nodup hm]; exact hn⟩
    · rintro ⟨m, hm⟩
      obtain ⟨ms, h3, h4⟩ := gAdj_exists hm
      exact ⟨_, h3, h4⟩
  rw [href]
  constructor
  · rintro ⟨m, hm⟩
    rcases (ha m n).1 hm with ⟨-, t', ht', hmt⟩ | ⟨hmk, hd⟩
    · simp at ht'; subst ht'; exact ⟨n, hmt, .refl⟩
    · rcases (hk m).1 hmk with rfl | ⟨t', ht', k, hkm, hl⟩
      · cases hd
      · simp at ht'; subst ht'; exact ⟨k, hkm, .step hl hd⟩
  · rintro ⟨m, hm, hl⟩
    cases hl with
    | refl => exact ⟨.root, (ha _ _).2 (.inl ⟨rfl, t, by simp, hm⟩)⟩
    | @step k _ hl hd =>
      exact ⟨k, (ha _ _).2 (.inr ⟨(hk k).2 (.inr ⟨t, by simp, m, hm, hl⟩), hd⟩)⟩

/-- C33, termination: nested class definitions are never expanded deeper than the number of classes. -/
theorem C33_terminates (env : Env) (he : env.Defined) (t : Ty) (ht : TyDefined env t) :
    getReferenced env t ≠ .error .recursion := by
  obtain ⟨ns, h, -⟩ := C33_referenced env he t ht
  rw [h]; simp

/-! ### Sorting -/

/-- The additional dependencies of a node. -/
def depOf (dep : Option (Node → List Node)) (n : Node) : List Node := match dep with | none => [] | some d => d n

/-- C32 in full: the types given and those they lead to are in the result, and every type comes after the types that its
members mention and that `dependency_fn` returns for it. -/
def C32_statement (env : Env) (ts : List Ty) (dep : Option (Node → List Node)) : Prop :=
  ∀ ord, typeTopoSort env ts dep = .ok ord →
    (∀ t ∈ ts, ∀ n, Reachable env t n → n ∈ ord) ∧
    ∀ n ∈ ord, ∀ m, m ≠ n → (Direct env n m ∨ m ∈ depOf dep n) → Before ord m n

theorem edge_iff {g : TGraph} (hn : (gKeys g).Nodup) {n m : Node} : Edge g n m ↔ m ∈ gAdj g n ∧ m ≠ n := by
  constructor
  · rintro ⟨ms, h1, h2, h3⟩; exact ⟨by rw [gAdj_mem hn h1]; exact h2, h3⟩
  · rintro ⟨h1, h2⟩
    obtain ⟨ms, h3, h4⟩ := gAdj_exists h1
    exact ⟨ms, h3, h4, h2⟩

theorem typeTopoSort_graph {env : Env} (he : env.Defined) {ts : List Ty} (ht : ∀ t ∈ ts, TyDefined env t)
    {dep : Option (Node → List Node)} {ord : List Node} (h : typeTopoSort env ts dep = .ok ord) :
    ∃ g, collect env ts = .ok g ∧ Stepped env .root (tyNodesL ts) [(.root, [])] g ∧
      topoSort (match dep with | none => g | some d => addDeps d g) = .ok ord := by
  obtain ⟨g, h1, h2⟩ := collect_ok env he ts ht
  refine ⟨g, h1, h2, ?_⟩
  unfold typeTopoSort at h
  split at h
  · rw [h1] at h
    cases dep <;> exact h
  · cases h

/-- C32 in part: the full statement without `dependency_fn`. -/
theorem C32_plain_partial (env : Env) (he : env.Defined) (ts : List Ty) (ht : ∀ t ∈ ts, TyDefined env t) :
    C32_statement env ts none := by
  intro ord h
  obtain ⟨g, -, hs, hsort⟩ := typeTopoSort_graph he ht h
  have topo := C30_topological_order g hs.nodup ord hsort
  obtain ⟨hk, ha⟩ := collect_keys hs
  refine ⟨fun t htt n hn => (topo.mem n).2 ((hk n).2 (.inr ⟨t, htt, hn⟩)), fun n hn m hmn hd => ?_⟩
  rcases hd with hd | hd
  · exact topo.after n m ((edge_iff hs.nodup).2 ⟨(ha n m).2 (.inr ⟨(topo.mem n).1 hn, hd⟩), hmn⟩)
  · simp [depOf] at hd

/-- Without `dependency_fn` and for classes, the sort returns unless the members of the classes form a cycle of at least two
classes; then it raises `RuntimeError`. -/
theorem C32_raises (env : Env) (he : env.Defined) (ts : List Ty) (ht : ∀ t ∈ ts, TyDefined env t)
    (hc : ts.all Ty.isType = true) :
    ∃ g, collect env ts = .ok g ∧ (typeTopoSort env ts none = .error .runtime ↔ Cyclic g) ∧
      ((∃ ord, typeTopoSort env ts none = .ok ord) ↔ ¬ Cyclic g) ∧
      (∀ n m, Edge g n m ↔ m ≠ n ∧ ((n = .root ∧ ∃ t ∈ ts, TypeMentions t m) ∨
        ((∃ t ∈ ts, Reachable env t n) ∧ Direct env n m))) := by
  obtain ⟨g, h1, hs⟩ := collect_ok env he ts ht
  obtain ⟨hk, ha⟩ := collect_keys hs
  have heq : typeTopoSort env ts none = topoSort g := by simp only [typeTopoSort, hc, if_true, h1]
  have hclosed : GraphClosed g := by
    intro n ms hm k hkm
    have hadj : k ∈ gAdj g n := by rw [gAdj_mem hs.nodup hm]; exact hkm
    rcases (ha n k).1 hadj with ⟨-, t, htt, hmk⟩ | ⟨hn, hd⟩
    · exact (hk k).2 (.inr ⟨t, htt, k, hmk, .refl⟩)
    · rcases (hk n).1 hn with rfl | ⟨t, htt, j, hj, hl⟩
      · cases hd
      · exact (hk k).2 (.inr ⟨t, htt, j, hj, .step hl hd⟩)
  obtain ⟨e1, e2⟩ := C31_raises_iff_cyclic g hs.nodup hclosed
  refine ⟨g, h1, by rw [heq]; exact e1, by rw [heq]; exact e2, fun n m => ?_⟩
  rw [edge_iff hs.nodup, ha, and_comm]
  refine and_congr_right (fun hmn => ?_)
  constructor
  · rintro (h | ⟨hn, hd⟩)
    · exact .inl h
    · rcases (hk n).1 hn with rfl | h
      · cases hd
      · exact .inr ⟨h, hd⟩
  · rintro (h | ⟨h, hd⟩)
    · exact .inl h
    · exact .inr ⟨(hk n).2 (.inr h), hd⟩

/-! ### Additional dependencies -/

theorem foldl_upsert_keys (ns : List Node) : ∀ g : TGraph, (gKeys g).Nodup →
    (gKeys (ns.foldl (fun g n => upsert n [] g) g)).Nodup ∧
    (∀ m, m ∈ gKeys (ns.foldl (fun g n => upsert n [] g) g) ↔ m ∈ gKeys g ∨ m ∈ ns) ∧
    (∀ m, m ∉ ns → lookupKey m (ns.foldl (fun g n => upsert n [] g) g) = lookupKey m g) := by
  induction ns with
  | nil => intro g h; exact ⟨h, by simp, fun _ _ => rfl⟩
  | cons n ns ih =>
    intro g h
    obtain ⟨h1, h2, h3⟩ := ih (upsert n [] g) (upsert_nodup h)
    refine ⟨h1, fun m => ?_, fun m hm => ?_⟩
    · simp only [List.foldl_cons]
      rw [h2]
      have hk : m ∈ gKeys (upsert n [] g) ↔ m ∈ gKeys g ∨ m = n := by
        unfold gKeys
        rw [upsert_keys]
        split
        · rename_i hn
          constructor
          · exact .inl
          · rintro (h | rfl)
            · exact h
            · exact hn
        · simp
      rw [hk]
      simp only [List.mem_cons, or_assoc]
    · simp only [List.mem_cons, not_or] at hm
      simp only [List.foldl_cons]
      rw [h3 m hm.2, lookupKey_upsert, if_neg (Ne.symm hm.1)]

/-- C32 in part, with `dependency_fn`: the order is right for every type that `dependency_fn` does not return for any of the
collected types; all types returned are in the result.  Missing are the types that it returns: they lose their own members and
dependencies, see `C32_violated`. -/
theorem C32_dep_partial (env : Env) (he : env.Defined) (ts : List Ty) (ht : ∀ t ∈ ts, TyDefined env t)
    (d : Node → List Node) (ord : List Node) (h : typeTopoSort env ts (some d) = .ok ord) :
    (∀ t ∈ ts, ∀ n, Reachable env t n → n ∈ ord ∧ ∀ m ∈ d n, m ∈ ord) ∧
    ∀ n ∈ ord, (∀ k ∈ ord, n ∉ d k) → ∀ m, m ≠ n → (Direct env n m ∨ m ∈ d n) → Before ord m n := by
  obtain ⟨g, -, hs, hsort⟩ := typeTopoSort_graph he ht h
  obtain ⟨hk, ha⟩ := collect_keys hs
  have hnd1 : (gKeys (g.map (fun p => (p.1, p.2 ++ (d p.1).filter (· ∉ p.2))))).Nodup := by
    simpa [gKeys, List.map_map, Function.comp_def] using hs.nodup
  have hkeys1 : gKeys (g.map (fun p => (p.1, p.2 ++ (d p.1).filter (· ∉ p.2)))) = gKeys g := by
    simp [gKeys, List.map_map, Function.comp_def]
  obtain ⟨k1, k2, k3⟩ := foldl_upsert_keys (g.flatMap (fun p => d p.1)) _ hnd1
  have topo := C30_topological_order (addDeps d g) k1 ord hsort
  have hmem : ∀ n, n ∈ ord ↔ n ∈ gKeys g ∨ n ∈ g.flatMap (fun p => d p.1) := by
    intro n
    rw [topo.mem, ← hkeys1]
    exact k2 n
  have hdep : ∀ n ∈ gKeys g, ∀ m ∈ d n, m ∈ g.flatMap (fun p => d p.1) := by
    intro n hn m hm
    obtain ⟨p, hp, rfl⟩ := List.mem_map.1 hn
    exact List.mem_flatMap.2 ⟨p, hp, hm⟩
  refine ⟨fun t htt n hn => ?_, fun n hn hnot m hmn hd => ?_⟩
  · have hng : n ∈ gKeys g := (hk n).2 (.inr ⟨t, htt, hn⟩)
    exact ⟨(hmem n).2 (.inl hng), fun m hm => (hmem m).2 (.inr (hdep n hng m hm))⟩
  · have hnf : n ∉ g.flatMap (fun p => d p.1) := by
      intro hf
      obtain ⟨p, hp, hnp⟩ := List.mem_flatMap.1 hf
      exact hnot p.1 ((hmem p.1).2 (.inl (List.mem_map.2 ⟨p, hp, rfl⟩))) hnp
    have hng : n ∈ gKeys g := by
      rcases (hmem n).1 hn with h | h
      · exact h
      · exact absurd h hnf
    obtain ⟨⟨n', ms⟩, hp, rfl⟩ := List.mem_map.1 hng
    have hlook : lookupKey n' (addDeps d g) = some (ms ++ (d n').filter (· ∉ ms)) := by
      unfold addDeps
      rw [k3 n' hnf]
      exact lookupKey_of_mem hnd1 (List.mem_map.2 ⟨_, hp, rfl⟩)
    refine topo.after n' m ⟨_, lookupKey_some_mem hlook, ?_, hmn⟩
    rcases hd with hd | hd
    · have : m ∈ gAdj g n' := (ha n' m).2 (.inr ⟨hng, hd⟩)
      rw [gAdj_mem hs.nodup hp] at this
      exact List.mem_append_left _ this
    · by_cases hmm : m ∈ ms
      · exact List.mem_append_left _ hmm
      · exact List.mem_append_right _ (List.mem_filter.2 ⟨hd, by simpa using hmm⟩)

/-- The internal class `_ROOT` is always part of the result. -/
theorem C32_root (env : Env) (he : env.Defined) (ts : List Ty) (ht : ∀ t ∈ ts, TyDefined env t) (ord : List Node)
    (h : typeTopoSort env ts none = .ok ord) : .root ∈ ord := by
  obtain ⟨g, -, hs, hsort⟩ := typeTopoSort_graph he ht h
  exact ((C30_topological_order g hs.nodup ord hsort).mem _).2 (hs.keys _ (by simp [gKeys]))

/-- Classes `A`, `B` with a member of type `C`, and `C`. -/
def depEnv : Env where
  enums := []
  classes := [{ module := c!"m", name := c!"A", kind := .dataclass false, fields := [] },
    { module := c!"m", name := c!"B", kind := .dataclass false, fields := [{ name := c!"c", ty := .cls 2 }] },
    { module := c!"m", name := c!"C", kind := .dataclass false, fields := [] }]

/-- `A` depends on `B`. -/
def depFn : Node → List Node
  | .cls 0 => [.cls 1]
  | _ => []

theorem depEnv_defined : depEnv.Defined := by
  intro cd hcd f hf c hm
  simp only [depEnv, List.mem_cons, List.not_mem_nil, or_false] at hcd
  rcases hcd with rfl | rfl | rfl <;> simp [ClassDef.hints] at hf
  subst hf
  cases hm
  decide

/-- The full statement is false: `B` comes before the class `C` of its member, because `dependency_fn` returns `B`. -/
theorem C32_violated : ¬ C32_statement depEnv [.cls 0, .cls 1] (some depFn) ∧
    typeTopoSort depEnv [.cls 0, .cls 1] (some depFn) = .ok [.cls 1, .cls 0, .root, .cls 2] := by
  have hrun : typeTopoSort depEnv [.cls 0, .cls 1] (some depFn) = .ok [.cls 1, .cls 0, .root, .cls 2] := by decide +kernel
  refine ⟨fun h => ?_, hrun⟩
  have hd : Direct depEnv (.cls 1) (.cls 2) := .field (f := { name := c!"c", ty := .cls 2 }) rfl (by simp [ClassDef.hints]) .cls
  obtain ⟨l1, l2, h1, h2⟩ := (h _ hrun).2 (.cls 1) (by simp) (.cls 2) (by simp) (.inl hd)
  match l1 with
  | [] => simp at h2
  | a :: l1 =>
    simp only [List.cons_append, List.cons.injEq] at h1
    have : Node.cls 1 ∈ [Node.cls 0, .root, .cls 2] := by rw [h1.2]; simp
    simp at this

/-! ### Examples -/

example : typeTopoSort depEnv [.cls 1] none = .ok [.cls 2, .cls 1, .root] := by decide +kernel

/-- Recursive classes are no obstacle for `get_referenced_types`: `Node` with members `int` and `list[Node]`. -/
def selfEnv : Env where
  enums := []
  classes := [{ module := c!"m", name := c!"Node", kind := .dataclass false,
                fields := [{ name := c!"value", ty := .int }, { name := c!"children", ty := .list (.cls 0) }] }]

example : selfEnv.Defined := by
  intro cd hcd f hf c hm
  simp only [selfEnv, List.mem_cons, List.not_mem_nil, or_false] at hcd
  subst hcd
  simp [ClassDef.hints] at hf
  rcases hf with rfl | rfl
  · cases hm
  · cases hm with | list h => cases h; decide

example : getReferenced selfEnv (.dict .str (.cls 0)) = .ok [.atom .str, .cls 0, .atom .int, .cls 0] := by decide +kernel

end Verif
