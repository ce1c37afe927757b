import Verif.Lemmas.AnnCollect
import Verif.Props.C32_C33_Collector
import Verif.Props.C80_Annotations
/-!
# C84: the types that are collected, with texts in annotations

`get_referenced_types` evaluates texts in annotations as it meets them.  It comes to an end, and finds exactly the classes that are
reachable through the types of members as the reader has them (`get_type_hints`), if the annotations have a meaning, and names in inherited
members stand for the same in the module of the derived class.
-/
namespace Verif

variable {w : AnnWorld}

/-- C84: for a program of `K` classes. -/
theorem C84_collected_partial {K m : Nat} {d : Str → Option AnnObj} {o t : AnnObj} (hl : ∀ c, c < K → w.Legible c)
    (hK : ∀ c, c < K → ∀ t, w.Member c t → ∀ k, t.Mentions (.cls k) → k < K)
    (hd : ∀ n x, d n = some x → n ≠ c!"typ" ∧ n ≠ c!"module" ∧ firstOf [w.inModule m, fun n => lookupKey n w.builtins] n = some x)
    (hm : w.Means d o t) (hn : w.NoNone d o) (ht : ∀ k, t.Mentions (.cls k) → k < K) :
    ∃ ns, (∃ N, ∀ n, N ≤ n → w.referencedTypes n (some m) o = .ok ns) ∧ ∀ n, n ∈ ns ↔ ∃ k, t.Mentions k ∧ w.LeadsTo k n := by
  obtain ⟨env, hlen, hdef, hexp, _, hlead⟩ := program_env hl hK
  have hts : ∀ n ∈ t.nodes, n.Simple := fun n hn => mentions_simple (annMentions_iff.2 hn)
  have htn : tyNodes (.tuple (t.nodes.map Node.asTy)) = t.nodes := by simp only [tyNodes]; exact asTy_nodesL hts
  obtain ⟨ns, h1, h2⟩ := C33_referenced env hdef (.tuple (t.nodes.map Node.asTy)) (fun k hk => by
    rw [hlen]
    have := mentions_iff.1 hk
    rw [htn] at this
    exact ht k (annMentions_iff.2 this))
  refine ⟨ns, ?_, fun n => ?_⟩
  · simp only [getReferenced, collect, runTyL, runTy_eq, htn] at h1
    cases hg : meetAll (expand env env.classes.length) .root t.nodes [(.root, [])] with
    | error e => rw [hg] at h1; cases h1
    | ok g =>
      rw [hg] at h1
      cases h1
      obtain ⟨N, hN⟩ := gather_noNone (fun o' n x hn => (by
        obtain ⟨h1, h2, h3⟩ := hd n x hn
        unfold AnnWorld.evalLook
        rw [if_neg h1, if_neg h2]
        simp only [firstOf] at h3
        cases h4 : w.inModule m n with
        | some o' => rw [h4] at h3; exact h3
        | none =>
          rw [h4] at h3
          cases h5 : lookupKey n w.builtins with
          | some o' => rw [h5] at h3; exact h3
          | none => rw [h5] at h3; cases h3)) (hexp _) hn hm hg
      exact ⟨N, fun n hn => by simp only [AnnWorld.referencedTypes, hN n hn]⟩
  · rw [h2]
    constructor
    · rintro ⟨k, hk, h⟩
      have := mentions_iff.1 hk
      rw [htn] at this
      have hv : t.Mentions k := annMentions_iff.2 this
      exact ⟨k, hv, (hlead k n fun c e => ht c (e ▸ hv)).1 h⟩
    · rintro ⟨k, hk, h⟩
      exact ⟨k, mentions_iff.2 (by rw [htn]; exact annMentions_iff.1 hk), (hlead k n fun c e => ht c (e ▸ hk)).2 h⟩

/-- Without texts in the type itself the module does not matter. -/
theorem C84_module (n : Nat) (c : Nat) (m m' : Option Nat) : w.referencedTypes n m (.cls c) = w.referencedTypes n m' (.cls c) := by
  cases n <;> rfl

/-- C84, sorting: `type_topological_sort` of classes ends, with all classes that the given ones lead to, each after the classes that its
members mention; or with `RuntimeError`, if there is a cycle of at least two classes (`C32_raises`). -/
theorem C84_sorted_partial {K : Nat} (hl : ∀ c, c < K → w.Legible c)
    (hK : ∀ c, c < K → ∀ t, w.Member c t → ∀ k, t.Mentions (.cls k) → k < K) {cs : List Nat} (hc : ∀ c ∈ cs, c < K) :
    ∃ r, (∃ N, ∀ n, N ≤ n → w.sortTypes n cs = r) ∧ (r = .error .runtime ∨ ∃ ord, r = .ok ord ∧
      (∀ c ∈ cs, ∀ n, w.LeadsTo (.cls c) n → n ∈ ord) ∧
      ∀ c, c < K → .cls c ∈ ord → ∀ t, w.Member c t → ∀ k, t.Mentions k → k ≠ .cls c → Before ord k (.cls c)) := by
  obtain ⟨env, hlen, hdef, hexp, hdir, hlead⟩ := program_env hl hK
  have ht : ∀ t ∈ cs.map Ty.cls, TyDefined env t := by
    intro t ht k hk
    obtain ⟨c, hcc, rfl⟩ := List.mem_map.1 ht
    cases hk
    rw [hlen]
    exact hc _ hcc
  obtain ⟨g, h1, _⟩ := collect_ok env hdef (cs.map Ty.cls) ht
  have hgather : ∀ (cs : List Nat) (g g' : TGraph), runTyL (expand env env.classes.length) .root (cs.map Ty.cls) g = .ok g' →
      ∃ N, ∀ n, N ≤ n → eachOf (fun c g => w.gather n .root (some (w.classes c).module) (.cls c) g) cs g = .ok g' := by
    intro cs
    induction cs with
    | nil => intro g g' h; cases h; exact ⟨0, fun _ _ => rfl⟩
    | cons c cs ih =>
      intro g g' h
      simp only [List.map_cons, runTyL] at h
      split at h
      · cases h
      · rename_i g1 hg
        simp only [runTy_eq, tyNodes] at hg
        obtain ⟨N, hN⟩ := gather_noNone (m := (w.classes c).module) (d := fun _ => none) (fun _ _ _ h => by cases h) (hexp _) (o := .cls c) .cls
          (t := .cls c) ⟨1, rfl⟩ (by simpa only [AnnObj.nodes] using hg)
        obtain ⟨M, hM⟩ := ih g1 g' h
        exact ⟨max N M, fun n hn => by simp only [eachOf, hN n (by omega)]; exact hM n (by omega)⟩
  obtain ⟨N, hN⟩ := hgather cs _ _ h1
  have hall : (cs.map Ty.cls).all Ty.isType = true := by simp [List.all_eq_true, Ty.isType]
  have heq : typeTopoSort env (cs.map Ty.cls) none = topoSort g := by simp only [typeTopoSort, hall, if_true, h1]
  refine ⟨topoSort g, ⟨N, fun n hn => by simp only [AnnWorld.sortTypes, AnnWorld.gatherAll, hN n hn]⟩, ?_⟩
  obtain ⟨g2, h3, h4, h5, _⟩ := C32_raises env hdef (cs.map Ty.cls) ht hall
  rw [h1] at h3
  cases h3
  by_cases hcy : Cyclic g
  · exact .inl (heq ▸ h4.2 hcy)
  · obtain ⟨ord, ho⟩ := h5.2 hcy
    obtain ⟨h6, h7⟩ := C32_plain_partial env hdef (cs.map Ty.cls) ht ord ho
    refine .inr ⟨ord, heq ▸ ho, fun c hcc n hn => ?_, fun c hcK hco t hm k hk hne => ?_⟩
    · refine h6 (.cls c) (List.mem_map.2 ⟨c, hcc, rfl⟩) n ⟨.cls c, .cls, (hlead _ _ fun k e => ?_).2 hn⟩
      cases e
      exact hc c hcc
    · exact h7 _ hco k hne (.inl ((hdir c k hcK).2 ⟨t, hm, hk⟩))

/-! ### Where the code does otherwise -/

/-- A text in the type itself, without a module. -/
theorem C84_context_fails (n : Nat) (s : Str) : w.referencedTypes (n + 1) none (.text s) = .error .valueError ∧
    w.referencedTypes (n + 1) none (.ref s) = .error .valueError := ⟨rfl, rfl⟩

/-- An inherited field: the name is taken from the module of the derived class, where it stands for class 6, not class 2 … -/
theorem C84_inherited_fails (n : Nat) : (annOne (.text c!"B")).readFields (n + 2) 1 = .ok [(c!"x", .cls 2), (c!"y", .cls 100)] ∧
    (annOne (.text c!"B")).referencedTypes (n + 3) none (.cls 1) = .ok [.cls 1, .cls 6, .cls 100] := ⟨rfl, rfl⟩

/-- … or for nothing. -/
theorem C84_inherited_name_fails (n : Nat) : (annOne (.text c!"D")).readFields (n + 2) 1 = .ok [(c!"x", .cls 7), (c!"y", .cls 100)] ∧
    (annOne (.text c!"D")).referencedTypes (n + 3) none (.cls 1) = .error .name := ⟨rfl, rfl⟩

/-- `x: None`, as a text or not. -/
theorem C84_none_fails (n : Nat) : (annOne (.text c!"None")).referencedTypes (n + 2) none (.cls 0) = .error .typeError ∧
    (annOne .none).referencedTypes (n + 2) none (.cls 0) = .error .typeError := ⟨rfl, rfl⟩

/-- A class whose name is `module`. -/
theorem C84_module_fails (n : Nat) : (annOne (.text c!"module")).readFields (n + 2) 0 = .ok [(c!"x", .cls 4)] ∧
    (annOne (.text c!"module")).referencedTypes (n + 2) none (.cls 0) = .error .typeError := ⟨rfl, rfl⟩

/-- A class whose name is `typ`: the text is evaluated again and again. -/
theorem C84_typ_fails (n : Nat) : (annOne (.text c!"typ")).readFields (n + 2) 0 = .ok [(c!"x", .cls 3)] ∧
    (annOne (.text c!"typ")).referencedTypes n none (.cls 0) = .error .recursion := by
  refine ⟨rfl, ?_⟩
  have h : ∀ n g, (annOne (.text c!"typ")).gather n (.cls 0) (some 0) (.text c!"typ") g = .error .recursion := by
    intro n
    induction n with
    | zero => exact fun _ => rfl
    | succ n ih => exact fun g => ih g
  cases n with
  | zero => rfl
  | succ n =>
    have : (annOne (.text c!"typ")).referencedTypes (n + 1) none (.cls 0) =
      (match (match (annOne (.text c!"typ")).gather n (.cls 0) (some 0) (.text c!"typ") [(.root, [.cls 0]), (.cls 0, [])] with
        | .error e => .error e | .ok g => .ok g : Res TGraph) with | .error e => .error e | .ok g => .ok (references g)) := rfl
    rw [this, h]

/-- A program with one class, whose member has the type `Tree = Union[int, list["Tree"]]`. -/
def treeAnn : AnnWorld where
  parse s := some (.name s)
  builtins := [(c!"int", .cls 100)]
  modules := [[(c!"Tree", .gen .union [.cls 100, .gen (.builtin .list) [.text c!"Tree"]])]]
  classes | 0 => ⟨0, [], [(c!"x", .text c!"Tree")], [0]⟩ | _ => ⟨0, [], [], []⟩
  strCls := 101
  isEnum _ := false

/-- A type other than a class that refers to itself: the collection does not come to an end.  (The reader has the members.) -/
theorem C84_recursive_fails (n : Nat) :
    treeAnn.readFields (n + 4) 0 = .ok [(c!"x", .gen .union [.cls 100, .gen (.builtin .list) [.ref c!"Tree"]])] ∧
    treeAnn.referencedTypes n none (.cls 0) = .error .recursion := by
  refine ⟨rfl, ?_⟩
  have hi : ∀ n g, ∃ g', treeAnn.gather (n + 1) (.cls 0) (some 0) (.cls 100) g = .ok g' := by
    intro n g
    rw [gather_cls]
    unfold meet
    simp only
    split
    · exact ⟨_, rfl⟩
    · exact ⟨_, rfl⟩
  have h : ∀ n g, treeAnn.gather n (.cls 0) (some 0) (.gen .union [.cls 100, .gen (.builtin .list) [.text c!"Tree"]]) g = .error .recursion := by
    intro n
    induction n using Nat.strongRecOn with
    | ind n ih =>
      intro g
      match n with
      | 0 => rfl
      | 1 => rfl
      | n + 2 =>
        obtain ⟨g', hg⟩ := hi n g
        have : treeAnn.gather (n + 2) (.cls 0) (some 0) (.gen .union [.cls 100, .gen (.builtin .list) [.text c!"Tree"]]) g =
          eachOf (treeAnn.gather (n + 1) (.cls 0) (some 0)) [.cls 100, .gen (.builtin .list) [.text c!"Tree"]] g := rfl
        rw [this]
        simp only [eachOf, hg]
        have : treeAnn.gather (n + 1) (.cls 0) (some 0) (.gen (.builtin .list) [.text c!"Tree"]) g' =
          eachOf (treeAnn.gather n (.cls 0) (some 0)) [.text c!"Tree"] g' := rfl
        rw [this]
        simp only [eachOf]
        cases n with
        | zero => rfl
        | succ n =>
          have : treeAnn.gather (n + 1) (.cls 0) (some 0) (.text c!"Tree") g' =
            treeAnn.gather n (.cls 0) (some 0) (.gen .union [.cls 100, .gen (.builtin .list) [.text c!"Tree"]]) g' := rfl
          rw [this, ih n (by omega)]
  cases n with
  | zero => rfl
  | succ n =>
    have : treeAnn.referencedTypes (n + 1) none (.cls 0) =
      (match (match treeAnn.gather n (.cls 0) (some 0) (.gen .union [.cls 100, .gen (.builtin .list) [.text c!"Tree"]]) [(.root, [.cls 0]), (.cls 0, [])] with
        | .error e => .error e | .ok g => .ok g : Res TGraph) with | .error e => .error e | .ok g => .ok (references g)) := rfl
    rw [this, h]

/-! ### Examples -/

/-- The hypotheses hold for `list["Node"]`, where class 0 is `Node`, with members `value: "int"` and `next: "Node"`; class 1 is `int`. -/
def nodeAnn : AnnWorld where
  parse s := some (.name s)
  builtins := [(c!"int", .cls 1)]
  modules := [[(c!"Node", .cls 0)]]
  classes | 0 => ⟨0, [], [(c!"value", .text c!"int"), (c!"next", .gen .union [.ref c!"Node", .noneType])], [0]⟩ | _ => ⟨0, [], [], []⟩
  strCls := 2
  isEnum _ := false

/-- The names in the program. -/
def nodeNames (n : Str) : Option AnnObj := if n = c!"int" then some (.cls 1) else if n = c!"Node" then some (.cls 0) else none

theorem nodeNames_some {n : Str} {x : AnnObj} (h : nodeNames n = some x) : (n = c!"int" ∧ x = .cls 1) ∨ (n = c!"Node" ∧ x = .cls 0) := by
  unfold nodeNames at h
  split at h
  · rename_i h1; cases h; exact .inl ⟨h1, rfl⟩
  · split at h
    · rename_i h1; cases h; exact .inr ⟨h1, rfl⟩
    · cases h

theorem nodeAnn_legible (c : Nat) : nodeAnn.Legible c := by
  have hs : nodeAnn.Shared (nodeAnn.classes 0) (nodeAnn.classes 0).module nodeNames := by
    intro n o h
    rcases nodeNames_some h with ⟨rfl, rfl⟩ | ⟨rfl, rfl⟩
    · exact ⟨by decide, by decide, rfl, rfl⟩
    · exact ⟨by decide, by decide, rfl, rfl⟩
  intro b hb f hf
  cases c with
  | succ c => cases hb
  | zero =>
    rw [List.mem_singleton.1 hb] at hf ⊢
    refine ⟨nodeNames, ?_⟩
    rcases List.mem_cons.1 hf with rfl | hf
    · exact ⟨.cls 1, hs, ⟨3, rfl⟩, .text (e := .name c!"int") (o := .cls 1) rfl rfl .cls⟩
    · rw [List.mem_singleton.1 hf]
      refine ⟨.gen .union [.cls 0, .noneType], hs, ⟨4, rfl⟩, .gen (by simp) fun o ho => ?_⟩
      rcases List.mem_cons.1 ho with rfl | ho
      · exact .ref
      · rw [List.mem_singleton.1 ho]; exact .noneType

theorem nodeAnn_closed (c : Nat) (_ : c < 2) (t : AnnObj) (h : nodeAnn.Member c t) (k : Nat) (hk : t.Mentions (.cls k)) : k < 2 := by
  obtain ⟨N, hN⟩ := h
  obtain ⟨fs, h1, h2, h3⟩ := hN (N + 4) (by omega)
  cases c with
  | succ c => cases h1; cases h3
  | zero =>
    have : nodeAnn.readFields (N + 4) 0 = .ok [(c!"value", .cls 1), (c!"next", .gen .union [.cls 0, .noneType])] := rfl
    rw [this] at h1
    cases h1
    have hk := annMentions_iff.1 hk
    rcases List.mem_cons.1 h3 with h | h
    · cases h; cases List.mem_singleton.1 hk; omega
    · cases List.mem_singleton.1 h; cases List.mem_singleton.1 hk; omega

example : ∃ ns, (∃ N, ∀ n, N ≤ n → nodeAnn.referencedTypes n (some 0) (.gen (.builtin .list) [.text c!"Node"]) = .ok ns) ∧
    ∀ n, n ∈ ns ↔ ∃ k, (AnnObj.gen (.builtin .list) [.cls 0]).Mentions k ∧ nodeAnn.LeadsTo k n := by
  refine C84_collected_partial (K := 2) (d := nodeNames) (fun c _ => nodeAnn_legible c) nodeAnn_closed (fun n x h => ?_)
    ⟨3, rfl⟩ (.gen (by simp) fun o ho => ?_) fun k hk => ?_
  · rcases nodeNames_some h with ⟨rfl, rfl⟩ | ⟨rfl, rfl⟩
    · exact ⟨by decide, by decide, rfl⟩
    · exact ⟨by decide, by decide, rfl⟩
  · rw [List.mem_singleton.1 ho]
    exact .text (e := .name c!"Node") (o := .cls 0) rfl rfl .cls
  · cases List.mem_singleton.1 (annMentions_iff.1 hk); omega

/-- Two classes are found. -/
example : nodeAnn.referencedTypes 9 (some 0) (.gen (.builtin .list) [.text c!"Node"]) = .ok [.cls 0, .cls 1, .cls 0] := rfl

example := C84_sorted_partial (K := 2) (fun c _ => nodeAnn_legible c) nodeAnn_closed (cs := [0]) (by simp)
example : nodeAnn.sortTypes 9 [0] = .ok [.cls 1, .cls 0, .root] := rfl

/-- Texts that the writer does not see (C80) are seen here: texts of texts, within `Annotated`, and for keys. -/
example : (annOne (.text c!"'B'")).referencedTypes 9 none (.cls 0) = .ok [.cls 0, .cls 2] ∧
    (annOne (.gen .annotated [.ref c!"B", .const 0])).referencedTypes 9 none (.cls 0) = .ok [.cls 0, .cls 2] ∧
    (annOne (.gen (.builtin .dict) [.text c!"E", .cls 100])).referencedTypes 9 none (.cls 0) = .ok [.cls 0, .cls 5, .cls 100] :=
  ⟨rfl, rfl, rfl⟩

end Verif
