import Verif.Spec.Collector
import Verif.Lemmas.Core
/-!
# Lemmas about the type collector
-/
namespace Verif

/-! ### Types as lists of nodes -/

mutual
/-- The classes that occur in a type, in the order of the traversal. -/
def tyNodes : Ty → List Node
  | .none => []
  | .bool => [.atom .bool]
  | .int => [.atom .int]
  | .float => [.atom .float]
  | .str => [.atom .str]
  | .bytes => [.atom .bytes]
  | .datetime => [.atom .datetime]
  | .date => [.atom .date]
  | .time => [.atom .time]
  | .timedelta => [.atom .timedelta]
  | .uuid => [.atom .uuid]
  | .ipv4 => [.atom .ipv4]
  | .ipv6 => [.atom .ipv6]
  | .bareList => [.atom .list]
  | .bareDict => [.atom .dict]
  | .bareSet => [.atom .set]
  | .bareTuple => [.atom .tuple]
  | .list t => tyNodes t
  | .dict k t => k.node :: tyNodes t
  | .set t => tyNodes t
  | .tuple ts => tyNodesL ts
  | .union ts => tyNodesL ts
  | .literal _ => []
  | .annotated t _ => tyNodes t
  | .enum e => [.enum e]
  | .cls c => [.cls c]
/-- The same for a sequence of types. -/
def tyNodesL : List Ty → List Node
  | [] => []
  | t :: ts => tyNodes t ++ tyNodesL ts
end

/-- Nodes met one after the other. -/
def meetAll (exp : Node → TGraph → Res TGraph) (c : Node) : List Node → TGraph → Res TGraph
  | [], g => .ok g
  | n :: ns, g => match meet exp c n g with | .error e => .error e | .ok g => meetAll exp c ns g

theorem meetAll_append (exp : Node → TGraph → Res TGraph) (c : Node) (ns ms : List Node) (g : TGraph) :
    meetAll exp c (ns ++ ms) g = match meetAll exp c ns g with | .error e => .error e | .ok g => meetAll exp c ms g := by
  induction ns generalizing g with
  | nil => rfl
  | cons n ns ih =>
    simp only [List.cons_append, meetAll]
    cases meet exp c n g with
    | error e => rfl
    | ok g' => exact ih g'

theorem meetAll_one (exp : Node → TGraph → Res TGraph) (c n : Node) (g : TGraph) :
    meetAll exp c [n] g = meet exp c n g := by
  simp only [meetAll]
  cases meet exp c n g <;> rfl

mutual
theorem runTy_eq (exp : Node → TGraph → Res TGraph) (c : Node) : ∀ (t : Ty) (g : TGraph),
    runTy exp c t g = meetAll exp c (tyNodes t) g
  | .none, g => rfl
  | .bool, g => by simp only [runTy, tyNodes, meetAll_one]
  | .int, g => by simp only [runTy, tyNodes, meetAll_one]
  | .float, g => by simp only [runTy, tyNodes, meetAll_one]
  | .str, g => by simp only [runTy, tyNodes, meetAll_one]
  | .bytes, g => by simp only [runTy, tyNodes, meetAll_one]
  | .datetime, g => by simp only [runTy, tyNodes, meetAll_one]
  | .date, g => by simp only [runTy, tyNodes, meetAll_one]
  | .time, g => by simp only [runTy, tyNodes, meetAll_one]
  | .timedelta, g => by simp only [runTy, tyNodes, meetAll_one]
  | .uuid, g => by simp only [runTy, tyNodes, meetAll_one]
  | .ipv4, g => by simp only [runTy, tyNodes, meetAll_one]
  | .ipv6, g => by simp only [runTy, tyNodes, meetAll_one]
  | .bareList, g => by simp only [runTy, tyNodes, meetAll_one]
  | .bareDict, g => by simp only [runTy, tyNodes, meetAll_one]
  | .bareSet, g => by simp only [runTy, tyNodes, meetAll_one]
  | .bareTuple, g => by simp only [runTy, tyNodes, meetAll_one]
  | .list t, g => by simp only [runTy, tyNodes]; exact runTy_eq exp c t g
  | .dict k t, g => by
    simp only [runTy, tyNodes, meetAll]
    cases meet exp c k.node g with
    | error e => rfl
    | ok g' => exact runTy_eq exp c t g'
  | .set t, g => by simp only [runTy, tyNodes]; exact runTy_eq exp c t g
  | .tuple ts, g => by simp only [runTy, tyNodes]; exact runTyL_eq exp c ts g
  | .union ts, g => by simp only [runTy, tyNodes]; exact runTyL_eq exp c ts g
  | .literal _, g => rfl
  | .annotated t _, g => by simp only [runTy, tyNodes]; exact runTy_eq exp c t g
  | .enum e, g => by simp only [runTy, tyNodes, meetAll_one]
  | .cls d, g => by simp only [runTy, tyNodes, meetAll_one]
theorem runTyL_eq (exp : Node → TGraph → Res TGraph) (c : Node) : ∀ (ts : List Ty) (g : TGraph),
    runTyL exp c ts g = meetAll exp c (tyNodesL ts) g
  | [], g => rfl
  | t :: ts, g => by
    simp only [runTyL, tyNodesL, meetAll_append]
    rw [← runTy_eq exp c t g]
    cases runTy exp c t g with
    | error e => rfl
    | ok g' => exact runTyL_eq exp c ts g'
end

mutual
theorem mentions_of_mem : ∀ {t : Ty} {n : Node}, n ∈ tyNodes t → TypeMentions t n
  | .none, _, h => by simp [tyNodes] at h
  | .bool, _, h => by simp [tyNodes] at h; subst h; constructor
  | .int, _, h => by simp [tyNodes] at h; subst h; constructor
  | .float, _, h => by simp [tyNodes] at h; subst h; constructor
  | .str, _, h => by simp [tyNodes] at h; subst h; constructor
  | .bytes, _, h => by simp [tyNodes] at h; subst h; constructor
  | .datetime, _, h => by simp [tyNodes] at h; subst h; constructor
  | .date, _, h => by simp [tyNodes] at h; subst h; constructor
  | .time, _, h => by simp [tyNodes] at h; subst h; constructor
  | .timedelta, _, h => by simp [tyNodes] at h; subst h; constructor
  | .uuid, _, h => by simp [tyNodes] at h; subst h; constructor
  | .ipv4, _, h => by simp [tyNodes] at h; subst h; constructor
  | .ipv6, _, h => by simp [tyNodes] at h; subst h; constructor
  | .bareList, _, h => by simp [tyNodes] at h; subst h; constructor
  | .bareDict, _, h => by simp [tyNodes] at h; subst h; constructor
  | .bareSet, _, h => by simp [tyNodes] at h; subst h; constructor
  | .bareTuple, _, h => by simp [tyNodes] at h; subst h; constructor
  | .list _, _, h => .list (mentions_of_mem (by simpa [tyNodes] using h))
  | .set _, _, h => .set (mentions_of_mem (by simpa [tyNodes] using h))
  | .dict k t, n, h => by
    have hm : n ∈ tyNodes t → TypeMentions t n := fun h => mentions_of_mem h
    simp only [tyNodes, List.mem_cons] at h
    rcases h with rfl | h
    · cases k with
      | str => exact .strKey
      | enum e => exact .enumKey
      | int => exact .intKey
      | other => exact .otherKey
    · exact .dict (hm h)
  | .tuple ts, n, h => by
    obtain ⟨t, ht, hm⟩ := mentionsL_of_mem (ts := ts) (n := n) (by simpa [tyNodes] using h)
    exact .tuple ht hm
  | .union ts, n, h => by
    obtain ⟨t, ht, hm⟩ := mentionsL_of_mem (ts := ts) (n := n) (by simpa [tyNodes] using h)
    exact .union ht hm
  | .literal _, _, h => by simp [tyNodes] at h
  | .annotated _ _, _, h => .annotated (mentions_of_mem (by simpa [tyNodes] using h))
  | .enum _, _, h => by simp [tyNodes] at h; subst h; constructor
  | .cls _, _, h => by simp [tyNodes] at h; subst h; constructor
theorem mentionsL_of_mem : ∀ {ts : List Ty} {n : Node}, n ∈ tyNodesL ts → ∃ t ∈ ts, TypeMentions t n
  | [], _, h => by simp [tyNodesL] at h
  | t :: ts, n, h => by
    have h1 : n ∈ tyNodes t → TypeMentions t n := fun h => mentions_of_mem h
    have h2 : n ∈ tyNodesL ts → ∃ t ∈ ts, TypeMentions t n := fun h => mentionsL_of_mem h
    simp only [tyNodesL, List.mem_append] at h
    rcases h with h | h
    · exact ⟨t, by simp, h1 h⟩
    · obtain ⟨u, hu, hm⟩ := h2 h
      exact ⟨u, by simp [hu], hm⟩
end

theorem tyNodesL_mem {ts : List Ty} {n : Node} : n ∈ tyNodesL ts ↔ ∃ t ∈ ts, n ∈ tyNodes t := by
  induction ts with
  | nil => simp [tyNodesL]
  | cons t ts ih => simp [tyNodesL, ih]

theorem mentions_iff {t : Ty} {n : Node} : TypeMentions t n ↔ n ∈ tyNodes t := by
  refine ⟨fun h => ?_, mentions_of_mem⟩
  induction h with
  | list _ ih => simpa [tyNodes] using ih
  | set _ ih => simpa [tyNodes] using ih
  | dict _ ih => simp [tyNodes, ih]
  | annotated _ ih => simpa [tyNodes] using ih
  | tuple ht _ ih => simp only [tyNodes]; exact tyNodesL_mem.2 ⟨_, ht, ih⟩
  | union ht _ ih => simp only [tyNodes]; exact tyNodesL_mem.2 ⟨_, ht, ih⟩
  | strKey => simp [tyNodes, KeyTy.node]
  | enumKey => simp [tyNodes, KeyTy.node]
  | intKey => simp [tyNodes, KeyTy.node]
  | otherKey => simp [tyNodes, KeyTy.node]
  | _ => simp [tyNodes]

/-! ### Direct references -/

/-- The nodes that the members of a class refer to. -/
def directNodes (env : Env) : Node → List Node
  | .cls c => match env.classes[c]? with | some cd => tyNodesL (cd.hints.map FieldDef.ty) | none => []
  | _ => []

theorem direct_iff {env : Env} {n k : Node} : Direct env n k ↔ k ∈ directNodes env n := by
  constructor
  · rintro ⟨hc, hf, hm⟩
    simp only [directNodes, hc]
    exact tyNodesL_mem.2 ⟨_, List.mem_map.2 ⟨_, hf, rfl⟩, mentions_iff.1 hm⟩
  · intro h
    cases n with
    | cls c =>
      simp only [directNodes] at h
      cases hc : env.classes[c]? with
      | none => rw [hc] at h; simp at h
      | some cd =>
        rw [hc] at h
        obtain ⟨t, ht, hn⟩ := tyNodesL_mem.1 h
        obtain ⟨f, hf, rfl⟩ := List.mem_map.1 ht
        exact .field hc hf (mentions_iff.2 hn)
    | _ => simp [directNodes] at h

/-- A node that can be expanded. -/
def Node.Valid (env : Env) : Node → Prop
  | .cls c => c < env.classes.length
  | _ => True

theorem direct_valid {env : Env} (he : env.Defined) {n k : Node} (h : k ∈ directNodes env n) : k.Valid env := by
  obtain ⟨hc, hf, hm⟩ := direct_iff.2 h
  cases k with
  | cls c => exact he _ (List.mem_of_getElem? hc) _ hf c hm
  | _ => trivial

/-! ### Graphs -/

/-- The nodes of a graph. -/
def gKeys (g : TGraph) : List Node := g.map Prod.fst

/-- The edges of a node. -/
def gAdj (g : TGraph) (n : Node) : List Node := (lookupKey n g).getD []

theorem addEdge_keys (c n : Node) (g : TGraph) : gKeys (addEdge c n g) = gKeys g := by
  induction g with
  | nil => rfl
  | cons p g ih =>
    obtain ⟨k, ms⟩ := p
    simp only [addEdge]
    split
    · rfl
    · simpa [gKeys] using ih

theorem addEdge_other {c n m : Node} (h : m ≠ c) (g : TGraph) : lookupKey m (addEdge c n g) = lookupKey m g := by
  induction g with
  | nil => rfl
  | cons p g ih =>
    obtain ⟨k, ms⟩ := p
    simp only [addEdge]
    by_cases hk : k = c
    · subst hk; simp [lookupKey, Ne.symm h]
    · simp only [hk, if_false, lookupKey, ih]

theorem addEdge_self {c n : Node} {g : TGraph} (h : c ∈ gKeys g) (k : Node) :
    k ∈ gAdj (addEdge c n g) c ↔ k ∈ gAdj g c ∨ k = n := by
  induction g with
  | nil => simp [gKeys] at h
  | cons p g ih =>
    obtain ⟨k', ms⟩ := p
    simp only [addEdge]
    by_cases hk : k' = c
    · subst hk
      simp only [if_true, gAdj, lookupKey, Option.getD_some]
      by_cases hn : n ∈ ms
      · simp only [hn, if_true]
        constructor
        · exact .inl
        · rintro (h | rfl)
          · exact h
          · exact hn
      · simp [hn]
    · have h' : c ∈ gKeys g := by
        simp only [gKeys, List.map_cons, List.mem_cons] at h
        rcases h with h | h
        · exact absurd h.symm hk
        · exact h
      simpa [gAdj, lookupKey, hk] using ih h'

theorem lookupKey_snoc {m n : Node} {g : TGraph} (ms : List Node) (h : n ∉ gKeys g) :
    lookupKey m (g ++ [(n, ms)]) = if n = m then some ms else lookupKey m g := by
  rw [← upsert_of_not_mem (v := ms) h, lookupKey_upsert]

/-- Number of classes that are not yet in the graph. -/
def unseenCls (env : Env) (g : TGraph) : Nat :=
  ((List.range env.classes.length).filter (fun c => Node.cls c ∉ gKeys g)).length

theorem clsFilter_le {p q : α → Bool} (hpq : ∀ x, p x = true → q x = true) (l : List α) :
    (l.filter p).length ≤ (l.filter q).length := by
  induction l with
  | nil => simp
  | cons b l ih =>
    cases hb : p b with
    | true => simp [hb, hpq b hb]; omega
    | false => cases hq : q b <;> simp [hb, hq] <;> omega

theorem unseenCls_mono (env : Env) {g g' : TGraph} (h : ∀ n ∈ gKeys g, n ∈ gKeys g') : unseenCls env g' ≤ unseenCls env g := by
  unfold unseenCls
  refine clsFilter_le ?_ _
  intro c hc
  simp only [decide_eq_true_eq] at hc ⊢
  exact fun h' => hc (h _ h')

theorem clsFilter_lt {p q : α → Bool} {l : List α} (hpq : ∀ x, p x = true → q x = true) {a : α} (ha : a ∈ l)
    (h1 : q a = true) (h2 : p a = false) : (l.filter p).length < (l.filter q).length := by
  induction l with
  | nil => simp at ha
  | cons b l ih =>
    have hle : (l.filter p).length ≤ (l.filter q).length := clsFilter_le hpq l
    rcases List.mem_cons.1 ha with rfl | ha
    · simp [h1, h2]; omega
    · have := ih ha
      cases hb : p b with
      | true => simp [hb, hpq b hb]; omega
      | false => cases hq : q b <;> simp [hb, hq] <;> omega

theorem unseenCls_lt (env : Env) {g g' : TGraph} {c : Nat} (h : ∀ n ∈ gKeys g, n ∈ gKeys g') (hc : c < env.classes.length)
    (h1 : Node.cls c ∉ gKeys g) (h2 : Node.cls c ∈ gKeys g') : unseenCls env g' < unseenCls env g := by
  unfold unseenCls
  refine clsFilter_lt ?_ (List.mem_range.2 hc) (by simpa using h1) (by simpa using h2)
  intro x hx
  simp only [decide_eq_true_eq] at hx ⊢
  exact fun h' => hx (h _ h')

/-! ### Invariant of the traversal -/

/-- `g'` is `g` after the nodes `ns` were met while `c` was expanded. -/
structure Stepped (env : Env) (c : Node) (ns : List Node) (g g' : TGraph) : Prop where
  nodup : (gKeys g').Nodup
  keys : ∀ n ∈ gKeys g, n ∈ gKeys g'
  old : ∀ m ∈ gKeys g, m ≠ c → lookupKey m g' = lookupKey m g
  self : ∀ k, k ∈ gAdj g' c ↔ k ∈ gAdj g c ∨ k ∈ ns
  met : ∀ n ∈ ns, n ∈ gKeys g'
  new : ∀ m ∈ gKeys g', m ∉ gKeys g → (∀ k, k ∈ gAdj g' m ↔ k ∈ directNodes env m) ∧
    (∀ k ∈ directNodes env m, k ∈ gKeys g') ∧ ∃ n ∈ ns, Leads env n m

theorem Stepped.refl (env : Env) (c : Node) {g : TGraph} (h : (gKeys g).Nodup) : Stepped env c [] g g where
  nodup := h
  keys := fun _ h => h
  old := fun _ _ _ => rfl
  self := by simp
  met := by simp
  new := fun _ h1 h2 => absurd h1 h2

theorem Stepped.trans {env : Env} {c : Node} {ns ms : List Node} {g g1 g2 : TGraph} (hc : c ∈ gKeys g)
    (h1 : Stepped env c ns g g1) (h2 : Stepped env c ms g1 g2) : Stepped env c (ns ++ ms) g g2 where
  nodup := h2.nodup
  keys := fun n h => h2.keys n (h1.keys n h)
  old := fun m hm hmc => by rw [h2.old m (h1.keys m hm) hmc, h1.old m hm hmc]
  self := fun k => by rw [h2.self, h1.self, List.mem_append, or_assoc]
  met := fun n hn => by
    rcases List.mem_append.1 hn with h | h
    · exact h2.keys n (h1.met n h)
    · exact h2.met n h
  new := fun m hm hng => by
    by_cases hm1 : m ∈ gKeys g1
    · obtain ⟨ha, hb, n, hn, hl⟩ := h1.new m hm1 hng
      have hmc : m ≠ c := fun e => hng (e ▸ hc)
      refine ⟨fun k => ?_, fun k hk => h2.keys k (hb k hk), n, by simp [hn], hl⟩
      have : gAdj g2 m = gAdj g1 m := by simp only [gAdj, h2.old m hm1 hmc]
      rw [this, ha]
    · obtain ⟨ha, hb, n, hn, hl⟩ := h2.new m hm hm1
      exact ⟨ha, hb, n, by simp [hn], hl⟩

theorem leads_head {env : Env} {n m k : Node} (h : Direct env n m) (h' : Leads env m k) : Leads env n k := by
  induction h' with
  | refl => exact .step .refl h
  | step _ hd ih => exact .step ih hd

/-- One node is met, given that expanding a node works. -/
theorem meet_stepped {env : Env} {exp : Node → TGraph → Res TGraph} {c n : Node} {g : TGraph}
    (hnd : (gKeys g).Nodup) (hc : c ∈ gKeys g)
    (hexp : n ∉ gKeys g → ∀ g2, g2 = addEdge c n g ++ [(n, [])] →
      ∃ g', exp n g2 = .ok g' ∧ Stepped env n (directNodes env n) g2 g') :
    ∃ g', meet exp c n g = .ok g' ∧ Stepped env c [n] g g' := by
  by_cases hn : n ∈ gKeys g
  · refine ⟨addEdge c n g, ?_, ?_⟩
    · simp only [meet]
      rw [if_pos (by have := addEdge_keys c n g; unfold gKeys at this hn; rw [this]; exact hn)]
    · exact { nodup := by rw [addEdge_keys]; exact hnd
              keys := fun m hm => by rw [addEdge_keys]; exact hm
              old := fun m _ hmc => addEdge_other hmc g
              self := fun k => by rw [addEdge_self hc]; simp
              met := fun m hm => by simp at hm; subst hm; rw [addEdge_keys]; exact hn
              new := fun m hm hng => by rw [addEdge_keys] at hm; exact absurd hm hng }
  · have hn' : n ∉ gKeys (addEdge c n g) := by rw [addEdge_keys]; exact hn
    have hcn : c ≠ n := fun e => hn (e ▸ hc)
    obtain ⟨g', h1, h2⟩ := hexp hn _ rfl
    have hk2 : gKeys (addEdge c n g ++ [(n, [])]) = gKeys g ++ [n] := by
      have := addEdge_keys c n g
      unfold gKeys at this ⊢
      rw [List.map_append, this]; rfl
    have hlook : ∀ m, lookupKey m (addEdge c n g ++ [(n, [])]) =
        if n = m then some [] else lookupKey m (addEdge c n g) := fun m => lookupKey_snoc [] hn'
    refine ⟨g', ?_, ?_⟩
    · simp only [meet]
      rw [if_neg (by unfold gKeys at hn'; exact hn')]
      exact h1
    · have hcg : c ∈ gKeys (addEdge c n g ++ [(n, [])]) := by rw [hk2]; simp [hc]
      have hng' : n ∈ gKeys g' := h2.keys n (by rw [hk2]; simp)
      exact {
        nodup := h2.nodup
        keys := fun m hm => h2.keys m (by rw [hk2]; simp [hm])
        old := fun m hm hmc => by
          have hmn : n ≠ m := fun e => hn (e ▸ hm)
          rw [h2.old m (by rw [hk2]; simp [hm]) (Ne.symm hmn), hlook, if_neg hmn, addEdge_other hmc]
        self := fun k => by
          have : gAdj g' c = gAdj (addEdge c n g) c := by
            simp only [gAdj, h2.old c hcg hcn, hlook, if_neg (Ne.symm hcn)]
          rw [this, addEdge_self hc]; simp
        met := fun m hm => by simp at hm; subst hm; exact hng'
        new := fun m hm hng => by
          by_cases hmn : m = n
          · subst hmn
            refine ⟨fun k => ?_, h2.met, m, by simp, .refl⟩
            rw [h2.self]
            simp [gAdj, hlook]
          · obtain ⟨ha, hb, k, hk, hl⟩ := h2.new m hm (by rw [hk2]; simp [hng, hmn])
            exact ⟨ha, hb, n, by simp, leads_head (direct_iff.2 hk) hl⟩ }

/-- Expanding a class that was just added. -/
def ExpandOk (env : Env) (f : Nat) : Prop :=
  ∀ n g, (gKeys g).Nodup → n ∈ gKeys g → n.Valid env → (∀ c, n = .cls c → unseenCls env g < f) →
    ∃ g', expand env f n g = .ok g' ∧ Stepped env n (directNodes env n) g g'

theorem meetAll_stepped {env : Env} {f : Nat} (hA : ExpandOk env f) {c : Node} : ∀ (ns : List Node) (g : TGraph),
    (gKeys g).Nodup → c ∈ gKeys g → (∀ n ∈ ns, n.Valid env) → unseenCls env g ≤ f →
    ∃ g', meetAll (expand env f) c ns g = .ok g' ∧ Stepped env c ns g g'
  | [], g, hnd, _, _, _ => ⟨g, rfl, .refl env c hnd⟩
  | n :: ns, g, hnd, hc, hv, hu => by
    have hone : ∃ g', meet (expand env f) c n g = .ok g' ∧ Stepped env c [n] g g' := by
      refine meet_stepped hnd hc (fun hn g2 hg2 => ?_)
      subst hg2
      have hk2 : gKeys (addEdge c n g ++ [(n, [])]) = gKeys g ++ [n] := by
        have := addEdge_keys c n g
        unfold gKeys at this ⊢
        rw [List.map_append, this]; rfl
      refine hA n _ ?_ (by rw [hk2]; simp) (hv n (by simp)) ?_
      · rw [hk2, List.nodup_append]
        refine ⟨hnd, by simp, ?_⟩
        intro a ha b hb; simp at hb; subst hb
        intro e; subst e; exact hn ha
      · rintro d rfl
        have := unseenCls_lt env (g := g) (g' := addEdge c (.cls d) g ++ [(.cls d, [])]) (c := d)
          (fun m hm => by rw [hk2]; simp [hm]) (hv (.cls d) (by simp)) hn (by rw [hk2]; simp)
        omega
    obtain ⟨g1, h1, s1⟩ := hone
    have hu1 : unseenCls env g1 ≤ f := Nat.le_trans (unseenCls_mono env s1.keys) hu
    obtain ⟨g2, h2, s2⟩ := meetAll_stepped hA ns g1 s1.nodup (s1.keys c hc) (fun m hm => hv m (by simp [hm])) hu1
    exact ⟨g2, by simp only [meetAll, h1]; exact h2, s1.trans hc s2⟩

theorem expandOk (env : Env) (he : env.Defined) : ∀ f, ExpandOk env f
  | 0 => by
    intro n g hnd hn hv hu
    cases n with
    | cls c => exact absurd (hu c rfl) (by omega)
    | _ => exact ⟨g, rfl, .refl env _ hnd⟩
  | f + 1 => by
    have hB := fun c ns g => meetAll_stepped (expandOk env he f) (c := c) ns g
    intro n g hnd hn hv hu
    cases n with
    | cls c =>
      have hlt : c < env.classes.length := hv
      have hc : env.classes[c]? = some env.classes[c] := List.getElem?_eq_getElem hlt
      obtain ⟨g', h1, s⟩ := hB (.cls c) (directNodes env (.cls c)) g hnd hn (fun k hk => direct_valid he hk)
        (by have := hu c rfl; omega)
      refine ⟨g', ?_, s⟩
      simp only [expand, hc, runTyL_eq]
      simpa only [directNodes, hc] using h1
    | _ => exact ⟨g, rfl, .refl env _ hnd⟩

end Verif
