import Verif.Spec.AnnCollect
import Verif.Lemmas.AnnMeaning
import Verif.Lemmas.Collector
/-!
# Lemmas about the collection of types with texts in their annotations
-/
namespace Verif

variable {w : AnnWorld} {d : Str → Option AnnObj}

/-! ### Types as lists of nodes -/

mutual
/-- The classes that occur in a type, in the order of the traversal. -/
def AnnObj.nodes : AnnObj → List Node
  | .cls c => [.cls c]
  | .form (.builtin c) => [c.node]
  | .gen f os => if f = .literal then [] else if f = .annotated then firstNodes os else nodesL os
  | _ => []
/-- The same for the first argument. -/
def firstNodes : List AnnObj → List Node
  | [] => []
  | o :: _ => o.nodes
/-- The same for a sequence. -/
def nodesL : List AnnObj → List Node
  | [] => []
  | o :: os => o.nodes ++ nodesL os
end

theorem nodesL_mem {os : List AnnObj} {n : Node} : n ∈ nodesL os ↔ ∃ o ∈ os, n ∈ o.nodes := by
  induction os with
  | nil => simp [nodesL]
  | cons o os ih => simp [nodesL, ih]

mutual
theorem mentions_of_nodes : ∀ {o : AnnObj} {n : Node}, n ∈ o.nodes → o.Mentions n
  | .cls c, n, h => by simp only [AnnObj.nodes, List.mem_singleton] at h; subst h; exact .cls
  | .form (.builtin c), n, h => by
    simp only [AnnObj.nodes, List.mem_singleton] at h; subst h
    cases c
    · exact .list
    · exact .set
    · exact .dict
    · exact .tuple
  | .gen f os, n, h => by
    simp only [AnnObj.nodes] at h
    split at h
    · cases h
    · rename_i h1
      split at h
      · rename_i h2
        subst h2
        exact mentions_of_first h
      · rename_i h2
        obtain ⟨o, ho, hm⟩ := mentions_of_nodesL h
        exact .arg h1 h2 ho hm
  | .none, n, h => by simp [AnnObj.nodes] at h
  | .noneType, n, h => by simp [AnnObj.nodes] at h
  | .form (.typing _), n, h => by simp [AnnObj.nodes] at h
  | .form .union, n, h => by simp [AnnObj.nodes] at h
  | .form .literal, n, h => by simp [AnnObj.nodes] at h
  | .form .annotated, n, h => by simp [AnnObj.nodes] at h
  | .form .pipe, n, h => by simp [AnnObj.nodes] at h
  | .module _, n, h => by simp [AnnObj.nodes] at h
  | .const _, n, h => by simp [AnnObj.nodes] at h
  | .text _, n, h => by simp [AnnObj.nodes] at h
  | .ref _, n, h => by simp [AnnObj.nodes] at h
theorem mentions_of_first : ∀ {os : List AnnObj} {n : Node}, n ∈ firstNodes os → (AnnObj.gen .annotated os).Mentions n
  | [], _, h => by simp [firstNodes] at h
  | o :: os, n, h => by simp only [firstNodes] at h; exact .annotated (mentions_of_nodes h)
theorem mentions_of_nodesL : ∀ {os : List AnnObj} {n : Node}, n ∈ nodesL os → ∃ o ∈ os, o.Mentions n
  | [], _, h => by simp [nodesL] at h
  | o :: os, n, h => by
    simp only [nodesL, List.mem_append] at h
    rcases h with h | h
    · exact ⟨o, List.mem_cons_self, mentions_of_nodes h⟩
    · obtain ⟨o', ho, hm⟩ := mentions_of_nodesL h
      exact ⟨o', List.mem_cons_of_mem _ ho, hm⟩
end

theorem annMentions_iff {o : AnnObj} {n : Node} : o.Mentions n ↔ n ∈ o.nodes := by
  refine ⟨fun h => ?_, mentions_of_nodes⟩
  induction h with
  | cls => simp [AnnObj.nodes]
  | list => simp [AnnObj.nodes, Coll.node]
  | set => simp [AnnObj.nodes, Coll.node]
  | dict => simp [AnnObj.nodes, Coll.node]
  | tuple => simp [AnnObj.nodes, Coll.node]
  | arg h1 h2 ho _ ih => simp only [AnnObj.nodes, if_neg h1, if_neg h2]; exact nodesL_mem.2 ⟨_, ho, ih⟩
  | annotated _ ih => simpa [AnnObj.nodes, firstNodes] using ih

/-- Nodes in annotations. -/
def Node.Simple : Node → Prop
  | .cls _ => True
  | .atom .list | .atom .set | .atom .dict | .atom .tuple => True
  | _ => False

theorem mentions_simple {o : AnnObj} {n : Node} (h : o.Mentions n) : n.Simple := by
  induction h with
  | arg _ _ _ _ ih => exact ih
  | annotated _ ih => exact ih
  | _ => trivial

/-! ### Meanings -/

theorem genMeaning_args {m : AnnObj → Option AnnObj} {f : AnnForm} (h1 : f ≠ .literal) (h2 : f ≠ .annotated) {os : List AnnObj} {t : AnnObj}
    (h : genMeaning m f os = some t) : ∃ ts, t = .gen f ts ∧ All2 (fun o t => argMeaning f m o = some t) os ts := by
  have h : (allMean (argMeaning f m) os).map (AnnObj.gen f) = some t := by
    cases f <;> first | exact absurd rfl h1 | exact absurd rfl h2 | exact h
  cases h3 : allMean (argMeaning f m) os with
  | none => rw [h3] at h; cases h
  | some ts => rw [h3] at h; cases h; exact ⟨ts, rfl, allMean_iff.1 h3⟩

theorem genMeaning_annotated {m : AnnObj → Option AnnObj} {os : List AnnObj} {t : AnnObj} (h : genMeaning m .annotated os = some t) :
    ∃ o ms u, os = o :: ms ∧ t = .gen .annotated (u :: ms) ∧ m o = some u := by
  cases os with
  | nil => cases h
  | cons o ms =>
    simp only [genMeaning] at h
    cases h1 : argMeaning .annotated m o with
    | none => rw [h1] at h; cases h
    | some u => rw [h1] at h; cases h; exact ⟨o, ms, u, rfl, rfl, argMeaning_some h1⟩

/-- As `NoNone`, with forward references or without. -/
inductive AnnWalk (w : AnnWorld) (d : Str → Option AnnObj) (r : Bool) : AnnObj → Prop
  | noneType : AnnWalk w d r .noneType
  | cls {c : Nat} : AnnWalk w d r (.cls c)
  | form {f : AnnForm} : AnnWalk w d r (.form f)
  | literal {os : List AnnObj} : AnnWalk w d r (.gen .literal os)
  | annotated {o : AnnObj} {ms : List AnnObj} : AnnWalk w d r o → AnnWalk w d r (.gen .annotated (o :: ms))
  | gen {f : AnnForm} {os : List AnnObj} : f ≠ .annotated → (∀ o ∈ os, AnnWalk w d r o) → AnnWalk w d r (.gen f os)
  | text {s : Str} {e : AnnExpr} {o : AnnObj} : w.parse s = some e → annEval d w.inModule e = .ok o → AnnWalk w d r o → AnnWalk w d r (.text s)
  | ref {s : Str} : r = true → AnnWalk w d r (.ref s)

theorem walk_of_noNone {o : AnnObj} (h : w.NoNone d o) : AnnWalk w d true o := by
  induction h with
  | noneType => exact .noneType
  | cls => exact .cls
  | form => exact .form
  | literal => exact .literal
  | annotated _ ih => exact .annotated ih
  | gen h _ ih => exact .gen h ih
  | text h1 h2 _ ih => exact .text h1 h2 ih
  | ref => exact .ref rfl

theorem meaning_walk : ∀ {n : Nat} {o t : AnnObj}, w.meaning d n o = some t → AnnWalk w d false t
  | 0, _, _, h => by cases h
  | n + 1, o, t, h => by
    have ht : ∀ s, w.textMeaning d n s = some t → AnnWalk w d false t := by
      intro s h
      obtain ⟨e, o, _, _, h3⟩ := textMeaning_iff.1 h
      rcases h3 with ⟨_, rfl⟩ | ⟨_, h3⟩
      · exact .noneType
      · exact meaning_walk h3
    cases o with
    | text s => exact ht s h
    | ref s => exact ht s h
    | gen f os =>
      rw [meaning_gen] at h
      by_cases h1 : f = .literal
      · subst h1
        simp only [genMeaning] at h
        split at h
        · cases h; exact .literal
        · cases h
      by_cases h2 : f = .annotated
      · subst h2
        obtain ⟨o, ms, u, _, rfl, hu⟩ := genMeaning_annotated h
        exact .annotated (meaning_walk hu)
      · obtain ⟨ts, rfl, ha⟩ := genMeaning_args h1 h2 h
        refine .gen h2 fun t ht => ?_
        obtain ⟨o, _, ho⟩ := ha.mem_right ht
        exact meaning_walk (argMeaning_some ho)
    | noneType => cases h; exact .noneType
    | cls c => cases h; exact .cls
    | form f => cases f <;> first | (cases h; exact .form) | cases h
    | _ => cases h

/-! ### One annotation -/

/-- The loop over the members of class `k`. -/
def AnnWorld.members (w : AnnWorld) (n k : Nat) (g : TGraph) : Res TGraph :=
  eachOf (fun f g => match w.evaluateType n (w.classes k).module f.2 with
    | .error e => .error e
    | .ok o => w.gather n (.cls k) (some (w.classes k).module) o g) (w.rawFields k) g

theorem gather_cls (n : Nat) (c : Node) (m : Option Nat) (k : Nat) (g : TGraph) :
    w.gather (n + 1) c m (.cls k) g = meet (fun _ g => w.members n k g) c (.cls k) g := rfl

theorem gather_gen {f : AnnForm} (h1 : f ≠ .literal) (h2 : f ≠ .annotated) (n : Nat) (c : Node) (m : Option Nat) (os : List AnnObj) (g : TGraph) :
    w.gather (n + 1) c m (.gen f os) g = eachOf (w.gather n c m) os g := by
  cases f <;> first | exact absurd rfl h1 | exact absurd rfl h2 | rfl

/-- The members of each class are expanded as by `exp`. -/
def ExpandsAs (w : AnnWorld) (exp : Node → TGraph → Res TGraph) : Prop :=
  (∀ k g g', exp (.cls k) g = .ok g' → ∃ N, ∀ n, N ≤ n → w.members n k g = .ok g') ∧ ∀ (k : Coll) g, exp k.node g = .ok g

theorem meet_ok {exp : Node → TGraph → Res TGraph} {c n : Node} {g g' : TGraph} (h : meet exp c n g = .ok g') :
    (n ∈ (addEdge c n g).map Prod.fst ∧ g' = addEdge c n g) ∨
    (n ∉ (addEdge c n g).map Prod.fst ∧ exp n (addEdge c n g ++ [(n, [])]) = .ok g') := by
  unfold meet at h
  simp only at h
  split at h
  · rename_i h1; cases h; exact .inl ⟨h1, rfl⟩
  · rename_i h1; exact .inr ⟨h1, h⟩

theorem eachOf_gather {m : Nat} {exp : Node → TGraph → Res TGraph} {c : Node} {os ts : List AnnObj} (h : All2 (w.Means d) os ts)
    (ih : ∀ o ∈ os, ∀ t, w.Means d o t → ∀ g g', meetAll exp c t.nodes g = .ok g' →
      ∃ N, ∀ n, N ≤ n → w.gather n c (some m) o g = .ok g') :
    ∀ g g', meetAll exp c (nodesL ts) g = .ok g' → ∃ N, ∀ n, N ≤ n → eachOf (w.gather n c (some m)) os g = .ok g' := by
  induction h with
  | nil => intro g g' hg; cases hg; exact ⟨0, fun _ _ => rfl⟩
  | cons hx _ ih' =>
    intro g g' hg
    simp only [nodesL, meetAll_append] at hg
    split at hg
    · cases hg
    · rename_i g1 h1
      obtain ⟨N, hN⟩ := ih _ List.mem_cons_self _ hx g g1 h1
      obtain ⟨M, hM⟩ := ih' (fun o ho => ih o (List.mem_cons_of_mem _ ho)) g1 g' hg
      exact ⟨max N M, fun n hn => by simp only [eachOf, hN n (by omega)]; exact hM n (by omega)⟩

theorem gather_walk {m : Nat} (hd : ∀ o n x, d n = some x → w.evalLook m o n = some x) {exp : Node → TGraph → Res TGraph}
    (hexp : ExpandsAs w exp) {c : Node} {r : Bool} (href : r = true → ∀ s t, w.Means d (.ref s) t → ∀ g g', meetAll exp c t.nodes g = .ok g' →
      ∃ N, ∀ n, N ≤ n → w.gather n c (some m) t g = .ok g') {o : AnnObj} (h : AnnWalk w d r o) :
    ∀ t, w.Means d o t → ∀ g g', meetAll exp c t.nodes g = .ok g' → ∃ N, ∀ n, N ≤ n → w.gather n c (some m) o g = .ok g' := by
  induction h with
  | noneType =>
    intro t ⟨n, ht⟩ g g' hg
    cases n with
    | zero => cases ht
    | succ n =>
      cases ht; cases hg
      exact ⟨1, fun n hn => by obtain ⟨n, rfl⟩ : ∃ j, n = j + 1 := ⟨n - 1, by omega⟩; rfl⟩
  | @cls k =>
    intro t ⟨n, ht⟩ g g' hg
    cases n with
    | zero => cases ht
    | succ n =>
      cases ht
      simp only [AnnObj.nodes, meetAll_one] at hg
      rcases meet_ok hg with ⟨h1, rfl⟩ | ⟨h1, h2⟩
      · refine ⟨1, fun n hn => ?_⟩
        obtain ⟨n, rfl⟩ : ∃ j, n = j + 1 := ⟨n - 1, by omega⟩
        rw [gather_cls]; unfold meet; simp only [if_pos h1]
      · obtain ⟨N, hN⟩ := hexp.1 k _ _ h2
        refine ⟨N + 1, fun n hn => ?_⟩
        obtain ⟨n, rfl⟩ : ∃ j, n = j + 1 := ⟨n - 1, by omega⟩
        rw [gather_cls]; unfold meet; simp only [if_neg h1]
        exact hN n (by omega)
  | @form f =>
    intro t ⟨n, ht⟩ g g' hg
    cases n with
    | zero => cases ht
    | succ n =>
      refine ⟨1, fun n hn => ?_⟩
      obtain ⟨n, rfl⟩ : ∃ j, n = j + 1 := ⟨n - 1, by omega⟩
      cases f with
      | builtin k =>
        cases ht
        simp only [AnnObj.nodes, meetAll_one] at hg
        show meet (fun _ g => .ok g) c k.node g = .ok g'
        rw [← hg]
        unfold meet
        simp only [hexp.2]
      | typing k => cases ht; cases hg; rfl
      | _ => cases ht
  | @literal os =>
    intro t ⟨n, ht⟩ g g' hg
    cases n with
    | zero => cases ht
    | succ n =>
      rw [meaning_gen] at ht
      simp only [genMeaning] at ht
      split at ht
      · cases ht
        simp only [AnnObj.nodes, if_true] at hg
        cases hg
        exact ⟨1, fun n hn => by obtain ⟨n, rfl⟩ : ∃ j, n = j + 1 := ⟨n - 1, by omega⟩; rfl⟩
      · cases ht
  | @annotated o ms _ ih =>
    intro t ⟨n, ht⟩ g g' hg
    cases n with
    | zero => cases ht
    | succ n =>
      rw [meaning_gen] at ht
      obtain ⟨_, _, u, h1, rfl, hu⟩ := genMeaning_annotated ht
      cases h1
      simp only [AnnObj.nodes, firstNodes, if_true] at hg
      obtain ⟨N, hN⟩ := ih u ⟨n, hu⟩ g g' (by simpa using hg)
      refine ⟨N + 1, fun n hn => ?_⟩
      obtain ⟨n, rfl⟩ : ∃ j, n = j + 1 := ⟨n - 1, by omega⟩
      exact hN n (by omega)
  | @gen f os h2 _ ih =>
    intro t ⟨n, ht⟩ g g' hg
    cases n with
    | zero => cases ht
    | succ n =>
      rw [meaning_gen] at ht
      by_cases h1 : f = .literal
      · subst h1
        simp only [genMeaning] at ht
        split at ht
        · cases ht
          simp only [AnnObj.nodes, if_true] at hg
          cases hg
          exact ⟨1, fun n hn => by obtain ⟨n, rfl⟩ : ∃ j, n = j + 1 := ⟨n - 1, by omega⟩; rfl⟩
        · cases ht
      · obtain ⟨ts, rfl, ha⟩ := genMeaning_args h1 h2 ht
        simp only [AnnObj.nodes, if_neg h1, if_neg h2] at hg
        obtain ⟨N, hN⟩ := eachOf_gather (ha.imp fun o t h => ⟨n, argMeaning_some h⟩) ih g g' hg
        refine ⟨N + 1, fun n hn => ?_⟩
        obtain ⟨n, rfl⟩ : ∃ j, n = j + 1 := ⟨n - 1, by omega⟩
        rw [gather_gen h1 h2]
        exact hN n (by omega)
  | @text s e o hp he hn ih =>
    intro t ⟨n, ht⟩ g g' hg
    cases n with
    | zero => cases ht
    | succ n =>
      rw [meaning_text] at ht
      obtain ⟨e', o', hp', he', h⟩ := textMeaning_iff.1 ht
      rw [hp] at hp'; cases hp'
      rw [he] at he'; cases he'
      rcases h with ⟨rfl, _⟩ | ⟨_, h⟩
      · cases hn
      · obtain ⟨N, hN⟩ := ih t ⟨n, h⟩ g g' hg
        refine ⟨N + 1, fun n hn => ?_⟩
        obtain ⟨n, rfl⟩ : ∃ j, n = j + 1 := ⟨n - 1, by omega⟩
        have : w.evaluateType n m (.text s) = .ok o := by
          simp only [AnnWorld.evaluateType, AnnWorld.evalText, hp]
          exact annEval_mono (hd _) e he
        simp only [AnnWorld.gather, this]
        exact hN n (by omega)
  | @ref s hr =>
    intro t hm g g' hg
    obtain ⟨N, hN⟩ := href hr s t hm g g' hg
    obtain ⟨k, hk⟩ := hm
    refine ⟨max N (k + 1) + 1, fun n hn => ?_⟩
    obtain ⟨n, rfl⟩ : ∃ j, n = j + 1 := ⟨n - 1, by omega⟩
    have : w.evaluateType n m (.ref s) = .ok t := resolve_meaning (hd _) k (o := .ref s) (by omega) (by simp) hk
    simp only [AnnWorld.gather, this]
    exact hN n (by omega)

theorem gather_noNone {m : Nat} (hd : ∀ o n x, d n = some x → w.evalLook m o n = some x) {exp : Node → TGraph → Res TGraph}
    (hexp : ExpandsAs w exp) {c : Node} {o : AnnObj} (h : w.NoNone d o) {t : AnnObj} (ht : w.Means d o t) {g g' : TGraph}
    (hg : meetAll exp c t.nodes g = .ok g') : ∃ N, ∀ n, N ≤ n → w.gather n c (some m) o g = .ok g' := by
  refine gather_walk hd hexp (fun _ s t ⟨k, ht⟩ g g' hg => ?_) (walk_of_noNone h) t ht g g' hg
  exact gather_walk hd hexp (fun h => by cases h) (meaning_walk ht) t ⟨k, meaning_again ht⟩ g g' hg

/-! ### The members of a class -/

/-- The loops of `get_type_hints`, for a relation between annotations and types. -/
theorem hintsOf_all2 {R : Str × AnnObj → Str × AnnObj → Prop} (hR : ∀ p q, R p q → p.1 = q.1) {b : Nat} (own : List (Str × AnnObj))
    (h : ∀ p ∈ own, ∃ t, (∃ N, ∀ n, N ≤ n → w.hint n (w.classes b) p.2 = .ok t) ∧ R p (p.1, t)) :
    ∀ {ps qs : List (Str × AnnObj)}, All2 R ps qs →
      ∃ qs', All2 R (updateMap ps own) qs' ∧ ∃ N, ∀ n, N ≤ n → w.hintsOf n (w.classes b) own qs = .ok qs' := by
  induction own with
  | nil => exact fun hp => ⟨_, hp, 0, fun _ _ => rfl⟩
  | cons p own ih =>
    intro ps qs hp
    obtain ⟨k, o⟩ := p
    obtain ⟨t, ⟨N, hN⟩, hg⟩ := h (k, o) List.mem_cons_self
    obtain ⟨qs', h1, M, hM⟩ := ih (fun p hp => h p (List.mem_cons_of_mem _ hp)) (fieldGood_upsert hR hp hg)
    refine ⟨qs', h1, max N M, fun n hn => ?_⟩
    simp only [AnnWorld.hintsOf, hN n (by omega)]
    exact hM n (by omega)

theorem hintsOfAll_all2 {R : Str × AnnObj → Str × AnnObj → Prop} (hR : ∀ p q, R p q → p.1 = q.1) (bs : List Nat)
    (h : ∀ b ∈ bs, ∀ p ∈ (w.classes b).own, ∃ t, (∃ N, ∀ n, N ≤ n → w.hint n (w.classes b) p.2 = .ok t) ∧ R p (p.1, t)) :
    ∀ {ps qs : List (Str × AnnObj)}, All2 R ps qs →
      ∃ qs', All2 R (bs.foldl (fun d b => updateMap d (w.classes b).own) ps) qs' ∧ ∃ N, ∀ n, N ≤ n → w.hintsOfAll n bs qs = .ok qs' := by
  induction bs with
  | nil => exact fun hp => ⟨_, hp, 0, fun _ _ => rfl⟩
  | cons b bs ih =>
    intro ps qs hp
    obtain ⟨qs1, h1, N, hN⟩ := hintsOf_all2 hR _ (h b List.mem_cons_self) hp
    obtain ⟨qs2, h2, M, hM⟩ := ih (fun b hb => h b (List.mem_cons_of_mem _ hb)) h1
    refine ⟨qs2, h2, max N M, fun n hn => ?_⟩
    simp only [AnnWorld.hintsOfAll, hN n (by omega)]
    exact hM n (by omega)

/-- The annotation of a member of class `c` and its type. -/
def MemberGood (w : AnnWorld) (c : Nat) (p q : Str × AnnObj) : Prop :=
  p.1 = q.1 ∧ ∃ d, (∀ o n x, d n = some x → w.evalLook (w.classes c).module o n = some x) ∧ w.Means d p.2 q.2 ∧ w.NoNone d p.2

theorem members_typed {c : Nat} (h : w.Legible c) : ∃ fs, All2 (MemberGood w c) (w.rawFields c) fs ∧
    ∃ N, ∀ n, N ≤ n → w.readFields n c = .ok fs :=
  hintsOfAll_all2 (fun _ _ h => h.1) (w.classes c).mro.reverse (fun b hb p hp => by
    obtain ⟨d, t, hd, hm, hn⟩ := h b (List.mem_reverse.1 hb) p hp
    exact ⟨t, hint_means (Shared.hintLook hd) hm, rfl, d, Shared.evalLook hd, hm, hn⟩) .nil

theorem member_good {exp : Node → TGraph → Res TGraph} (hexp : ExpandsAs w exp) {c : Nat} {p q : Str × AnnObj} (h : MemberGood w c p q)
    {g g' : TGraph} (hg : meetAll exp (.cls c) q.2.nodes g = .ok g') :
    ∃ N, ∀ n, N ≤ n → (match w.evaluateType n (w.classes c).module p.2 with
      | .error e => Except.error e
      | .ok o => w.gather n (.cls c) (some (w.classes c).module) o g) = .ok g' := by
  obtain ⟨_, d, hd, hm, hn⟩ := h
  obtain ⟨N, hN⟩ := gather_noNone hd hexp hn hm hg
  refine ⟨N, fun n hn => ?_⟩
  cases ho : p.2 with
  | text s => have := hN (n + 1) (by omega); rw [ho] at this; exact this
  | ref s => have := hN (n + 1) (by omega); rw [ho] at this; exact this
  | _ => have := hN n hn; rw [ho] at this; exact this

theorem members_follow {exp : Node → TGraph → Res TGraph} (hexp : ExpandsAs w exp) {c : Nat} {ps qs : List (Str × AnnObj)}
    (h : All2 (MemberGood w c) ps qs) : ∀ {g g' : TGraph}, meetAll exp (.cls c) (nodesL (qs.map Prod.snd)) g = .ok g' →
      ∃ N, ∀ n, N ≤ n → eachOf (fun (f : Str × AnnObj) g => match w.evaluateType n (w.classes c).module f.2 with
        | .error e => .error e
        | .ok o => w.gather n (.cls c) (some (w.classes c).module) o g) ps g = .ok g' := by
  induction h with
  | nil => intro g g' hg; cases hg; exact ⟨0, fun _ _ => rfl⟩
  | cons hp _ ih =>
    intro g g' hg
    simp only [List.map_cons, nodesL, meetAll_append] at hg
    split at hg
    · cases hg
    · rename_i g1 h1
      obtain ⟨N, hN⟩ := member_good hexp hp h1
      obtain ⟨M, hM⟩ := ih hg
      exact ⟨max N M, fun n hn => by simp only [eachOf]; rw [hN n (by omega)]; exact hM n (by omega)⟩

/-! ### All classes -/

/-- A node as a type. -/
def Node.asTy : Node → Ty
  | .cls c => .cls c
  | .atom .list => .bareList
  | .atom .set => .bareSet
  | .atom .dict => .bareDict
  | .atom .tuple => .bareTuple
  | _ => .none

theorem asTy_nodes {n : Node} (h : n.Simple) : tyNodes n.asTy = [n] := by
  cases n with
  | cls c => rfl
  | atom a => cases a <;> first | rfl | cases h
  | _ => cases h

theorem asTy_nodesL {ns : List Node} (h : ∀ n ∈ ns, n.Simple) : tyNodesL (ns.map Node.asTy) = ns := by
  induction ns with
  | nil => rfl
  | cons n ns ih =>
    simp only [List.map_cons, tyNodesL, asTy_nodes (h n List.mem_cons_self), ih fun m hm => h m (List.mem_cons_of_mem _ hm)]
    rfl

theorem nodesL_simple {os : List AnnObj} : ∀ n ∈ nodesL os, n.Simple := by
  intro n hn
  obtain ⟨o, _, ho⟩ := nodesL_mem.1 hn
  exact mentions_simple (annMentions_iff.2 ho)

/-- A class with members whose types mention the given classes. -/
def classOfNodes (ns : List Node) : ClassDef := ⟨[], [], .dataclass false, ns.map fun n => { name := [], ty := n.asTy }, .none, .none⟩

/-- The first `K` classes, with members whose types mention the same classes. -/
def envOf (K : Nat) (fs : Nat → List (Str × AnnObj)) : Env :=
  ⟨[], (List.range K).map fun c => classOfNodes (nodesL ((fs c).map Prod.snd)), id⟩

theorem envOf_length {K : Nat} {fs : Nat → List (Str × AnnObj)} : (envOf K fs).classes.length = K := by simp [envOf]

theorem envOf_direct {K : Nat} {fs : Nat → List (Str × AnnObj)} {c : Nat} (hc : c < K) :
    directNodes (envOf K fs) (.cls c) = nodesL ((fs c).map Prod.snd) := by
  have : (envOf K fs).classes[c]? = some (classOfNodes (nodesL ((fs c).map Prod.snd))) := by
    simp [envOf, hc]
  simp only [directNodes, this, ClassDef.hints, classOfNodes, List.map_map]
  exact asTy_nodesL nodesL_simple

theorem follows_expand {K : Nat} {fs : Nat → List (Str × AnnObj)} (h : ∀ c, c < K → All2 (MemberGood w c) (w.rawFields c) (fs c)) :
    ∀ f, ExpandsAs w (expand (envOf K fs) f)
  | 0 => ⟨fun k g g' hg => (by simp [expand] at hg), fun k g => by cases k <;> rfl⟩
  | f + 1 => by
    refine ⟨fun k g g' hg => ?_, fun k g => by cases k <;> rfl⟩
    by_cases hk : k < K
    · have hc : (envOf K fs).classes[k]? = some ((envOf K fs).classes[k]'(by rw [envOf_length]; exact hk)) :=
        List.getElem?_eq_getElem _
      have hd := envOf_direct (fs := fs) hk
      simp only [directNodes, hc] at hd
      simp only [expand, hc, runTyL_eq, hd] at hg
      exact members_follow (follows_expand h f) (h k hk) hg
    · have : (envOf K fs).classes[k]? = none := List.getElem?_eq_none (by rw [envOf_length]; omega)
      simp [expand, this] at hg

/-- A program in which the members of the first `K` classes mention the same classes. -/
theorem program_env {K : Nat} (hl : ∀ c, c < K → w.Legible c) (hK : ∀ c, c < K → ∀ t, w.Member c t → ∀ k, t.Mentions (.cls k) → k < K) :
    ∃ env : Env, env.classes.length = K ∧ env.Defined ∧ (∀ f, ExpandsAs w (expand env f)) ∧
      (∀ c k, c < K → (Direct env (.cls c) k ↔ ∃ t, w.Member c t ∧ t.Mentions k)) ∧
      ∀ k n, (∀ c, k = .cls c → c < K) → (Leads env k n ↔ w.LeadsTo k n) := by
  obtain ⟨fs, hfs⟩ := Classical.axiomOfChoice (r := fun c fs => c < K → All2 (MemberGood w c) (w.rawFields c) fs ∧
      ∃ N, ∀ n, N ≤ n → w.readFields n c = .ok fs) fun c => by
    by_cases hc : c < K
    · obtain ⟨fs, h⟩ := members_typed (hl c hc)
      exact ⟨fs, fun _ => h⟩
    · exact ⟨[], fun h => absurd h hc⟩
  have hmem : ∀ {c t}, c < K → (w.Member c t ↔ t ∈ (fs c).map Prod.snd) := by
    intro c t hc
    obtain ⟨N, hN⟩ := (hfs c hc).2
    constructor
    · rintro ⟨M, hM⟩
      obtain ⟨gs, h1, k, h2⟩ := hM (max N M) (by omega)
      rw [hN _ (by omega)] at h1
      cases h1
      exact List.mem_map.2 ⟨_, h2, rfl⟩
    · intro h
      obtain ⟨⟨k, u⟩, h1, rfl⟩ := List.mem_map.1 h
      exact ⟨N, fun n hn => ⟨_, hN n hn, k, h1⟩⟩
  have hvalid : ∀ {c k}, c < K → Node.cls k ∈ nodesL ((fs c).map Prod.snd) → k < K := by
    intro c k hc h
    obtain ⟨u, hu, hk⟩ := nodesL_mem.1 h
    exact hK c hc u ((hmem hc).2 hu) k (annMentions_iff.2 hk)
  have hdef : (envOf K fs).Defined := by
    intro cd hcd f hf k hk
    obtain ⟨c, hc, rfl⟩ := List.mem_map.1 hcd
    obtain ⟨n, hn, rfl⟩ := List.mem_map.1 hf
    have := mentions_iff.1 hk
    rw [asTy_nodes (nodesL_simple n hn), List.mem_singleton] at this
    subst this
    rw [envOf_length]
    exact hvalid (List.mem_range.1 hc) hn
  have hfwd : ∀ {k n}, Leads (envOf K fs) k n → w.LeadsTo k n := by
    intro k n h
    induction h with
    | refl => exact .refl
    | @step c n _ hs ih =>
      have hs := direct_iff.1 hs
      cases c with
      | cls c =>
        by_cases hc : c < K
        · rw [envOf_direct hc] at hs
          obtain ⟨u, hu, hk⟩ := nodesL_mem.1 hs
          exact .step ih ((hmem hc).2 hu) (annMentions_iff.2 hk)
        · have : (envOf K fs).classes[c]? = none := List.getElem?_eq_none (by rw [envOf_length]; omega)
          simp [directNodes, this] at hs
      | _ => simp [directNodes] at hs
  have hbwd : ∀ {k n}, w.LeadsTo k n → (∀ c, k = .cls c → c < K) → Leads (envOf K fs) k n ∧ ∀ c, n = .cls c → c < K := by
    intro k n h
    induction h with
    | refl => exact fun h => ⟨.refl, h⟩
    | @step k c u _ hu hk ih =>
      intro hv
      obtain ⟨h3, h4⟩ := ih hv
      have hc := h4 c rfl
      have hk' : k ∈ directNodes (envOf K fs) (.cls c) := by
        rw [envOf_direct hc]
        exact nodesL_mem.2 ⟨u, (hmem hc).1 hu, annMentions_iff.1 hk⟩
      exact ⟨.step h3 (direct_iff.2 hk'), fun c' e => hK c hc u hu c' (e ▸ hk)⟩
  refine ⟨envOf K fs, envOf_length, hdef, follows_expand (fun c hc => (hfs c hc).1), fun c k hc => ?_, fun k n hk => ⟨hfwd, fun h => (hbwd h hk).1⟩⟩
  rw [direct_iff, envOf_direct hc, nodesL_mem]
  constructor
  · rintro ⟨u, hu, h⟩
    exact ⟨u, (hmem hc).2 hu, annMentions_iff.2 h⟩
  · rintro ⟨u, hu, h⟩
    exact ⟨u, (hmem hc).1 hu, annMentions_iff.1 h⟩

end Verif
