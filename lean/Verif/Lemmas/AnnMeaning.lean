import Verif.Spec.AnnMeaning
import Verif.Lemmas.Inherit
/-!
# Evaluation of annotations
-/
namespace Verif

variable {w : AnnWorld} {d look : Str → Option AnnObj} {attrs : Nat → Str → Option AnnObj}

/-! ### More names -/

mutual
theorem annEval_mono (h : ∀ n o, d n = some o → look n = some o) : ∀ (e : AnnExpr) {o : AnnObj},
    annEval d attrs e = .ok o → annEval look attrs e = .ok o
  | .name n, o, he => by
    simp only [annEval] at he ⊢
    cases hd : d n with
    | none => rw [hd] at he; cases he
    | some o' => rw [hd] at he; rw [h n o' hd]; exact he
  | .attr e n, o, he => by
    simp only [annEval] at he ⊢
    cases h1 : annEval d attrs e with
    | error x => rw [h1] at he; cases he
    | ok o' => rw [h1] at he; rw [annEval_mono h e h1]; exact he
  | .none, o, he => he
  | .const _, o, he => he
  | .text _, o, he => he
  | .index e args, o, he => by
    simp only [annEval] at he ⊢
    cases h1 : annEval d attrs e with
    | error x => rw [h1] at he; cases he
    | ok o' =>
      rw [h1] at he; rw [annEval_mono h e h1]
      cases h2 : annEvalL d attrs args with
      | error x => rw [h2] at he; cases he
      | ok os => rw [h2] at he; rw [annEvalL_mono h args h2]; exact he
  | .either a b, o, he => by
    simp only [annEval] at he ⊢
    cases h1 : annEval d attrs a with
    | error x => rw [h1] at he; cases he
    | ok o' =>
      rw [h1] at he; rw [annEval_mono h a h1]
      cases h2 : annEval d attrs b with
      | error x => rw [h2] at he; cases he
      | ok os => rw [h2] at he; rw [annEval_mono h b h2]; exact he
theorem annEvalL_mono (h : ∀ n o, d n = some o → look n = some o) : ∀ (es : List AnnExpr) {os : List AnnObj},
    annEvalL d attrs es = .ok os → annEvalL look attrs es = .ok os
  | [], os, he => he
  | e :: es, os, he => by
    simp only [annEvalL] at he ⊢
    cases h1 : annEval d attrs e with
    | error x => rw [h1] at he; cases he
    | ok o' =>
      rw [h1] at he; rw [annEval_mono h e h1]
      cases h2 : annEvalL d attrs es with
      | error x => rw [h2] at he; cases he
      | ok os' => rw [h2] at he; rw [annEvalL_mono h es h2]; exact he
end

/-! ### More depth -/

theorem allMean_mono {f g : α → Option β} : ∀ {xs : List α} {ys : List β}, (∀ x ∈ xs, ∀ y, f x = some y → g x = some y) →
    allMean f xs = some ys → allMean g xs = some ys
  | [], _, _, h => h
  | x :: xs, ys, hfg, h => by
    simp only [allMean] at h ⊢
    cases h1 : f x with
    | none => rw [h1] at h; cases h
    | some y =>
      rw [h1] at h; rw [hfg x List.mem_cons_self y h1]
      cases h2 : allMean f xs with
      | none => rw [h2] at h; cases h
      | some zs => rw [h2] at h; rw [allMean_mono (fun x hx => hfg x (List.mem_cons_of_mem _ hx)) h2]; exact h

theorem argMeaning_mono {f : AnnForm} {m m' : AnnObj → Option AnnObj} {o t : AnnObj} (hm : ∀ t, m o = some t → m' o = some t)
    (h : argMeaning f m o = some t) : argMeaning f m' o = some t := by
  cases f <;> first
    | exact hm t h
    | (cases o <;> first | exact hm t h | cases h)

theorem genMeaning_mono {m m' : AnnObj → Option AnnObj} {f : AnnForm} {os : List AnnObj} {t : AnnObj}
    (hm : ∀ o t, m o = some t → m' o = some t) (h : genMeaning m f os = some t) : genMeaning m' f os = some t := by
  have key : ∀ f, (allMean (argMeaning f m) os).map (AnnObj.gen f) = some t → (allMean (argMeaning f m') os).map (AnnObj.gen f) = some t := by
    intro f h
    cases h1 : allMean (argMeaning f m) os with
    | none => rw [h1] at h; cases h
    | some ts =>
      rw [h1] at h
      rw [allMean_mono (fun o _ t ht => argMeaning_mono (hm o) ht) h1]
      exact h
  cases f with
  | literal => exact h
  | annotated =>
    cases os with
    | nil => cases h
    | cons o ms =>
      simp only [genMeaning] at h ⊢
      cases h1 : argMeaning .annotated m o with
      | none => rw [h1] at h; cases h
      | some u => rw [h1] at h; rw [argMeaning_mono (hm o) h1]; exact h
  | builtin c => exact key _ h
  | typing c => exact key _ h
  | union => exact key _ h
  | pipe => exact key _ h

/-- The meaning of a text. -/
def AnnWorld.textMeaning (w : AnnWorld) (d : Str → Option AnnObj) (n : Nat) (s : Str) : Option AnnObj :=
  match w.parse s with
  | none => none
  | some e => match annEval d w.inModule e with
    | .error _ => none
    | .ok .none => some .noneType
    | .ok o => w.meaning d n o

theorem meaning_text {n : Nat} {s : Str} : w.meaning d (n + 1) (.text s) = w.textMeaning d n s := rfl
theorem meaning_ref {n : Nat} {s : Str} : w.meaning d (n + 1) (.ref s) = w.textMeaning d n s := rfl
theorem meaning_gen {n : Nat} {f : AnnForm} {os : List AnnObj} : w.meaning d (n + 1) (.gen f os) = genMeaning (w.meaning d n) f os := rfl

theorem textMeaning_iff {n : Nat} {s : Str} {t : AnnObj} : w.textMeaning d n s = some t ↔ ∃ e o, w.parse s = some e ∧
    annEval d w.inModule e = .ok o ∧ ((o = .none ∧ t = .noneType) ∨ (o ≠ .none ∧ w.meaning d n o = some t)) := by
  unfold AnnWorld.textMeaning
  cases hp : w.parse s with
  | none => simp
  | some e =>
    cases he : annEval d w.inModule e with
    | error x => simp [he]
    | ok o =>
      constructor
      · intro h
        refine ⟨e, o, rfl, he, ?_⟩
        cases o <;> simp only [he] at h <;> first
          | exact .inr ⟨by simp, h⟩
          | (cases h; exact .inl ⟨rfl, rfl⟩)
      · rintro ⟨e', o', h1, h2, h⟩
        cases h1
        rw [he] at h2
        cases h2
        rcases h with ⟨rfl, rfl⟩ | ⟨h, h'⟩
        · simp only [he]
        · cases o <;> simp only [he] <;> first | exact h' | exact absurd rfl h

theorem meaning_succ : ∀ {n : Nat} {o t : AnnObj}, w.meaning d n o = some t → w.meaning d (n + 1) o = some t
  | 0, _, _, h => by cases h
  | n + 1, o, t, h => by
    have ht : ∀ s, w.textMeaning d n s = some t → w.textMeaning d (n + 1) s = some t := by
      intro s h
      obtain ⟨e, o, h1, h2, h3⟩ := textMeaning_iff.1 h
      exact textMeaning_iff.2 ⟨e, o, h1, h2, h3.imp id fun h => ⟨h.1, meaning_succ h.2⟩⟩
    cases o with
    | text s => exact ht s h
    | ref s => exact ht s h
    | gen f os => exact genMeaning_mono (fun o t h => meaning_succ h) h
    | form f => cases f <;> first | exact h | cases h
    | _ => exact h

theorem meaning_mono {n m : Nat} {o t : AnnObj} (hnm : n ≤ m) (h : w.meaning d n o = some t) : w.meaning d m o = some t := by
  induction hnm with
  | refl => exact h
  | step _ ih => exact meaning_succ ih

theorem means_unique {o t u : AnnObj} (h : w.Means d o t) (h' : w.Means d o u) : t = u := by
  obtain ⟨n, h⟩ := h
  obtain ⟨m, h'⟩ := h'
  have h1 := meaning_mono (Nat.le_max_left n m) h
  have h2 := meaning_mono (Nat.le_max_right n m) h'
  rw [h1] at h2
  cases h2
  rfl

/-! ### The reader -/

theorem allMean_mapRes {f : α → Option β} {g : α → Res β} : ∀ {xs : List α} {ys : List β}, (∀ x ∈ xs, ∀ y, f x = some y → g x = .ok y) →
    allMean f xs = some ys → mapRes g xs = .ok ys
  | [], ys, _, h => by cases h; rfl
  | x :: xs, ys, hfg, h => by
    simp only [allMean] at h
    cases h1 : f x with
    | none => rw [h1] at h; cases h
    | some y =>
      rw [h1] at h
      cases h2 : allMean f xs with
      | none => rw [h2] at h; cases h
      | some zs =>
        rw [h2] at h
        cases h
        simp only [mapRes, hfg x List.mem_cons_self y h1, allMean_mapRes (fun x hx => hfg x (List.mem_cons_of_mem _ hx)) h2]

/-- There is a least depth at which a property holds. -/
theorem exists_least {P : Nat → Prop} : ∀ {n : Nat}, P n → ∃ k, k ≤ n ∧ P k ∧ ∀ j, j < k → ¬ P j := by
  intro n
  induction n using Nat.strongRecOn with
  | ind n ih =>
    intro h
    by_cases h' : ∃ j, j < n ∧ P j
    · obtain ⟨j, hj, hp⟩ := h'
      obtain ⟨k, hk, h1, h2⟩ := ih j hj hp
      exact ⟨k, by omega, h1, h2⟩
    · exact ⟨n, Nat.le_refl _, h, fun j hj hp => h' ⟨j, hj, hp⟩⟩

theorem plainArg_resolve {n : Nat} {guard : List Str} {o : AnnObj} (h : o.isPlainArg = true) :
    w.resolve look (n + 1) guard o = .ok o := by
  cases o <;> first | rfl | cases h

/-- The text as a forward reference. -/
def AnnObj.asRef : AnnObj → AnnObj
  | .text s => .ref s
  | o => o

/-- Forward references are resolved to the meaning of the annotation; the guard against references to themselves is not met. -/
theorem resolve_meaning (hd : ∀ n o, d n = some o → look n = some o) : ∀ (n : Nat) {o t : AnnObj} {guard : List Str} {m : Nat},
    n + 1 ≤ m → (∀ s ∈ guard, w.meaning d n (.ref s) = none) → w.meaning d n o = some t → w.resolve look m guard o.asRef = .ok t := by
  intro n
  induction n using Nat.strongRecOn with
  | ind n ih =>
    intro o t guard m hm hg h
    obtain ⟨m, rfl⟩ : ∃ k, m = k + 1 := ⟨m - 1, by omega⟩
    cases n with
    | zero => cases h
    | succ n =>
      have href : ∀ s, w.textMeaning d n s = some t → w.resolve look (m + 1) guard (.ref s) = .ok t := by
        intro s h
        have hs : guard.contains s = false := by
          cases hc : guard.contains s with
          | false => rfl
          | true => have := hg s (by simpa using hc); rw [meaning_ref, h] at this; cases this
        obtain ⟨k, hk, h1, h2⟩ := exists_least (P := fun k => ∃ t, w.textMeaning d k s = some t) ⟨t, h⟩
        obtain ⟨t', h1⟩ := h1
        have : t' = t := means_unique (w := w) (d := d) (o := .ref s) ⟨k + 1, h1⟩ ⟨n + 1, h⟩
        subst this
        obtain ⟨e, o, hp, he, ho⟩ := textMeaning_iff.1 h1
        simp only [AnnWorld.resolve, hs, Bool.false_eq_true, if_false, AnnWorld.evalText, hp, annEval_mono hd e he]
        rcases ho with ⟨rfl, rfl⟩ | ⟨hne, ho⟩
        · simp only [annCheck]
          obtain ⟨m, rfl⟩ : ∃ k, m = k + 1 := ⟨m - 1, by omega⟩
          rfl
        · have hc : annCheck o = .ok o.asRef := by
            cases o with
            | none => exact absurd rfl hne
            | form f =>
              cases k with
              | zero => cases ho
              | succ k => cases f <;> first | rfl | cases ho
            | _ => rfl
          simp only [hc]
          refine ih k (by omega) (by omega) ?_ ho
          intro s' hs'
          rcases List.mem_cons.1 hs' with rfl | hs'
          · cases k with
            | zero => rfl
            | succ k =>
              rw [meaning_ref]
              cases h3 : w.textMeaning d k s' with
              | none => rfl
              | some u => exact absurd ⟨u, h3⟩ (h2 k (Nat.lt_succ_self k))
          · cases h3 : w.meaning d k (.ref s') with
            | none => rfl
            | some u =>
              have := hg s' hs'
              rw [meaning_mono (by omega) h3] at this
              cases this
      have hg' : ∀ s ∈ guard, w.meaning d n (.ref s) = none := by
        intro s hs
        cases h3 : w.meaning d n (.ref s) with
        | none => rfl
        | some u =>
          have := hg s hs
          rw [meaning_succ h3] at this
          cases this
      cases o with
      | text s => exact href s h
      | ref s => exact href s h
      | none => cases h
      | noneType => cases h; rfl
      | cls c => cases h; rfl
      | module _ => cases h
      | const _ => cases h
      | form f => cases f <;> first | (cases h; rfl) | cases h
      | gen f os =>
        rw [meaning_gen] at h
        have key : ∀ f, (∀ o t, argMeaning f (w.meaning d n) o = some t → w.resolve look m guard (AnnWorld.toRef f o) = .ok t) := by
          intro f o t h
          cases f with
          | builtin c =>
            have : AnnWorld.toRef (.builtin c) o = o.asRef := by cases o <;> rfl
            rw [this]
            exact ih n (by omega) (by omega) hg' h
          | _ =>
            cases o with
            | text s => cases h
            | _ => exact ih n (by omega) (by omega) hg' h
        have all : ∀ f, (allMean (argMeaning f (w.meaning d n)) os).map (AnnObj.gen f) = some t →
            (match mapRes (fun o => w.resolve look m guard (AnnWorld.toRef f o)) os with | .error e => .error e | .ok ts => .ok (.gen f ts)) =
              Except.ok (ε := Err) t := by
          intro f h
          cases h1 : allMean (argMeaning f (w.meaning d n)) os with
          | none => rw [h1] at h; cases h
          | some ts =>
            rw [h1] at h
            cases h
            rw [allMean_mapRes (fun o _ t ht => key f o t ht) h1]
        cases f with
        | builtin c => exact all _ h
        | typing c => exact all _ h
        | union => exact all _ h
        | pipe => exact all _ h
        | literal =>
          simp only [genMeaning] at h
          split at h
          · rename_i hl
            cases h
            obtain ⟨m, rfl⟩ : ∃ k, m = k + 1 := ⟨m - 1, by omega⟩
            have : mapRes (fun o => w.resolve look (m + 1) guard (AnnWorld.toRef .literal o)) os = .ok os := by
              rw [List.all_eq_true] at hl
              clear key all hm ih href
              induction os with
              | nil => rfl
              | cons o os ih =>
                have h1 : w.resolve look (m + 1) guard (AnnWorld.toRef .literal o) = .ok o := by
                  have : AnnWorld.toRef .literal o = o := by cases o <;> rfl
                  rw [this]
                  exact plainArg_resolve (hl o List.mem_cons_self)
                simp only [mapRes, h1, ih fun x hx => hl x (List.mem_cons_of_mem _ hx)]
            show (match mapRes (fun o => w.resolve look (m + 1) guard (AnnWorld.toRef .literal o)) os with
              | .error e => .error e | .ok ts => .ok (AnnObj.gen .literal ts)) = Except.ok (ε := Err) _
            rw [this]
          · cases h
        | annotated =>
          cases os with
          | nil => cases h
          | cons o ms =>
            simp only [genMeaning] at h
            cases h1 : argMeaning .annotated (w.meaning d n) o with
            | none => rw [h1] at h; cases h
            | some u =>
              rw [h1] at h
              cases h
              have : AnnWorld.toRef .annotated o = o := by cases o <;> rfl
              have h2 := key .annotated o u h1
              rw [this] at h2
              show (match w.resolve look m guard o with | .error e => .error e | .ok t => .ok (AnnObj.gen .annotated (t :: ms))) = Except.ok (ε := Err) _
              rw [h2]

/-! ### Meanings are types -/

/-- Neither a text nor a forward reference. -/
def AnnObj.Settled (o : AnnObj) : Prop := ∀ s, o ≠ .text s ∧ o ≠ .ref s

theorem meaning_settled : ∀ {n : Nat} {o t : AnnObj}, w.meaning d n o = some t → t.Settled
  | 0, _, _, h => by cases h
  | n + 1, o, t, h => by
    have ht : ∀ s, w.textMeaning d n s = some t → t.Settled := by
      intro s h
      obtain ⟨e, o, _, _, h3⟩ := textMeaning_iff.1 h
      rcases h3 with ⟨_, rfl⟩ | ⟨_, h3⟩
      · exact fun s => ⟨by simp, by simp⟩
      · exact meaning_settled h3
    cases o with
    | text s => exact ht s h
    | ref s => exact ht s h
    | gen f os =>
      rw [meaning_gen] at h
      have key : ∀ f, (allMean (argMeaning f (w.meaning d n)) os).map (AnnObj.gen f) = some t → t.Settled := by
        intro f h
        cases h1 : allMean (argMeaning f (w.meaning d n)) os with
        | none => rw [h1] at h; cases h
        | some ts => rw [h1] at h; cases h; exact fun s => ⟨by simp, by simp⟩
      cases f with
      | literal =>
        simp only [genMeaning] at h
        split at h
        · cases h; exact fun s => ⟨by simp, by simp⟩
        · cases h
      | annotated =>
        cases os with
        | nil => cases h
        | cons o ms =>
          simp only [genMeaning] at h
          cases h1 : argMeaning .annotated (w.meaning d n) o with
          | none => rw [h1] at h; cases h
          | some u => rw [h1] at h; cases h; exact fun s => ⟨by simp, by simp⟩
      | builtin c => exact key _ h
      | typing c => exact key _ h
      | union => exact key _ h
      | pipe => exact key _ h
    | form f => cases f <;> first | (cases h; exact fun s => ⟨by simp, by simp⟩) | cases h
    | _ => cases h <;> exact fun s => ⟨by simp, by simp⟩

theorem argMeaning_settled {f : AnnForm} {m : AnnObj → Option AnnObj} {o : AnnObj} (h : o.Settled) : argMeaning f m o = m o := by
  cases f <;> first
    | rfl
    | (cases o <;> first | rfl | exact absurd rfl (h _).1)

theorem argMeaning_some {f : AnnForm} {m : AnnObj → Option AnnObj} {o t : AnnObj} (h : argMeaning f m o = some t) : m o = some t := by
  cases f <;> first
    | exact h
    | (cases o <;> first | exact h | cases h)

theorem allMean_iff {f : α → Option β} : ∀ {xs : List α} {ys : List β}, allMean f xs = some ys ↔ All2 (fun x y => f x = some y) xs ys
  | [], ys => ⟨fun h => by cases h; exact .nil, fun h => by cases h; rfl⟩
  | x :: xs, ys => by
    constructor
    · intro h
      simp only [allMean] at h
      cases h1 : f x with
      | none => rw [h1] at h; cases h
      | some y =>
        rw [h1] at h
        cases h2 : allMean f xs with
        | none => rw [h2] at h; cases h
        | some zs => rw [h2] at h; cases h; exact .cons h1 (allMean_iff.1 h2)
    · intro h
      cases h with
      | cons h1 h2 => simp only [allMean, h1, allMean_iff.2 h2]

theorem meaning_again : ∀ {n : Nat} {o t : AnnObj}, w.meaning d n o = some t → w.meaning d n t = some t
  | 0, _, _, h => by cases h
  | n + 1, o, t, h => by
    have ht : ∀ s, w.textMeaning d n s = some t → w.meaning d (n + 1) t = some t := by
      intro s h
      obtain ⟨e, o, _, _, h3⟩ := textMeaning_iff.1 h
      rcases h3 with ⟨_, rfl⟩ | ⟨_, h3⟩
      · rfl
      · exact meaning_succ (meaning_again h3)
    cases o with
    | text s => exact ht s h
    | ref s => exact ht s h
    | gen f os =>
      rw [meaning_gen] at h
      have key : ∀ f, (allMean (argMeaning f (w.meaning d n)) os).map (AnnObj.gen f) = some t →
          (∀ ts, genMeaning (w.meaning d n) f ts = (allMean (argMeaning f (w.meaning d n)) ts).map (AnnObj.gen f)) →
          w.meaning d (n + 1) t = some t := by
        intro f h hf
        cases h1 : allMean (argMeaning f (w.meaning d n)) os with
        | none => rw [h1] at h; cases h
        | some ts =>
          rw [h1] at h
          cases h
          rw [meaning_gen, hf]
          have : allMean (argMeaning f (w.meaning d n)) ts = some ts := by
            rw [allMean_iff] at h1 ⊢
            clear hf ht h
            induction h1 with
            | nil => exact .nil
            | cons hx _ ih =>
              have hx := argMeaning_some hx
              exact .cons (by rw [argMeaning_settled (meaning_settled hx)]; exact meaning_again hx) ih
          rw [this]
          rfl
      cases f with
      | literal =>
        simp only [genMeaning] at h
        split at h
        · rename_i hl
          cases h
          rw [meaning_gen]
          simp only [genMeaning, hl, if_true]
        · cases h
      | annotated =>
        cases os with
        | nil => cases h
        | cons o ms =>
          simp only [genMeaning] at h
          cases h1 : argMeaning .annotated (w.meaning d n) o with
          | none => rw [h1] at h; cases h
          | some u =>
            rw [h1] at h
            cases h
            have h1 := argMeaning_some h1
            rw [meaning_gen]
            simp only [genMeaning, argMeaning_settled (meaning_settled h1), meaning_again h1]
            rfl
      | builtin c => exact key _ h fun _ => rfl
      | typing c => exact key _ h fun _ => rfl
      | union => exact key _ h fun _ => rfl
      | pipe => exact key _ h fun _ => rfl
    | form f => cases f <;> first | (cases h; rfl) | cases h
    | _ => cases h <;> rfl

/-- The meaning of a collection. -/
theorem means_coll {f : AnnForm} {c : Coll} (hf : f.IsColl c) {os : List AnnObj} {t : AnnObj} (h : w.Means d (.gen f os) t) :
    ∃ ts, t = .gen f ts ∧ All2 (w.Means d) os ts := by
  obtain ⟨n, h⟩ := h
  cases n with
  | zero => cases h
  | succ n =>
    rw [meaning_gen] at h
    have h : (allMean (argMeaning f (w.meaning d n)) os).map (AnnObj.gen f) = some t := by rcases hf with rfl | rfl <;> exact h
    cases h1 : allMean (argMeaning f (w.meaning d n)) os with
    | none => rw [h1] at h; cases h
    | some ts =>
      rw [h1] at h
      cases h
      exact ⟨ts, rfl, (allMean_iff.1 h1).imp fun _ _ hx => ⟨n, argMeaning_some hx⟩⟩

/-! ### The writer -/

theorem evaluated_settled {k : Nat} {context : Option Nat} {o : AnnObj} (h : o.Settled) : w.evaluated k context o = .ok o := by
  cases context <;> cases o <;> first
    | rfl
    | exact absurd rfl (h _).1
    | exact absurd rfl (h _).2

theorem getWriter_evaluated {k : Nat} {context : Option Nat} {o o' : AnnObj} (h : w.evaluated k context o = .ok o') (ho : o'.Settled) :
    w.getWriter (k + 1) context o = w.getWriter (k + 1) context o' := by
  simp only [AnnWorld.getWriter, h, evaluated_settled ho]

theorem getWriter_all {context : Option Nat} {os ts : List AnnObj} (h : All2 (w.Means d) os ts)
    (ih : ∀ o ∈ os, ∀ t, w.Means d o t → ∃ x, WriterFor t x ∧ ∃ N, ∀ k, N ≤ k → w.getWriter k context o = .ok x) :
    ∃ xs, All2 WriterFor ts xs ∧ ∃ N, ∀ k, N ≤ k → mapRes (w.getWriter k context) os = .ok xs := by
  induction h with
  | nil => exact ⟨[], .nil, 0, fun _ _ => rfl⟩
  | cons hx _ ih' =>
    obtain ⟨x, h1, N, h2⟩ := ih _ List.mem_cons_self _ hx
    obtain ⟨xs, h3, M, h4⟩ := ih' fun o ho => ih o (List.mem_cons_of_mem _ ho)
    exact ⟨x :: xs, .cons h1 h3, max N M, fun k hk => by simp only [mapRes, h2 k (by omega), h4 k (by omega)]⟩

/-- The writer finds the writer for the meaning of the annotation. -/
theorem getWriter_seen {m : Nat} (hd : ∀ o n x, d n = some x → w.evalLook m o n = some x) {b : Bool} {o : AnnObj} (h : w.Seen d b o) :
    ∀ (context : Option Nat) (t : AnnObj), (b = true → context = some m) → w.Means d o t →
      ∃ x, WriterFor t x ∧ ∃ N, ∀ k, N ≤ k → w.getWriter k context o = .ok x := by
  have base : ∀ {o t : AnnObj} {x : Writer} {context : Option Nat}, w.Means d o t → (∀ n u, w.meaning d n o = some u → u = o) → o.Settled →
      WriterFor o x → (∀ k, w.getWriter (k + 1) context o = .ok x) → ∃ x, WriterFor t x ∧ ∃ N, ∀ k, N ≤ k → w.getWriter k context o = .ok x := by
    intro o t x context ⟨n, ht⟩ hu _ hx hk
    rw [hu n t ht]
    refine ⟨x, hx, 1, fun k h => ?_⟩
    obtain ⟨k, rfl⟩ : ∃ j, k = j + 1 := ⟨k - 1, by omega⟩
    exact hk k
  have leaf : ∀ {o : AnnObj}, o.Settled → (∀ n, w.meaning d (n + 1) o = some o) → ∀ n u, w.meaning d n o = some u → u = o := by
    intro o _ h n u hu
    cases n with
    | zero => cases hu
    | succ n => rw [h n] at hu; cases hu; rfl
  have coll : ∀ {f : AnnForm} {c : Coll} {os : List AnnObj} {x : Writer} {context : Option Nat}, f.IsColl c → (∃ N, ∀ k, N ≤ k →
      w.collWriter (w.getWriter k context) c os = .ok x) → ∃ N, ∀ k, N ≤ k → w.getWriter k context (.gen f os) = .ok x := by
    intro f c os x context hf ⟨N, h⟩
    refine ⟨N + 1, fun k hk => ?_⟩
    obtain ⟨k, rfl⟩ : ∃ j, k = j + 1 := ⟨k - 1, by omega⟩
    have h1 : w.evaluated k context (.gen f os) = .ok (.gen f os) := evaluated_settled fun s => ⟨by simp, by simp⟩
    rcases hf with rfl | rfl <;> simp only [AnnWorld.getWriter, h1] <;> exact h k (by omega)
  induction h with
  | noneType => exact fun c t _ h => base h (leaf (fun s => ⟨by simp, by simp⟩) fun _ => rfl) (fun s => ⟨by simp, by simp⟩) .noneType (by intro k; cases c <;> rfl)
  | cls => exact fun c t _ h => base h (leaf (fun s => ⟨by simp, by simp⟩) fun _ => rfl) (fun s => ⟨by simp, by simp⟩) .cls (by intro k; cases c <;> rfl)
  | untyped => exact fun c t _ h => base h (leaf (fun s => ⟨by simp, by simp⟩) fun _ => rfl) (fun s => ⟨by simp, by simp⟩) .untyped (by intro k; cases c <;> rfl)
  | tupleForm => exact fun c t _ h => base h (leaf (fun s => ⟨by simp, by simp⟩) fun _ => rfl) (fun s => ⟨by simp, by simp⟩) .tupleForm (by intro k; cases c <;> rfl)
  | @pipe _ os =>
    intro c t _ ⟨n, h⟩
    refine ⟨.dynamic, ?_, 1, fun k hk => ?_⟩
    · cases n with
      | zero => cases h
      | succ n =>
        rw [meaning_gen] at h
        cases h1 : allMean (argMeaning .pipe (w.meaning d n)) os with
        | none => simp only [genMeaning, h1] at h; cases h
        | some ts => simp only [genMeaning, h1] at h; cases h; exact .pipe
    · obtain ⟨k, rfl⟩ : ∃ j, k = j + 1 := ⟨k - 1, by omega⟩
      cases c <;> rfl
  | @union _ os =>
    intro c t _ ⟨n, h⟩
    refine ⟨.dynamic, ?_, 1, fun k hk => ?_⟩
    · cases n with
      | zero => cases h
      | succ n =>
        rw [meaning_gen] at h
        cases h1 : allMean (argMeaning .union (w.meaning d n)) os with
        | none => simp only [genMeaning, h1] at h; cases h
        | some ts => simp only [genMeaning, h1] at h; cases h; exact .union
    · obtain ⟨k, rfl⟩ : ∃ j, k = j + 1 := ⟨k - 1, by omega⟩
      cases c <;> rfl
  | @literal _ os =>
    intro c t _ ⟨n, h⟩
    refine ⟨.literal os, ?_, 1, fun k hk => ?_⟩
    · cases n with
      | zero => cases h
      | succ n =>
        rw [meaning_gen] at h
        simp only [genMeaning] at h
        split at h
        · cases h; exact .literal
        · cases h
    · obtain ⟨k, rfl⟩ : ∃ j, k = j + 1 := ⟨k - 1, by omega⟩
      cases c <;> rfl
  | @annotated o _ ms _ ih =>
    intro c t _ ⟨n, h⟩
    cases n with
    | zero => cases h
    | succ n =>
      rw [meaning_gen] at h
      simp only [genMeaning] at h
      cases h1 : argMeaning .annotated (w.meaning d n) o with
      | none => rw [h1] at h; cases h
      | some u =>
        rw [h1] at h
        cases h
        obtain ⟨x, hx, N, hN⟩ := ih none u (by simp) ⟨n, argMeaning_some h1⟩
        refine ⟨x, .annotated hx, N + 1, fun k hk => ?_⟩
        obtain ⟨k, rfl⟩ : ∃ j, k = j + 1 := ⟨k - 1, by omega⟩
        rw [← hN k (by omega)]
        cases c <;> rfl
  | @list f x o hf _ ih =>
    intro c t hc h
    obtain ⟨ts, rfl, h1⟩ := means_coll hf h
    cases h1 with
    | cons h1 h2 =>
      cases h2
      obtain ⟨y, hy, N, hN⟩ := ih c _ hc h1
      exact ⟨_, .list hf hy, coll hf ⟨N, fun k hk => by simp only [AnnWorld.collWriter, hN k hk]⟩⟩
  | @set f x o hf _ ih =>
    intro c t hc h
    obtain ⟨ts, rfl, h1⟩ := means_coll hf h
    cases h1 with
    | cons h1 h2 =>
      cases h2
      obtain ⟨y, hy, N, hN⟩ := ih c _ hc h1
      exact ⟨_, .set hf hy, coll hf ⟨N, fun k hk => by simp only [AnnWorld.collWriter, hN k hk]⟩⟩
  | @dict key x o f hf hk _ ih =>
    intro c t hc h
    obtain ⟨ts, rfl, h1⟩ := means_coll hf h
    cases h1 with
    | cons h1 h2 =>
      cases h2 with
      | cons h2 h3 =>
        cases h3
        obtain ⟨n, h1⟩ := h1
        have := leaf (o := .cls key) (fun s => ⟨by simp, by simp⟩) (fun _ => rfl) n _ h1
        subst this
        obtain ⟨y, hy, N, hN⟩ := ih c _ hc h2
        exact ⟨_, .dict hf hy, coll hf ⟨N, fun k hk' => by simp only [AnnWorld.collWriter, hN k hk']; rw [if_pos (by simpa using hk)]⟩⟩
  | @tuple f x os hf _ ih =>
    intro c t hc h
    obtain ⟨ts, rfl, h1⟩ := means_coll hf h
    obtain ⟨xs, hxs, N, hN⟩ := getWriter_all h1 fun o ho t ht => ih o ho c t hc ht
    exact ⟨.items .tuple xs, .tuple hf hxs.length fun i t x h1 h2 => (by obtain ⟨y, h3, h4⟩ := hxs.get i _ h1; rw [h2] at h3; cases h3; exact h4), coll hf ⟨N, fun k hk => by
      simp only [AnnWorld.collWriter, hN k hk]⟩⟩
  | @text s e o hp he ho _ ih =>
    intro c t hc ⟨n, h⟩
    have hc := hc rfl
    subst hc
    cases n with
    | zero => cases h
    | succ n =>
      rw [meaning_text] at h
      obtain ⟨e', o', hp', he', h⟩ := textMeaning_iff.1 h
      rw [hp] at hp'
      cases hp'
      rw [he] at he'
      cases he'
      rcases h with ⟨rfl, _⟩ | ⟨_, h⟩
      · rename_i hs; cases hs
      · obtain ⟨x, hx, N, hN⟩ := ih (some m) t (fun _ => rfl) ⟨n, h⟩
        refine ⟨x, hx, N + 1, fun k hk => ?_⟩
        obtain ⟨k, rfl⟩ : ∃ j, k = j + 1 := ⟨k - 1, by omega⟩
        rw [getWriter_evaluated (o' := o) ?_ ho]
        · exact hN (k + 1) (by omega)
        · simp only [AnnWorld.evaluated, AnnWorld.evaluateType, AnnWorld.evalText, hp]
          exact annEval_mono (hd _) e he
  | @ref s u hu _ ih =>
    intro c t hc h
    have hc := hc rfl
    subst hc
    have := means_unique hu h
    subst this
    obtain ⟨n, h⟩ := h
    obtain ⟨x, hx, N, hN⟩ := ih (some m) u (fun _ => rfl) ⟨n, meaning_again h⟩
    refine ⟨x, hx, max N (n + 2), fun k hk => ?_⟩
    obtain ⟨k, rfl⟩ : ∃ j, k = j + 1 := ⟨k - 1, by omega⟩
    rw [getWriter_evaluated (o' := u) ?_ (meaning_settled h)]
    · exact hN (k + 1) (by omega)
    · exact resolve_meaning (hd _) n (o := .ref s) (by omega) (by simp) h

/-! ### The fields of a class -/

theorem Shared.hintLook {b : AnnClass} {m : Nat} (h : w.Shared b m d) : ∀ n o, d n = some o → w.hintLook b n = some o := by
  intro n o hn
  have := (h n o hn).2.2.1
  unfold AnnWorld.hintLook
  simp only [firstOf] at this
  cases h1 : w.inModule b.module n with
  | some o' => rw [h1] at this; exact this
  | none =>
    rw [h1] at this
    cases h2 : lookupKey n b.vars with
    | some o' => rw [h2] at this; exact this
    | none =>
      rw [h2] at this
      cases h3 : lookupKey n w.builtins with
      | some o' => rw [h3] at this; exact this
      | none => rw [h3] at this; cases this

theorem Shared.evalLook {b : AnnClass} {m : Nat} (h : w.Shared b m d) : ∀ o' n o, d n = some o → w.evalLook m o' n = some o := by
  intro o' n o hn
  obtain ⟨h1, h2, _, h3⟩ := h n o hn
  unfold AnnWorld.evalLook
  rw [if_neg h1, if_neg h2]
  simp only [firstOf] at h3
  cases h4 : w.inModule m n with
  | some o' => rw [h4] at h3; exact h3
  | none =>
    rw [h4] at h3
    cases h5 : lookupKey n w.builtins with
    | some o' => rw [h5] at h3; exact h3
    | none => rw [h5] at h3; cases h3

theorem hint_means {b : AnnClass} (hd : ∀ n o, d n = some o → w.hintLook b n = some o) {o t : AnnObj} (h : w.Means d o t) :
    ∃ N, ∀ n, N ≤ n → w.hint n b o = .ok t := by
  obtain ⟨k, h⟩ := h
  refine ⟨k + 1, fun n hn => ?_⟩
  have h1 := resolve_meaning (guard := []) hd k hn (by simp) h
  unfold AnnWorld.hint
  cases o with
  | none => cases k <;> cases h
  | _ => exact h1

/-- The annotation of a field, its type for the reader, and that the writer finds a writer for the type. -/
def FieldGood (w : AnnWorld) (c : Nat) (p q : Str × AnnObj) : Prop :=
  p.1 = q.1 ∧ (∃ b ∈ (w.classes c).mro, p ∈ (w.classes b).own ∧ ∃ d, w.Shared (w.classes b) (w.classes c).module d ∧ w.Means d p.2 q.2) ∧
    ∃ x, WriterFor q.2 x ∧ ∃ N, ∀ k, N ≤ k → w.getWriter k (some (w.classes c).module) p.2 = .ok x

theorem fieldGood_upsert {R : Str × α → Str × β → Prop} (hR : ∀ p q, R p q → p.1 = q.1) {ps : List (Str × α)} {qs : List (Str × β)}
    (h : All2 R ps qs) {k : Str} {a : α} {b : β} (hk : R (k, a) (k, b)) : All2 R (upsert k a ps) (upsert k b qs) := by
  induction h with
  | nil => exact .cons hk .nil
  | @cons p q ps qs hp h ih =>
    obtain ⟨p1, p2⟩ := p
    obtain ⟨q1, q2⟩ := q
    have := hR _ _ hp
    simp only at this
    subst this
    simp only [upsert]
    by_cases hk' : p1 = k
    · simp only [hk', if_true]
      exact .cons hk h
    · simp only [hk', if_false]
      exact .cons hp ih

theorem hintsOf_good {c b : Nat} (own : List (Str × AnnObj))
    (h : ∀ p ∈ own, ∃ t, (∃ N, ∀ n, N ≤ n → w.hint n (w.classes b) p.2 = .ok t) ∧ FieldGood w c p (p.1, t)) :
    ∀ {ps qs : List (Str × AnnObj)}, All2 (FieldGood w c) ps qs →
      ∃ qs', All2 (FieldGood w c) (updateMap ps own) qs' ∧ ∃ N, ∀ n, N ≤ n → w.hintsOf n (w.classes b) own qs = .ok qs' := by
  induction own with
  | nil => exact fun hp => ⟨_, hp, 0, fun _ _ => rfl⟩
  | cons p own ih =>
    intro ps qs hp
    obtain ⟨k, o⟩ := p
    obtain ⟨t, ⟨N, hN⟩, hg⟩ := h (k, o) List.mem_cons_self
    obtain ⟨qs', h1, M, hM⟩ := ih (fun p hp => h p (List.mem_cons_of_mem _ hp)) (fieldGood_upsert (fun _ _ h => h.1) hp hg)
    refine ⟨qs', h1, max N M, fun n hn => ?_⟩
    simp only [AnnWorld.hintsOf, hN n (by omega)]
    exact hM n (by omega)

theorem hintsOfAll_good {c : Nat} (bs : List Nat)
    (h : ∀ b ∈ bs, ∀ p ∈ (w.classes b).own, ∃ t, (∃ N, ∀ n, N ≤ n → w.hint n (w.classes b) p.2 = .ok t) ∧ FieldGood w c p (p.1, t)) :
    ∀ {ps qs : List (Str × AnnObj)}, All2 (FieldGood w c) ps qs →
      ∃ qs', All2 (FieldGood w c) (bs.foldl (fun d b => updateMap d (w.classes b).own) ps) qs' ∧
        ∃ N, ∀ n, N ≤ n → w.hintsOfAll n bs qs = .ok qs' := by
  induction bs with
  | nil => exact fun hp => ⟨_, hp, 0, fun _ _ => rfl⟩
  | cons b bs ih =>
    intro ps qs hp
    obtain ⟨qs1, h1, N, hN⟩ := hintsOf_good _ (h b List.mem_cons_self) hp
    obtain ⟨qs2, h2, M, hM⟩ := ih (fun b hb => h b (List.mem_cons_of_mem _ hb)) h1
    refine ⟨qs2, h2, max N M, fun n hn => ?_⟩
    simp only [AnnWorld.hintsOfAll, hN n (by omega)]
    exact hM n (by omega)

theorem writers_good {c : Nat} {ps qs : List (Str × AnnObj)} (h : All2 (FieldGood w c) ps qs) :
    ∃ ws, All2 (fun (f : Str × AnnObj) (x : Str × Writer) => f.1 = x.1 ∧ WriterFor f.2 x.2) qs ws ∧ ∃ N, ∀ n, N ≤ n →
      mapRes (fun f => match w.getWriter n (some (w.classes c).module) f.2 with | .error e => .error e | .ok x => .ok (f.1, x)) ps = .ok ws := by
  induction h with
  | nil => exact ⟨[], .nil, 0, fun _ _ => rfl⟩
  | @cons p q ps qs hp _ ih =>
    obtain ⟨ws, h1, N, hN⟩ := ih
    obtain ⟨hk, _, x, hx, M, hM⟩ := hp
    refine ⟨(p.1, x) :: ws, .cons ⟨hk.symm, hx⟩ h1, max N M, fun n hn => ?_⟩
    simp only [mapRes, hM n (by omega), hN n (by omega)]

end Verif
