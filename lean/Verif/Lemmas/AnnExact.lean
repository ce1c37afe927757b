import Verif.Lemmas.AnnMeaning
/-!
# Annotations in which the writer does not find all types
-/
namespace Verif

variable {w : AnnWorld} {d look : Str → Option AnnObj}

/-- With a deeper limit the result is the same. -/
theorem resolve_succ : ∀ {n : Nat} {guard : List Str} {o t : AnnObj}, w.resolve look n guard o = .ok t → w.resolve look (n + 1) guard o = .ok t
  | 0, _, _, _, h => by cases h
  | n + 1, guard, o, t, h => by
    have all : ∀ {f : AnnForm} {os ts : List AnnObj}, mapRes (fun o => w.resolve look n guard (AnnWorld.toRef f o)) os = .ok ts →
        mapRes (fun o => w.resolve look (n + 1) guard (AnnWorld.toRef f o)) os = .ok ts := by
      intro f os ts h
      exact (mapRes_ok_iff _ _ _).2 (((mapRes_ok_iff _ _ _).1 h).imp fun _ _ h => resolve_succ h)
    have gen : ∀ {f : AnnForm} {os : List AnnObj},
        (match mapRes (fun o => w.resolve look n guard (AnnWorld.toRef f o)) os with | .error e => .error e | .ok ts => .ok (.gen f ts)) =
          Except.ok (ε := Err) t →
        (match mapRes (fun o => w.resolve look (n + 1) guard (AnnWorld.toRef f o)) os with | .error e => .error e | .ok ts => .ok (.gen f ts)) =
          Except.ok (ε := Err) t := by
      intro f os h
      cases h1 : mapRes (fun o => w.resolve look n guard (AnnWorld.toRef f o)) os with
      | error e => rw [h1] at h; cases h
      | ok ts => rw [h1] at h; rw [all h1]; exact h
    cases o with
    | ref s =>
      unfold AnnWorld.resolve at h ⊢
      split
      · rename_i hg
        rw [if_pos hg] at h
        exact h
      · rename_i hg
        rw [if_neg hg] at h
        cases h1 : w.evalText look s with
        | error e => rw [h1] at h; cases h
        | ok o =>
          rw [h1] at h
          simp only at h ⊢
          cases h2 : annCheck o with
          | error e => rw [h2] at h; cases h
          | ok o' => rw [h2] at h; exact resolve_succ h
    | gen f os =>
      cases f with
      | annotated =>
        cases os with
        | nil => exact h
        | cons o ms =>
          unfold AnnWorld.resolve at h ⊢
          cases h1 : w.resolve look n guard o with
          | error e => rw [h1] at h; cases h
          | ok u => rw [h1] at h; rw [resolve_succ h1]; exact h
      | _ => exact gen h
    | _ => exact h

theorem resolve_mono {n m : Nat} {guard : List Str} {o t : AnnObj} (hnm : n ≤ m) (h : w.resolve look n guard o = .ok t) :
    w.resolve look m guard o = .ok t := by
  induction hnm with
  | refl => exact h
  | step _ ih => exact resolve_succ ih

/-- What is known of the arguments of a collection if there is a writer. -/
theorem collWriter_seen {item : AnnObj → Res Writer} {f : AnnForm} {c : Coll} {b : Bool} {os : List AnnObj} {x : Writer} (hf : f.IsColl c)
    (h : w.collWriter item c os = .ok x) (ih : ∀ o ∈ os, ∀ x, item o = .ok x → w.Seen d b o) : w.Seen d b (.gen f os) := by
  unfold AnnWorld.collWriter at h
  split at h
  · rename_i o
    cases h1 : item o with
    | error e => rw [h1] at h; cases h
    | ok y => exact .list hf (ih o List.mem_cons_self y h1)
  · cases h
  · rename_i o
    cases h1 : item o with
    | error e => rw [h1] at h; cases h
    | ok y => exact .set hf (ih o List.mem_cons_self y h1)
  · cases h
  · rename_i k o
    split at h
    · rename_i hk
      cases h1 : item o with
      | error e => rw [h1] at h; cases h
      | ok y => exact .dict hf (by simpa using hk) (ih o (by simp) y h1)
    · cases h
  · cases h
  · cases h
  · cases h1 : mapRes item os with
    | error e => rw [h1] at h; cases h
    | ok ys =>
      refine .tuple hf fun o ho => ?_
      have h2 := (mapRes_ok_iff _ _ _).1 h1
      obtain ⟨i, hi⟩ := List.getElem?_of_mem ho
      obtain ⟨y, _, hy⟩ := h2.get i _ hi
      exact ih o ho y hy

/-- If an annotation means a type and there is a writer for it, all texts are seen. -/
theorem seen_of_getWriter {m : Nat} (hd : ∀ o n x, d n = some x → w.evalLook m o n = some x) : ∀ (n : Nat) {k : Nat} {o t : AnnObj}
    {context : Option Nat} {x : Writer}, (context = some m ∨ context = none) → w.meaning d n o = some t →
      w.getWriter k context o = .ok x → w.Seen d context.isSome o
  | 0, _, _, _, _, _, _, h, _ => by cases h
  | _ + 1, 0, _, _, _, _, _, _, h => by cases h
  | n + 1, k + 1, o, t, context, x, hc, h, hx => by
    have hall : ∀ {f : AnnForm} {os : List AnnObj}, (allMean (argMeaning f (w.meaning d n)) os).map (AnnObj.gen f) = some t →
        ∀ o ∈ os, ∀ x, w.getWriter k context o = .ok x → w.Seen d context.isSome o := by
      intro f os h o ho x hx
      cases h1 : allMean (argMeaning f (w.meaning d n)) os with
      | none => rw [h1] at h; cases h
      | some ts =>
        obtain ⟨i, hi⟩ := List.getElem?_of_mem ho
        obtain ⟨y, _, hy⟩ := (allMean_iff.1 h1).get i _ hi
        exact seen_of_getWriter hd n hc (argMeaning_some hy) hx
    cases o with
    | noneType => exact .noneType
    | cls c => exact .cls
    | none => cases h
    | module m => cases h
    | const k => cases h
    | form f =>
      cases f with
      | builtin c => exact .untyped
      | typing c => cases c <;> first | exact .tupleForm | (rcases hc with rfl | rfl <;> cases hx)
      | _ => cases h
    | gen f os =>
      rw [meaning_gen] at h
      have hev : w.evaluated k context (.gen f os) = .ok (.gen f os) := evaluated_settled fun s => ⟨by simp, by simp⟩
      cases f with
      | pipe => exact .pipe
      | union => exact .union
      | literal => exact .literal
      | annotated =>
        cases os with
        | nil => cases h
        | cons o ms =>
          simp only [genMeaning] at h
          cases h1 : argMeaning .annotated (w.meaning d n) o with
          | none => rw [h1] at h; cases h
          | some u =>
            simp only [AnnWorld.getWriter, hev] at hx
            exact .annotated (seen_of_getWriter hd n (.inr rfl) (argMeaning_some h1) hx)
      | builtin c =>
        simp only [AnnWorld.getWriter, hev] at hx
        exact collWriter_seen (.inl rfl) hx (hall h)
      | typing c =>
        simp only [AnnWorld.getWriter, hev] at hx
        exact collWriter_seen (.inr rfl) hx (hall h)
    | text s =>
      rcases hc with rfl | rfl
      · rw [meaning_text] at h
        obtain ⟨e, o, hp, he, h⟩ := textMeaning_iff.1 h
        have hev : w.evaluated k (some m) (.text s) = .ok o := by
          simp only [AnnWorld.evaluated, AnnWorld.evaluateType, AnnWorld.evalText, hp]
          exact annEval_mono (hd _) e he
        by_cases ho : o.Settled
        · rw [getWriter_evaluated hev ho] at hx
          rcases h with ⟨rfl, _⟩ | ⟨_, h⟩
          · cases hx
          · exact .text hp he ho (seen_of_getWriter hd n (.inl rfl) h hx)
        · exfalso
          simp only [AnnWorld.getWriter, hev] at hx
          cases o <;> first
            | (cases hx; done)
            | exact ho fun s => ⟨by simp, by simp⟩
      · cases hx
    | ref s =>
      rcases hc with rfl | rfl
      · have h0 := h
        rw [meaning_ref] at h
        have hres : ∀ {r : AnnObj}, w.evaluated k (some m) (.ref s) = .ok r → r = t := by
          intro r hr
          have h1 := resolve_meaning (guard := []) (hd (.ref s)) (n + 1) (o := .ref s) (m := max k (n + 2)) (by omega) (by simp) h0
          have h2 := resolve_mono (m := max k (n + 2)) (by omega) hr
          rw [show (AnnObj.ref s).asRef = .ref s from rfl] at h1
          rw [h1] at h2
          cases h2
          rfl
        cases hev : w.evaluated k (some m) (.ref s) with
        | error e => simp only [AnnWorld.getWriter, hev] at hx; cases hx
        | ok r =>
          have := hres hev
          subst this
          rw [getWriter_evaluated hev (meaning_settled h0)] at hx
          obtain ⟨e, o, hp, he, h⟩ := textMeaning_iff.1 h
          refine .ref ⟨n + 1, h0⟩ ?_
          rcases h with ⟨_, rfl⟩ | ⟨_, h⟩
          · exact .noneType
          · exact seen_of_getWriter hd n (.inl rfl) (meaning_again h) hx
      · cases hx

end Verif
