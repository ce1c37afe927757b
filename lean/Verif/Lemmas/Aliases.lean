import Verif.Spec.Aliases
import Verif.Spec.All2
import Verif.Lemmas.Core
import Verif.Lemmas.Deser
/-!
# Deserializers for types with names
-/
namespace Verif

theorem all2_zip {R : α → β → Prop} : ∀ {as : List α} {bs : List β},
    All2 R as bs ↔ as.length = bs.length ∧ ∀ p ∈ as.zip bs, R p.1 p.2
  | [], [] => ⟨fun _ => ⟨rfl, fun _ hp => by cases hp⟩, fun _ => .nil⟩
  | [], _ :: _ => ⟨fun h => (by cases h), fun h => (by cases h.1)⟩
  | _ :: _, [] => ⟨fun h => (by cases h), fun h => (by cases h.1)⟩
  | a :: as, b :: bs => by
    constructor
    · intro h
      cases h with
      | cons h1 h2 =>
        obtain ⟨h3, h4⟩ := all2_zip.1 h2
        refine ⟨by simp [h3], fun p hp => ?_⟩
        rcases List.mem_cons.1 hp with rfl | hp
        · exact h1
        · exact h4 p hp
    · intro h
      exact .cons (h.2 (a, b) (by simp)) (all2_zip.2 ⟨by simpa using h.1, fun p hp => h.2 p (by simp [hp])⟩)

theorem all2_comp {R : α → β → Prop} {S : β → γ → Prop} {T : α → γ → Prop} (hT : ∀ a b c, R a b → S b c → T a c)
    {as : List α} {bs : List β} {cs : List γ} (h : All2 R as bs) (h' : All2 S bs cs) : All2 T as cs := by
  induction h generalizing cs with
  | nil => cases h'; exact .nil
  | cons h1 _ ih =>
    cases h' with
    | cons h2 h3 => exact .cons (hT _ _ _ h1 h2) (ih h3)

theorem all2_flip {R : α → β → Prop} {as : List α} {bs : List β} (h : All2 R as bs) : All2 (fun b a => R a b) bs as := by
  induction h with
  | nil => exact .nil
  | cons h _ ih => exact .cons h ih

/-- The deserializer is one for the type. -/
inductive Rep (w : AliasWorld) : AReader → ATy → Prop
  | leaf (t : Ty) : Rep w (.leaf t) (.ty t)
  | node (f : AForm) (rs : List AReader) (os : List ATy) : rs.length = os.length → (∀ p ∈ rs.zip os, Rep w p.1 p.2) →
      Rep w (.node f rs) (.node f os)
  | tag (os : List ATy) (ts : List Ty) : All2 (Chain w) os ts → discProps w.env ts ≠ [] → Rep w (.leaf (.union ts)) (.node .union os)
  | refText (s : Str) : Rep w (.ref s) (.text s)
  | refRef (s : Str) : Rep w (.ref s) (.ref s)
  | annotated (r : AReader) (o : ATy) : Rep w r o → Rep w r (.annotated o)
  | text (r : AReader) (s : Str) (o : ATy) : w.eval s = .ok o → Rep w r o → Rep w r (.text s)
  | ref (r : AReader) (s : Str) (o : ATy) : w.eval s = .ok o → Rep w r o → Rep w r (.ref s)

section
variable {w : AliasWorld}

theorem Chain.of_asRef {o : ATy} {t : Ty} (h : Chain w o.asRef t) : Chain w o t := by
  cases o with
  | text s => cases h with | ref _ o _ h1 h2 => exact .text s o t h1 h2
  | _ => exact h

theorem Rep.of_asRef {o : ATy} {r : AReader} (h : Rep w r o.asRef) : Rep w r o := by
  cases o with
  | text s =>
    cases h with
    | refRef => exact .refText s
    | ref _ _ o h1 h2 => exact .text r s o h1 h2
  | _ => exact h

theorem resolve_chain : ∀ {n : Nat} {g : List Str} {o t : ATy} {u : Ty}, w.resolve n g o = .ok t → Chain w t u → Chain w o u
  | 0, _, _, _, _, h, _ => by simp [AliasWorld.resolve] at h
  | n + 1, g, .ref s, t, u, h, hc => by
    simp only [AliasWorld.resolve] at h
    split at h
    · cases h; exact hc
    · split at h
      · cases h
      · cases h
      · rename_i o _ ho
        exact .ref s o u ho (resolve_chain h hc).of_asRef
  | n + 1, g, .node f os, t, u, h, hc => by
    simp only [AliasWorld.resolve] at h
    split at h
    · cases h
    · cases h; cases hc
  | n + 1, g, .annotated o, t, u, h, hc => by
    simp only [AliasWorld.resolve] at h
    split at h
    · cases h
    · cases h; cases hc
  | n + 1, g, .ty x, t, u, h, hc => by simp only [AliasWorld.resolve] at h; cases h; exact hc
  | n + 1, g, .text s, t, u, h, hc => by simp only [AliasWorld.resolve] at h; cases h; exact hc
  | n + 1, g, .other, t, u, h, hc => by simp only [AliasWorld.resolve] at h; cases h; exact hc

theorem resolve_rep : ∀ {n : Nat} {g : List Str} {o t : ATy} {r : AReader}, w.resolve n g o = .ok t → Rep w r t → Rep w r o
  | 0, _, _, _, _, h, _ => by simp [AliasWorld.resolve] at h
  | n + 1, g, .ref s, t, r, h, hr => by
    simp only [AliasWorld.resolve] at h
    split at h
    · cases h; exact hr
    · split at h
      · cases h
      · cases h
      · rename_i o _ ho
        exact .ref r s o ho (resolve_rep h hr).of_asRef
  | n + 1, g, .node f os, t, r, h, hr => by
    simp only [AliasWorld.resolve] at h
    split at h
    · cases h
    · rename_i ts hts
      cases h
      have h2 := (mapRes_ok_iff _ _ _).1 hts
      cases hr with
      | node _ rs _ hl hk =>
        obtain ⟨h3, h4⟩ := all2_zip.1 (all2_comp (T := Rep w) (fun r t o (h1 : Rep w r t) (h2 : w.resolve n g o.asRef = .ok t) =>
          (resolve_rep h2 h1).of_asRef) (all2_zip.2 ⟨hl, hk⟩) (all2_flip h2))
        exact .node f rs os h3 h4
      | tag _ us hc hd =>
        exact .tag os us (all2_comp (fun o t u (h1 : w.resolve n g o.asRef = .ok t) (h2 : Chain w t u) =>
          (resolve_chain h1 h2).of_asRef) h2 hc) hd
  | n + 1, g, .annotated o, t, r, h, hr => by
    simp only [AliasWorld.resolve] at h
    split at h
    · cases h
    · rename_i t' ht
      cases h
      cases hr with
      | annotated _ _ hr => exact .annotated r o (resolve_rep ht hr)
  | n + 1, g, .ty u, t, r, h, hr => by simp only [AliasWorld.resolve] at h; cases h; exact hr
  | n + 1, g, .text s, t, r, h, hr => by simp only [AliasWorld.resolve] at h; cases h; exact hr
  | n + 1, g, .other, t, r, h, hr => by simp only [AliasWorld.resolve] at h; cases h; exact hr
end
/-! ### Creation -/

/-- The deserializer refers to the one of the name. -/
inductive AReader.Has : AReader → Str → Prop
  | ref (s : Str) : Has (.ref s) s
  | node (f : AForm) (rs : List AReader) (r : AReader) (s : Str) : r ∈ rs → Has r s → Has (.node f rs) s

/-- All names that the deserializer refers to are in the cache. -/
def APresent (H : AHeap) (r : AReader) : Prop := ∀ s, r.Has s → H s ≠ none

/-- The deserializers in the cache are those of their names. -/
structure AHeap.Sane (w : AliasWorld) (H : AHeap) : Prop where
  rep : ∀ s r, H s = some (some r) → ∃ o, w.eval s = .ok o ∧ Rep w r o
  present : ∀ s r, H s = some (some r) → APresent H r

/-- Entries are added, and completed. -/
structure AGrows (w : AliasWorld) (H H' : AHeap) : Prop where
  keep : ∀ s e, H s = some e → H' s = some e
  fresh : ∀ s, H' s = some none → H s = some none
  sane : H'.Sane w

theorem APresent.mono {H H' : AHeap} {r : AReader} (h : APresent H r) (hk : ∀ s, H s ≠ none → H' s ≠ none) : APresent H' r :=
  fun s hs => hk s (h s hs)

theorem AGrows.mono {w : AliasWorld} {H H' : AHeap} (h : AGrows w H H') (s : Str) (hs : H s ≠ none) : H' s ≠ none := by
  cases he : H s with
  | none => exact absurd he hs
  | some e => rw [h.keep s e he]; simp

theorem AGrows.trans {w : AliasWorld} {H H' H'' : AHeap} (h : AGrows w H H') (h' : AGrows w H' H'') : AGrows w H H'' :=
  ⟨fun s e he => h'.keep s e (h.keep s e he), fun s hs => h.fresh s (h'.fresh s hs), h'.sane⟩

section
variable {w : AliasWorld}

theorem Rep.of_unwrap : ∀ {o : ATy} {r : AReader}, Rep w r o.unwrap → Rep w r o
  | .annotated o, r, h => .annotated r o (Rep.of_unwrap (o := o) h)
  | .ty _, _, h => h
  | .node _ _, _, h => h
  | .text _, _, h => h
  | .ref _, _, h => h
  | .other, _, h => h

theorem evaluate_entry {n : Nat} {o t : ATy} {s : Str} (h : w.evaluate n o = .ok t) (hs : o.name? = some s) :
    ∃ o', w.eval s = .ok o' ∧ ∀ r, Rep w r t → Rep w r o' := by
  cases o with
  | text s' => cases hs; exact ⟨t, h, fun _ hr => hr⟩
  | ref s' =>
    cases hs
    simp only [AliasWorld.evaluate] at h
    cases n with
    | zero => simp [AliasWorld.resolve] at h
    | succ n =>
      simp only [AliasWorld.resolve, List.contains_nil, Bool.false_eq_true, if_false] at h
      split at h
      · cases h
      · cases h
      · rename_i o' _ ho
        exact ⟨o', ho, fun r hr => (resolve_rep h hr).of_asRef⟩
  | _ => cases hs

theorem evaluate_rep {n : Nat} {o t : ATy} (h : w.evaluate n o = .ok t) {r : AReader} (hr : Rep w r t) : Rep w r o := by
  cases o with
  | text s => exact .text r s t h hr
  | ref s =>
    obtain ⟨o', h1, h2⟩ := evaluate_entry h rfl
    exact .ref r s o' h1 (h2 r hr)
  | _ => cases h; exact hr

/-- What is shown of a function that makes deserializers. -/
def Makes (w : AliasWorld) (get : ATy → AHeap → Res AReader × AHeap) : Prop :=
  ∀ o H r H', get o H = (.ok r, H') → H.Sane w → AGrows w H H' ∧ Rep w r o ∧ APresent H' r

theorem getAll_makes {get : ATy → AHeap → Res AReader × AHeap} (hg : Makes w get) : ∀ {os : List ATy} {H H' : AHeap} {rs : List AReader},
    getAll get os H = (.ok rs, H') → H.Sane w → AGrows w H H' ∧ All2 (Rep w) rs os ∧ ∀ r ∈ rs, APresent H' r
  | [], H, H', rs, h, hs => by
    cases h
    exact ⟨⟨fun _ _ h => h, fun _ h => h, hs⟩, .nil, fun _ hr => by cases hr⟩
  | o :: os, H, H', rs, h, hs => by
    simp only [getAll] at h
    split at h
    · cases h
    · rename_i r H1 h1
      split at h
      · cases h
      · rename_i rs' H2 h2
        cases h
        obtain ⟨g1, r1, p1⟩ := hg _ _ _ _ h1 hs
        obtain ⟨g2, r2, p2⟩ := getAll_makes hg h2 g1.sane
        refine ⟨g1.trans g2, .cons r1 r2, fun x hx => ?_⟩
        rcases List.mem_cons.1 hx with rfl | hx
        · exact p1.mono g2.mono
        · exact p2 x hx

theorem plainL_chain : ∀ {os : List ATy} {ts : List Ty}, plainL os = some ts → All2 (Chain w) os ts
  | [], ts, h => by cases h; exact .nil
  | .ty t :: os, ts, h => by
    simp only [plainL] at h
    split at h
    · rename_i us hu
      cases h
      exact .cons (.plain t) (plainL_chain hu)
    · cases h
  | .node _ _ :: _, _, h => by cases h
  | .annotated _ :: _, _, h => by cases h
  | .text _ :: _, _, h => by cases h
  | .ref _ :: _, _, h => by cases h
  | .other :: _, _, h => by cases h

theorem build_makes {get : ATy → AHeap → Res AReader × AHeap} (hg : Makes w get) {o : ATy} {p : APlan} {H H' : AHeap} {r : AReader}
    (hc : w.create o = .ok p) (hb : p.build get H = (.ok r, H')) (hs : H.Sane w) :
    AGrows w H H' ∧ Rep w r o ∧ APresent H' r := by
  have node : ∀ f os, p = .node f os → o = .node f os → AGrows w H H' ∧ Rep w r o ∧ APresent H' r := by
    intro f os hp ho
    subst hp ho
    simp only [APlan.build] at hb
    split at hb
    · cases hb
    · rename_i rs H1 h1
      cases hb
      obtain ⟨g, h2, h3⟩ := getAll_makes hg h1 hs
      obtain ⟨h4, h5⟩ := all2_zip.1 h2
      refine ⟨g, .node f rs os h4 h5, fun s hh => ?_⟩
      cases hh with
      | node _ _ r' _ hr hh => exact h3 r' hr s hh
  have leaf : ∀ t, p = .leaf t → Rep w (.leaf t) o → AGrows w H H' ∧ Rep w r o ∧ APresent H' r := by
    intro t hp ho
    subst hp
    cases hb
    exact ⟨⟨fun _ _ h => h, fun _ h => h, hs⟩, ho, fun s hh => by cases hh⟩
  cases o with
  | ty t =>
    simp only [AliasWorld.create] at hc
    split at hc
    · cases hc
    · cases hc; exact leaf t rfl (.leaf t)
  | node f os =>
    cases f with
    | list => simp only [AliasWorld.create] at hc; split at hc <;> cases hc; exact node _ _ rfl rfl
    | set => simp only [AliasWorld.create] at hc; split at hc <;> cases hc; exact node _ _ rfl rfl
    | dict k =>
      simp only [AliasWorld.create] at hc
      split at hc
      · split at hc <;> cases hc; exact node _ _ rfl rfl
      · cases hc
    | tuple => cases hc; exact node _ _ rfl rfl
    | union =>
      simp only [AliasWorld.create] at hc
      split at hc
      · cases hc; exact node _ _ rfl rfl
      · rename_i ts hts
        split at hc
        · cases hc; exact node _ _ rfl rfl
        · rename_i hd
          split at hc
          · cases hc
          · cases hc
            exact leaf _ rfl (.tag os ts (plainL_chain hts) hd)
  | _ => cases hc

theorem key_name {o t : ATy} {s : Str} (h : w.key o t = some s) : o.name? = some s := by
  unfold AliasWorld.key at h
  split at h
  · cases h
  · split at h
    · rename_i s' hs
      split at h
      · cases h; exact hs
      · cases h
    · cases h

theorem put_same (H : AHeap) (s : Str) (e : Option AReader) : (H.put s e) s = some e := by simp [AHeap.put]
theorem put_other (H : AHeap) {s x : Str} (e : Option AReader) (h : x ≠ s) : (H.put s e) x = H x := by simp [AHeap.put, h]
theorem put_ne_none (H : AHeap) (s : Str) (e : Option AReader) {x : Str} (h : H x ≠ none) : (H.put s e) x ≠ none := by
  by_cases hx : x = s
  · subst hx; rw [put_same]; simp
  · rw [put_other H e hx]; exact h

theorem get_makes (context : Bool) : ∀ n, Makes w (w.get context n)
  | 0 => fun o H r H' h _ => by simp [AliasWorld.get] at h
  | n + 1 => fun o H r H' h hs => by
    have ih := get_makes context n
    simp only [AliasWorld.get] at h
    split at h
    · cases h
    · split at h
      · cases h
      · rename_i t ht
        split at h
        · split at h
          · cases h
          · rename_i p hp
            obtain ⟨g, h1, h2⟩ := build_makes ih hp h hs
            exact ⟨g, evaluate_rep ht h1.of_unwrap, h2⟩
        · rename_i s hk
          have hn := key_name hk
          have hr : Rep w (.ref s) o := by
            cases o with
            | text s' => cases hn; exact .refText _
            | ref s' => cases hn; exact .refRef _
            | _ => cases hn
          split at h
          · rename_i e he
            cases h
            refine ⟨⟨fun _ _ h => h, fun _ h => h, hs⟩, hr, fun x hx => ?_⟩
            cases hx
            rw [he]; simp
          · rename_i he
            split at h
            · cases h
            · rename_i p hp
              split at h
              · cases h
              · rename_i r' H1 h1
                cases h
                have hs0 : AHeap.Sane w (H.put s none) := by
                  refine ⟨fun x y hx => ?_, fun x y hx => ?_⟩
                  · by_cases h : x = s
                    · subst h; rw [put_same] at hx; cases hx
                    · rw [put_other H _ h] at hx; exact hs.rep x y hx
                  · by_cases h : x = s
                    · subst h; rw [put_same] at hx; cases hx
                    · rw [put_other H _ h] at hx
                      exact (hs.present x y hx).mono fun z hz => put_ne_none H s _ hz
                obtain ⟨g, h2, h3⟩ := build_makes ih hp h1 hs0
                obtain ⟨o', h4, h5⟩ := evaluate_entry ht hn
                refine ⟨⟨fun x e hx => ?_, fun x hx => ?_, fun x y hx => ?_, fun x y hx => ?_⟩, hr, fun x hx => ?_⟩
                · have : x ≠ s := fun h => by subst h; rw [he] at hx; cases hx
                  rw [put_other _ _ this]
                  exact g.keep x e (by rw [put_other _ _ this]; exact hx)
                · by_cases h : x = s
                  · subst h; rw [put_same] at hx; cases hx
                  · rw [put_other _ _ h] at hx
                    have := g.fresh x hx
                    rwa [put_other _ _ h] at this
                · by_cases h : x = s
                  · subst h
                    rw [put_same] at hx
                    cases hx
                    exact ⟨o', h4, h5 _ h2.of_unwrap⟩
                  · rw [put_other _ _ h] at hx; exact g.sane.rep x y hx
                · by_cases h : x = s
                  · subst h
                    rw [put_same] at hx
                    cases hx
                    exact h3.mono fun z hz => put_ne_none _ _ _ hz
                  · rw [put_other _ _ h] at hx
                    exact (g.sane.present x y hx).mono fun z hz => put_ne_none _ _ _ hz
                · cases hx
                  rw [put_same]; simp
end
/-! ### Reading -/

/-- The parts of the data that the parts of the type are for. -/
def partsOf : AForm → Json → List Json
  | .union, j => [j]
  | _, .arr xs => xs
  | _, .obj kvs => kvs.map (·.2)
  | _, _ => []

/-- The deserializer with arguments. -/
def AForm.deser : AForm → List Deser → Option Deser
  | .list, [d] => some (.list d)
  | .set, [d] => some (.set d)
  | .dict k, [d] => some (.dict k d)
  | .tuple, ds => some (.tuple ds)
  | .union, ds => some (.union ds)
  | _, _ => none

theorem readNode_congr {env : Env} {fs gs : List (Json → Option (Res Val))} {j : Json} {f : AForm}
    (h : All2 (fun a b => ∀ x ∈ partsOf f j, a x = b x) fs gs) : readNode env fs j f = readNode env gs j f := by
  cases f with
  | list =>
    cases h with
    | nil => rfl
    | cons h1 h2 =>
      cases h2 with
      | nil =>
        cases j with
        | arr xs => simp only [readNode]; rw [List.map_congr_left (l := xs) (fun x hx => h1 x hx)]
        | _ => rfl
      | cons _ _ => rfl
  | set =>
    cases h with
    | nil => rfl
    | cons h1 h2 =>
      cases h2 with
      | nil =>
        cases j with
        | arr xs => simp only [readNode]; rw [List.map_congr_left (l := xs) (fun x hx => h1 x hx)]
        | _ => rfl
      | cons _ _ => rfl
  | dict k =>
    cases h with
    | nil => rfl
    | cons h1 h2 =>
      cases h2 with
      | nil =>
        cases j with
        | obj kvs =>
          simp only [readNode]
          rw [List.map_congr_left (fun x hx => by rw [h1 x.2 (List.mem_map.2 ⟨x, hx, rfl⟩)])]
        | _ => rfl
      | cons _ _ => rfl
  | tuple =>
    cases j with
    | arr xs =>
      simp only [readNode, h.length]
      split
      · rfl
      · have : ∀ {fs gs : List (Json → Option (Res Val))} {ys : List Json}, (∀ y ∈ ys, y ∈ xs) →
            All2 (fun a b => ∀ x ∈ xs, a x = b x) fs gs →
            (fs.zip ys).map (fun p => p.1 p.2) = (gs.zip ys).map (fun p => p.1 p.2) := by
          intro fs gs ys hy h
          induction h generalizing ys with
          | nil => rfl
          | cons h1 _ ih =>
            cases ys with
            | nil => rfl
            | cons y ys =>
              simp only [List.zip_cons_cons, List.map_cons]
              rw [h1 y (hy y (by simp)), ih (fun z hz => hy z (by simp [hz]))]
        rw [this (fun y hy => hy) h]
    | _ => rfl
  | union =>
    simp only [readNode]
    have : fs.map (fun f => f j) = gs.map (fun f => f j) := by
      induction h with
      | nil => rfl
      | cons h1 _ ih => simp only [List.map_cons]; rw [h1 j (by simp [partsOf]), ih]
    rw [this]

theorem readAll_some (rs : List α) (g : α → Res Val) : readAll (rs.map fun r => some (g r)) = some (mapRes g rs) := by
  induction rs with
  | nil => rfl
  | cons r rs ih =>
    simp only [List.map_cons, readAll, mapRes, ih]
    cases g r with
    | error e => rfl
    | ok v => simp only; cases mapRes g rs <;> rfl

theorem readSet_some (env : Env) (H : Heap) (d : Deser) : ∀ (acc : List Val) (xs : List Json),
    readSet env acc (xs.map fun x => some (parse env H x d)) = some (parseSetItems env d acc (xs.map (parse env H)))
  | acc, [] => rfl
  | acc, x :: xs => by
    simp only [List.map_cons, readSet, parseSetItems]
    cases parse env H x d with
    | error e => rfl
    | ok v =>
      simp only
      cases setAdd env acc v with
      | error e => rfl
      | ok acc' => exact readSet_some env H d acc' xs

theorem readDict_some (env : Env) (H : Heap) (k : KeyTy) (d : Deser) : ∀ (acc : List (Key × Val)) (kvs : List (Str × Json)),
    readDict env k acc (kvs.map fun kv => (kv.1, some (parse env H kv.2 d))) =
      some (parsePairs env k d acc (kvs.map fun p => (p.1, p.2, parse env H p.2)))
  | acc, [] => rfl
  | acc, (s, x) :: kvs => by
    simp only [List.map_cons, readDict, parsePairs]
    cases parseKey env k s with
    | error e => rfl
    | ok key =>
      simp only
      cases parse env H x d with
      | error e => rfl
      | ok v => exact readDict_some env H k d _ kvs

theorem readFirst_some (env : Env) (H : Heap) (j : Json) : ∀ ds : List Deser,
    readFirst (ds.map fun d => some (parse env H j d)) = some (parse env H j (.union ds))
  | [] => by rw [parse_union_nil]; rfl
  | d :: ds => by
    rw [parse_union_cons]
    simp only [List.map_cons, readFirst]
    cases parse env H j d with
    | ok v => rfl
    | error e =>
      simp only
      split
      · exact readFirst_some env H j ds
      · rfl

theorem readNode_parse {env : Env} {H : Heap} {f : AForm} {ds : List Deser} {d : Deser} (hd : f.deser ds = some d) (j : Json) :
    readNode env (ds.map fun d x => some (parse env H x d)) j f = some (parse env H j d) := by
  cases f with
  | list =>
    match ds, hd with
    | [e], hd =>
      cases hd
      cases j with
      | arr xs =>
        rw [parse_list_arr]
        simp only [List.map_cons, List.map_nil, readNode, readAll_some]
        cases mapRes (fun x => parse env H x e) xs <;> rfl
      | _ => rw [parse_eq]; rfl
  | set =>
    match ds, hd with
    | [e], hd =>
      cases hd
      cases j with
      | arr xs =>
        rw [parse_eq]
        simp only [List.map_cons, List.map_nil, readNode, readSet_some, parseD, kidsOf, parseSetK]
        cases parseSetItems env e [] (xs.map (parse env H)) <;> rfl
      | _ => rw [parse_eq]; rfl
  | dict k =>
    match ds, hd with
    | [e], hd =>
      cases hd
      cases j with
      | obj kvs =>
        rw [parse_eq]
        simp only [List.map_cons, List.map_nil, readNode, readDict_some, parseD, kidsOf, parseDictK]
        cases parsePairs env k e [] (kvs.map fun p => (p.1, p.2, parse env H p.2)) <;> rfl
      | _ => rw [parse_eq]; rfl
  | tuple =>
    cases hd
    cases j with
    | arr xs =>
      rw [parse_tuple_arr]
      simp only [readNode, List.length_map]
      split
      · rfl
      · have : ((ds.map fun d x => some (parse env H x d)).zip xs).map (fun p : (Json → Option (Res Val)) × Json => p.1 p.2) =
            (xs.zip ds).map (fun p => some (parse env H p.1 p.2)) := by
          rename_i hl
          clear hl
          induction ds generalizing xs with
          | nil => simp
          | cons e ds ih =>
            cases xs with
            | nil => rfl
            | cons x xs => simp only [List.map_cons, List.zip_cons_cons]; rw [ih]
        rw [this, readAll_some]
        cases mapRes (fun p : Json × Deser => parse env H p.1 p.2) (xs.zip ds) <;> rfl
    | _ => rw [parse_eq]; rfl
  | union =>
    cases hd
    simp only [readNode, List.map_map]
    exact readFirst_some env H j ds

theorem compileL_all2 {env : Env} : ∀ {ts : List Ty} {ds : List Deser}, compileL env ts = .ok ds → All2 (fun t d => compile env t = .ok d) ts ds
  | [], ds, h => by cases h; exact .nil
  | t :: ts, ds, h => by
    simp only [compileL] at h
    split at h
    · cases h
    · rename_i d hd
      split at h
      · rename_i ds' hds
        cases h
        exact .cons hd (compileL_all2 hds)
      · cases h

theorem type_compile {env : Env} {f : AForm} {ts : List Ty} {t : Ty} {d : Deser} (hf : f.type ts = some t) (hd : compile env t = .ok d)
    (hu : f = .union → discProps env ts = []) : ∃ ds, All2 (fun t d => compile env t = .ok d) ts ds ∧ f.deser ds = some d := by
  cases f with
  | list =>
    match ts, hf with
    | [u], hf =>
      cases hf
      simp only [compile] at hd
      split at hd
      · rename_i e he
        cases hd
        exact ⟨[e], .cons he .nil, rfl⟩
      · cases hd
  | set =>
    match ts, hf with
    | [u], hf =>
      cases hf
      simp only [compile] at hd
      split at hd
      · rename_i e he
        cases hd
        exact ⟨[e], .cons he .nil, rfl⟩
      · cases hd
  | dict k =>
    match ts, hf with
    | [u], hf =>
      cases hf
      simp only [compile] at hd
      split at hd
      · cases hd
      · split at hd
        · rename_i e he
          cases hd
          exact ⟨[e], .cons he .nil, rfl⟩
        · cases hd
  | tuple =>
    cases hf
    simp only [compile] at hd
    split at hd
    · rename_i ds hds
      cases hd
      exact ⟨ds, compileL_all2 hds, rfl⟩
    · cases hd
  | union =>
    cases hf
    simp only [compile, hu rfl, if_true] at hd
    split at hd
    · rename_i ds hds
      cases hd
      exact ⟨ds, compileL_all2 hds, rfl⟩
    · cases hd

theorem levels_mem : ∀ {xs : List Json} {x : Json}, x ∈ xs → x.levels ≤ levelsL xs
  | y :: ys, x, h => by
    simp only [levelsL]
    rcases List.mem_cons.1 h with rfl | h
    · omega
    · have := levels_mem h; omega

theorem levels_memP : ∀ {kvs : List (Str × Json)} {x : Json}, x ∈ kvs.map (·.2) → x.levels ≤ levelsP kvs
  | (k, y) :: ys, x, h => by
    simp only [levelsP]
    rcases List.mem_cons.1 h with h | h
    · rw [h]; exact Nat.le_max_left _ _
    · have := levels_memP (kvs := ys) h; omega

theorem parts_levels {f : AForm} (hf : f ≠ .union) {j x : Json} (h : x ∈ partsOf f j) : x.levels < j.levels := by
  cases j with
  | arr xs =>
    have : x ∈ xs := by cases f <;> first | exact h | exact absurd rfl hf
    have := levels_mem this
    simp only [Json.levels]; omega
  | obj kvs =>
    have : x ∈ kvs.map (·.2) := by cases f <;> first | exact h | exact absurd rfl hf
    have := levels_memP this
    simp only [Json.levels]; omega
  | _ => cases f <;> first | exact absurd rfl hf | cases h

section
variable {w : AliasWorld}

theorem chain_unfolds {o : ATy} {t : Ty} (h : Chain w o t) {n : Nat} {u : Ty} (hu : Unfolds w (n + 1) o u) : u = t := by
  induction h generalizing u with
  | plain t => cases hu; rfl
  | text s o t h1 _ ih =>
    cases hu with
    | text _ _ o' _ h3 h4 => rw [h1] at h3; cases h3; exact ih h4
  | ref s o t h1 _ ih =>
    cases hu with
    | ref _ _ o' _ h3 h4 => rw [h1] at h3; cases h3; exact ih h4

theorem outcome_uniform {H : AHeap} {r : AReader} {g : Json → Res Val} : ∀ {xs : List Json}, (∀ x ∈ xs, w.Outcome H r x (g x)) →
    ∃ M, ∀ n, M ≤ n → ∀ x ∈ xs, w.read H n r x = some (g x)
  | [], _ => ⟨0, fun _ _ _ hx => by cases hx⟩
  | x :: xs, h => by
    obtain ⟨M, hM⟩ := outcome_uniform (xs := xs) (fun y hy => h y (by simp [hy]))
    obtain ⟨K, hK⟩ := h x (by simp)
    refine ⟨max M K, fun n hn y hy => ?_⟩
    rcases List.mem_cons.1 hy with rfl | hy
    · exact hK n (by omega)
    · exact hM n (by omega) y hy

theorem read_uniform {H : AHeap} {xs : List Json} {rs : List AReader} {ds : List Deser}
    (h : All2 (fun r d => ∀ x ∈ xs, w.Outcome H r x (parse w.env (fullHeap w.env w.skip) x d)) rs ds) :
    ∃ N, ∀ n, N ≤ n → All2 (fun a b => ∀ x ∈ xs, a x = b x) (rs.map (w.read H n))
      (ds.map fun d x => some (parse w.env (fullHeap w.env w.skip) x d)) := by
  induction h with
  | nil => exact ⟨0, fun _ _ => .nil⟩
  | cons h1 _ ih =>
    obtain ⟨N, hN⟩ := ih
    obtain ⟨M, hM⟩ := outcome_uniform h1
    exact ⟨max N M, fun n hn => .cons (hM n (by omega)) (hN n (by omega))⟩

theorem read_node {H : AHeap} {f : AForm} {rs : List AReader} {ds : List Deser} {d : Deser} {j : Json} (hd : f.deser ds = some d)
    (h : All2 (fun r d => ∀ x ∈ partsOf f j, w.Outcome H r x (parse w.env (fullHeap w.env w.skip) x d)) rs ds) :
    w.Outcome H (.node f rs) j (parse w.env (fullHeap w.env w.skip) j d) := by
  obtain ⟨N, hN⟩ := read_uniform h
  refine ⟨N + 1, fun n hn => ?_⟩
  obtain ⟨m, rfl⟩ : ∃ m, n = m + 1 := ⟨n - 1, by omega⟩
  simp only [AliasWorld.read]
  rw [readNode_congr (hN m (by omega)), readNode_parse hd]

theorem loads_compiled {t : Ty} {d : Deser} (h : compile w.env t = .ok d) (j : Json) :
    loads w.env w.skip t j = parse w.env (fullHeap w.env w.skip) j d := by
  simp only [loads, h]

theorem zip3 {R : AReader → ATy → Prop} {S : ATy → Ty → Prop} {T : Ty → Deser → Prop} {Q : AReader → Deser → Prop}
    (hQ : ∀ r o t d, R r o → S o t → T t d → Q r d) {rs : List AReader} {os : List ATy} {ts : List Ty} {ds : List Deser}
    (h1 : All2 R rs os) (h2 : All2 S os ts) (h3 : All2 T ts ds) : All2 Q rs ds :=
  all2_comp (R := fun r t => ∃ o, R r o ∧ S o t) (fun r t d ⟨o, h1, h2⟩ h3 => hQ r o t d h1 h2 h3)
    (all2_comp (fun _ o _ h1 h2 => ⟨o, h1, h2⟩) h1 h2) h3

theorem APresent.kid {H : AHeap} {f : AForm} {rs : List AReader} (h : APresent H (.node f rs)) {r : AReader} (hr : r ∈ rs) : APresent H r :=
  fun s hs => h s (.node f rs r s hr hs)

theorem all2_with_mem {R : α → β → Prop} {as : List α} {bs : List β} (h : All2 R as bs) : All2 (fun a b => a ∈ as ∧ R a b) as bs :=
  h.imp_mem fun _ ha _ _ hr => ⟨ha, hr⟩

/-- Reading with the deserializer is reading the type that is unfolded, for data that is not as deep. -/
theorem read_unfolds {H : AHeap} (hs : H.Sane w) (hc : H.Complete) {n : Nat} {o : ATy} {t : Ty} (h : Unfolds w n o t) {r : AReader} {d : Deser}
    {j : Json} (hr : Rep w r o) (hp : APresent H r) (hd : compile w.env t = .ok d) (hj : j.levels < n) :
    w.Outcome H r j (parse w.env (fullHeap w.env w.skip) j d) := by
  have entry : ∀ {s : Str} {o : ATy}, APresent H (.ref s) → w.eval s = .ok o → ∃ r', H s = some (some r') ∧ Rep w r' o ∧ APresent H r' := by
    intro s o hp ho
    have h1 := hp s (.ref s)
    cases he : H s with
    | none => exact absurd he h1
    | some e =>
      cases e with
      | none => exact absurd he (hc s)
      | some r' =>
        obtain ⟨o', h2, h3⟩ := hs.rep s r' he
        rw [ho] at h2; cases h2
        exact ⟨r', rfl, h3, hs.present s r' he⟩
  have step : ∀ {s : Str} {r' : AReader} {j : Json} {v : Res Val}, H s = some (some r') → w.Outcome H r' j v → w.Outcome H (.ref s) j v := by
    rintro s r' j v he ⟨N, hN⟩
    refine ⟨N + 1, fun n hn => ?_⟩
    obtain ⟨m, rfl⟩ : ∃ m, n = m + 1 := ⟨n - 1, by omega⟩
    simp only [AliasWorld.read, he]
    exact hN m (by omega)
  induction h generalizing r d j with
  | cut => omega
  | plain n t =>
    cases hr
    refine ⟨1, fun n hn => ?_⟩
    obtain ⟨m, rfl⟩ : ∃ m, n = m + 1 := ⟨n - 1, by omega⟩
    simp only [AliasWorld.read, loads_compiled hd]
  | node n f os ts t hf hl hk ht ih =>
    obtain ⟨ds, h1, h2⟩ := type_compile ht hd (fun h => absurd h hf)
    cases hr with
    | tag => exact absurd rfl hf
    | node _ rs _ hl' hk' =>
      have h4 := all2_zip (R := fun o t => ∀ {r : AReader} {d : Deser} {j : Json}, Rep w r o → APresent H r → compile w.env t = .ok d →
        j.levels < n → w.Outcome H r j (parse w.env (fullHeap w.env w.skip) j d)).2 ⟨hl, fun p hp => ih p hp⟩
      refine read_node h2 (zip3 (fun r o t d h1 h2 h3 x hx => ?_) (all2_with_mem (all2_zip.2 ⟨hl', hk'⟩)) h4 h1)
      have := parts_levels hf hx
      exact h2 h1.2 (hp.kid h1.1) h3 (by omega)
  | union n os ts hl hk hu ih =>
    obtain ⟨ds, h1, h2⟩ := type_compile (f := .union) rfl hd (fun _ => hu)
    cases hr with
    | tag _ us hc hd' =>
      obtain ⟨m, rfl⟩ : ∃ m, n = m + 1 := ⟨n - 1, by omega⟩
      have : All2 (fun (a : Ty) b => b = a) us ts := all2_comp (R := fun t o => Chain w o t) (S := Unfolds w (m + 1))
        (fun u o t h1 h2 => chain_unfolds h1 h2) (all2_flip hc) (all2_zip.2 ⟨hl, hk⟩)
      have : us = ts := by
        clear hk ih hl hu h1 hd hc hd' hp
        induction this with
        | nil => rfl
        | cons h _ ih => rw [h, ih]
      subst this
      exact absurd hu hd'
    | node _ rs _ hl' hk' =>
      have h4 := all2_zip (R := fun o t => ∀ {r : AReader} {d : Deser} {j : Json}, Rep w r o → APresent H r → compile w.env t = .ok d →
        j.levels < n → w.Outcome H r j (parse w.env (fullHeap w.env w.skip) j d)).2 ⟨hl, fun p hp => ih p hp⟩
      refine read_node h2 (zip3 (fun r o t d h1 h2 h3 x hx => ?_) (all2_with_mem (all2_zip.2 ⟨hl', hk'⟩)) h4 h1)
      have : x = j := by simpa [partsOf] using hx
      subst this
      exact h2 h1.2 (hp.kid h1.1) h3 hj
  | annotated n o t _ ih => cases hr with | annotated _ _ hr => exact ih hr hp hd hj
  | text n s o t ho _ ih =>
    cases hr with
    | refText =>
      obtain ⟨r', h1, h2, h3⟩ := entry hp ho
      exact step h1 (ih h2 h3 hd hj)
    | text _ _ o' h1 h2 => rw [ho] at h1; cases h1; exact ih h2 hp hd hj
  | ref n s o t ho _ ih =>
    cases hr with
    | refRef =>
      obtain ⟨r', h1, h2, h3⟩ := entry hp ho
      exact step h1 (ih h2 h3 hd hj)
    | ref _ _ o' h1 h2 => rw [ho] at h1; cases h1; exact ih h2 hp hd hj
end
end Verif
