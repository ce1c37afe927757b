import Verif.Model.ClassBuildLeft
import Verif.Spec.ModuleLeft
import Verif.Lemmas.ModuleTypes
import Verif.Lemmas.NoType
/-!
# What is left behind by `schema_to_type`
-/
namespace Verif

/-- The result with the state that goes with it, if there is no exception. -/
def outcome {α : Type} : Res α × BuildSt → Res (α × BuildSt)
  | (.error e, _) => .error e
  | (.ok x, st) => .ok (x, st)

theorem outcome_settle {α : Type} (st : BuildSt) (r : Res (α × BuildSt)) : outcome (settle st r) = r := by
  match r with
  | .error e => rfl
  | .ok (x, a) => rfl

/-- The two models of a node agree. -/
def LeftOk (cfg : BuildCfg) (n : TNode) : Prop := ∀ ctx st, nodeToTypedef cfg n ctx st = outcome (nodeLeft cfg n ctx st)

theorem props_left {cfg : BuildCfg} (ps : List (Str × TNode)) (ih : ∀ p ∈ ps, LeftOk cfg p.2) (ctx : Str) (req : List Str) :
    ∀ st, propTypedefs cfg ps ctx req st = outcome (propsLeft cfg ps ctx req st) := by
  induction ps with
  | nil => intro st; simp only [propTypedefs, propsLeft, outcome]
  | cons p r ihr =>
    obtain ⟨name, n⟩ := p
    intro st
    have hn : LeftOk cfg n := ih _ (.head _)
    simp only [propTypedefs, propsLeft, hn (propContext ctx name) st]
    match nodeLeft cfg n (propContext ctx name) st with
    | (.error e, a) => rfl
    | (.ok d, a) =>
      simp only [outcome]
      cases propField req name d with
      | error e => rfl
      | ok f =>
        simp only [ihr (fun p hp => ih p (.tail _ hp)) a]
        match propsLeft cfg r ctx req a with
        | (.error e, b) => rfl
        | (.ok fs, b) => rfl

theorem members_left {cfg : BuildCfg} (ns : List TNode) (ih : ∀ n ∈ ns, LeftOk cfg n) (ctx : Str) :
    ∀ st, memberTypedefs cfg ns ctx st = outcome (membersLeft cfg ns ctx st) := by
  induction ns with
  | nil => intro st; simp only [memberTypedefs, membersLeft, outcome]
  | cons n r ihr =>
    intro st
    simp only [memberTypedefs, membersLeft, ih n (.head _) ctx st]
    match nodeLeft cfg n ctx st with
    | (.error e, a) => rfl
    | (.ok d, a) =>
      simp only [outcome, ihr (fun p hp => ih p (.tail _ hp)) a]
      match membersLeft cfg r ctx a with
      | (.error e, b) => rfl
      | (.ok fs, b) => rfl

theorem node_left (cfg : BuildCfg) (n : TNode) : LeftOk cfg n := by
  generalize hsz : sizeOf n = sz
  induction sz using Nat.strongRecOn generalizing n with
  | _ sz ih =>
    subst hsz
    intro ctx st
    cases n with
    | ref r => simp only [nodeToTypedef, nodeLeft, outcome_settle]
    | bool c dv => simp only [nodeToTypedef, nodeLeft, outcome_settle]
    | int => simp only [nodeToTypedef, nodeLeft, outcome_settle]
    | num => simp only [nodeToTypedef, nodeLeft, outcome_settle]
    | str f c dv e m =>
      cases c with
      | some s => simp only [nodeToTypedef, strTypedef, nodeLeft, outcome]
      | none =>
        simp only [nodeToTypedef, strTypedef, nodeLeft]
        match stringType cfg ctx st f e m with
        | .error e => rfl
        | .ok (t, a) => simp only [outcome_settle]
    | arr n =>
      simp only [nodeToTypedef, nodeLeft, ih _ (by simp) n rfl ctx st]
      match nodeLeft cfg n ctx st with
      | (.error e, a) => rfl
      | (.ok d, a) => simp only [outcome_settle]; rfl
    | obj ps a req =>
      cases ps with
      | none => simp only [nodeToTypedef, nodeLeft, outcome]
      | some ps =>
        have hps : ∀ p ∈ ps, LeftOk cfg p.2 := fun p hp => ih _ (by
          have := List.sizeOf_lt_of_mem hp
          obtain ⟨k, n⟩ := p
          simp at this ⊢
          omega) p.2 rfl
        simp only [nodeToTypedef, nodeLeft, props_left ps hps]
        split
        · rfl
        match propsLeft cfg ps ctx (req.getD []) st with
        | (.error e, a) => rfl
        | (.ok d, a) => simp only [outcome_settle]; rfl
    | oneOf ns =>
      have hns : ∀ n ∈ ns, LeftOk cfg n := fun n hn => ih _ (by
        have := List.sizeOf_lt_of_mem hn
        simp; omega) n rfl
      simp only [nodeToTypedef, nodeLeft, members_left ns hns]
      match membersLeft cfg ns ctx st with
      | (.error e, a) => rfl
      | (.ok d, a) => simp only [outcome_settle]; rfl

theorem definitions_left (cfg : BuildCfg) (ds : List (Str × TNode)) : ∀ st,
    buildDefinitions cfg ds st = match definitionsLeft cfg ds st with | (.error e, _) => .error e | (.ok _, st') => .ok st' := by
  induction ds with
  | nil => intro st; rfl
  | cons p r ih =>
    obtain ⟨name, n⟩ := p
    intro st
    simp only [buildDefinitions, definitionsLeft, node_left cfg n name st]
    match nodeLeft cfg n name st with
    | (.error e, a) => rfl
    | (.ok d, a) =>
      simp only [outcome]
      by_cases hd : d.dflt.isSome = true
      · simp only [hd, if_true]
      · simp only [hd]
        cases setModule cfg a d.ty with
        | error e => rfl
        | ok b => exact ih _

theorem schema_left (cfg : BuildCfg) (name : Str) (schema : Json) (st : BuildSt) :
    schemaToType cfg name schema st = outcome (schemaLeft cfg name schema st) := by
  unfold schemaToType schemaLeft
  cases readTop schema with
  | error e => rfl
  | ok top =>
    simp only [definitions_left]
    match definitionsLeft cfg (top.definitions.getD []) st with
    | (.error e, a) => rfl
    | (.ok _, a) =>
      simp only [node_left cfg top.node name a]
      match nodeLeft cfg top.node name a with
      | (.error e, b) => rfl
      | (.ok d, b) => rfl

/-! ### Failures -/

theorem node_left_ok {cfg : BuildCfg} {n : TNode} {ctx : Str} {st st' : BuildSt} {d : TypeDef}
    (h : nodeLeft cfg n ctx st = (.ok d, st')) : nodeToTypedef cfg n ctx st = .ok (d, st') := by rw [node_left cfg n, h]; rfl

/-- Types are added with names of a kind, and the types of the module stay its own. -/
structure Leaves (m : Str) (P X : Str → Prop) (a b : BuildSt) : Prop where
  grown : Enlarges m P X a b
  own : OwnTypes m b.env b.attrs
  patched : b.patched = a.patched

theorem Leaves.refl {m : Str} {P X : Str → Prop} {a : BuildSt} (h : OwnTypes m a.env a.attrs) : Leaves m P X a a := ⟨.refl, h, rfl⟩

theorem Leaves.trans {m : Str} {P X : Str → Prop} {a b c : BuildSt} (h : Leaves m P X a b) (h' : Leaves m P X b c) :
    Leaves m P X a c := ⟨h.grown.trans h'.grown, h'.own, h'.patched.trans h.patched⟩

theorem Leaves.imp {m : Str} {P Q X Y : Str → Prop} {a b : BuildSt} (h : Leaves m P X a b) (hp : ∀ n, P n → Q n)
    (hx : ∀ n, X n → Y n) : Leaves m Q Y a b := ⟨h.grown.imp hp hx, h.own, h.patched⟩

theorem settle_error {α : Type} {st st' : BuildSt} {r : Res (α × BuildSt)} {e : Err} (h : settle st r = (.error e, st')) : st' = st := by
  match r, h with
  | .error _, h => cases h; rfl
  | .ok (_, _), h => cases h

theorem node_leaves_ok {cfg : BuildCfg} {n : TNode} {s : Json} {ctx : Str} {st st' : BuildSt} {d : TypeDef} (hd : Denotes n s)
    (ho : OwnTypes cfg.modName st.env st.attrs) (h : nodeLeft cfg n ctx st = (.ok d, st')) :
    Leaves cfg.modName (NamedAfter ctx) (fun _ => False) st st' := by
  obtain ⟨h1, h2, h3, -⟩ := node_enlarges cfg n s ctx st d st' hd ho (node_left_ok h)
  exact ⟨h1, h2, h3⟩

/-- What is left behind by a node that fails. -/
def NodeLeaves (cfg : BuildCfg) (n : TNode) : Prop :=
  ∀ s ctx st e st', Denotes n s → OwnTypes cfg.modName st.env st.attrs → nodeLeft cfg n ctx st = (.error e, st') →
    Leaves cfg.modName (NamedAfter ctx) (fun _ => False) st st'

theorem props_leaves {cfg : BuildCfg} {ps : List (Str × TNode)} (hn : ∀ p ∈ ps, NodeLeaves cfg p.2) (ctx : Str) (req : List Str) :
    ∀ xs st r st', DenotesD ps xs → OwnTypes cfg.modName st.env st.attrs → propsLeft cfg ps ctx req st = (r, st') →
      Leaves cfg.modName (NamedAfter ctx) (fun _ => False) st st' := by
  induction ps with
  | nil => intro xs st r st' _ ho h; simp only [propsLeft, Prod.mk.injEq] at h; rw [← h.2]; exact .refl ho
  | cons p ps ih =>
    obtain ⟨k, n⟩ := p
    intro xs st r st' hd ho h
    cases xs with
    | nil => exact hd.elim
    | cons x xs =>
      obtain ⟨l, x⟩ := x
      obtain ⟨rfl, hd1, hd2⟩ := hd
      simp only [propsLeft] at h
      have hk : NodeLeaves cfg n := hn (k, n) (by simp)
      split at h
      · rename_i e a h1
        cases h
        exact (hk x _ st _ _ hd1 ho h1).imp (fun _ h => h.prop) fun _ h => h
      rename_i d a h1
      have g := (node_leaves_ok hd1 ho h1).imp (fun _ h => h.prop) (fun _ h => h)
      split at h
      · cases h; exact g
      split at h
      all_goals
        rename_i h2
        cases h
        exact g.trans (ih (fun n hm => hn n (by simp [hm])) xs a _ _ hd2 g.own h2)

theorem members_leaves {cfg : BuildCfg} {ns : List TNode} (hn : ∀ n ∈ ns, NodeLeaves cfg n) (ctx : Str) :
    ∀ xs st r st', DenotesL ns xs → OwnTypes cfg.modName st.env st.attrs → membersLeft cfg ns ctx st = (r, st') →
      Leaves cfg.modName (NamedAfter ctx) (fun _ => False) st st' := by
  induction ns with
  | nil => intro xs st r st' _ ho h; simp only [membersLeft, Prod.mk.injEq] at h; rw [← h.2]; exact .refl ho
  | cons n ns ih =>
    intro xs st r st' hd ho h
    cases xs with
    | nil => exact hd.elim
    | cons x xs =>
      obtain ⟨hd1, hd2⟩ := hd
      simp only [membersLeft] at h
      split at h
      · rename_i e a h1
        cases h
        exact hn n (by simp) x _ st _ _ hd1 ho h1
      rename_i d a h1
      have g := node_leaves_ok hd1 ho h1
      split at h
      all_goals
        rename_i h2
        cases h
        exact g.trans (ih (fun n hm => hn n (by simp [hm])) xs a _ _ hd2 g.own h2)

theorem node_leaves (cfg : BuildCfg) (n : TNode) : NodeLeaves cfg n := by
  generalize hsz : sizeOf n = sz
  induction sz using Nat.strongRecOn generalizing n with
  | _ sz ih =>
    subst hsz
    intro s ctx st err st' hd ho h
    cases n with
    | ref r => simp only [nodeLeft] at h; rw [settle_error h]; exact .refl ho
    | bool c dv => simp only [nodeLeft] at h; rw [settle_error h]; exact .refl ho
    | int => simp only [nodeLeft] at h; rw [settle_error h]; exact .refl ho
    | num => simp only [nodeLeft] at h; rw [settle_error h]; exact .refl ho
    | str f c dv e m =>
      cases c with
      | some s => simp only [nodeLeft] at h; cases h
      | none =>
        simp only [nodeLeft] at h
        split at h
        · cases h; exact .refl ho
        · rename_i t a ht
          rw [settle_error h]
          obtain ⟨g1, g2, g3, -⟩ := stringType_enlarges ho ht
          exact ⟨g1, g2, g3⟩
    | arr n =>
      obtain ⟨kvs, x, rfl, _, hx, hdx⟩ := hd
      simp only [nodeLeft] at h
      split at h
      · rename_i h1
        cases h
        exact ih _ (by simp) n rfl x ctx st _ _ hdx ho h1
      · rename_i h1
        rw [settle_error h]
        exact node_leaves_ok hdx ho h1
    | obj ps a req =>
      cases ps with
      | none => simp only [nodeLeft] at h; cases h; exact .refl ho
      | some ps =>
        have hps : ∀ p ∈ ps, NodeLeaves cfg p.2 := fun p hp => ih _ (by
          have := List.sizeOf_lt_of_mem hp
          obtain ⟨k, n⟩ := p
          simp at this ⊢
          omega) p.2 rfl
        obtain ⟨kvs, xs, rfl, -, hx, hdx, -⟩ := hd
        simp only [nodeLeft] at h
        split at h
        · cases h; exact .refl ho
        split at h
        · rename_i h1
          cases h
          exact props_leaves hps ctx _ xs st _ _ hdx ho h1
        · rename_i h1
          rw [settle_error h]
          exact props_leaves hps ctx _ xs st _ _ hdx ho h1
    | oneOf ns =>
      have hns : ∀ n ∈ ns, NodeLeaves cfg n := fun n hn => ih _ (by
        have := List.sizeOf_lt_of_mem hn
        simp; omega) n rfl
      obtain ⟨kvs, xs, rfl, hx, hdx⟩ := hd
      simp only [nodeLeft] at h
      split at h
      · rename_i h1
        cases h
        exact members_leaves hns ctx xs st _ _ hdx ho h1
      · rename_i h1
        rw [settle_error h]
        exact members_leaves hns ctx xs st _ _ hdx ho h1

theorem definitions_leaves {cfg : BuildCfg} (ds : List (Str × TNode)) :
    ∀ xs st r st', DenotesD ds xs → (∀ x ∈ xs, NoLib x.2) → OwnTypes cfg.modName st.env st.attrs →
      definitionsLeft cfg ds st = (r, st') →
      Leaves cfg.modName (fun n => ∃ x ∈ xs, NamedAfter x.1 n) (fun n => ∃ x ∈ xs, x.1 = n) st st' := by
  induction ds with
  | nil => intro xs st r st' _ _ ho h; cases h; exact .refl ho
  | cons p ds ih =>
    obtain ⟨name, n⟩ := p
    intro xs st r st' hd hl ho h
    cases xs with
    | nil => exact hd.elim
    | cons x xs =>
      obtain ⟨l, x⟩ := x
      obtain ⟨rfl, hdx, hds⟩ := hd
      simp only [definitionsLeft] at h
      have up : ∀ {b}, Leaves cfg.modName (NamedAfter name) (fun _ => False) st b →
          Leaves cfg.modName (fun n => ∃ y ∈ (name, x) :: xs, NamedAfter y.1 n) (fun n => ∃ y ∈ (name, x) :: xs, y.1 = n) st b :=
        fun h => h.imp (fun n hn => ⟨(name, x), .head _, hn⟩) fun n hn => hn.elim
      split at h
      · rename_i e a h1
        cases h
        exact up (node_leaves cfg n x name st _ _ hdx ho h1)
      rename_i d a h1
      have g := node_leaves_ok hdx ho h1
      split at h
      · cases h; exact up g
      split at h
      · cases h; exact up g
      rename_i b h2
      have hown := (node_enlarges cfg n x name st d a hdx ho (node_left_ok h1)).2.2.2 (hl (name, x) (by simp))
      have he := setModule_own hown h2
      subst he
      have hb : Leaves cfg.modName (fun n => ∃ y ∈ (name, x) :: xs, NamedAfter y.1 n) (fun n => ∃ y ∈ (name, x) :: xs, y.1 = n) st
          { b with attrs := upsert name d.ty b.attrs } := by
        have hu := (up g).grown
        refine ⟨⟨hu.classes, hu.enums, hu.order, ?_, ?_⟩, g.own.set hown, g.patched⟩
        · intro k hk
          simp only [lookupKey_upsert]
          split
          · rename_i hkn
            exact absurd ⟨(name, x), .head _, by simp [hkn]⟩ hk
          · exact hu.attrs k hk
        · intro k hk T hT
          simp only [lookupKey_upsert]
          split
          · rename_i hkn
            exact absurd ⟨(name, x), .head _, by simp [hkn]⟩ hk
          · exact hu.found k hk T hT
      refine hb.trans ((ih xs _ _ st' hds (fun x hm => hl x (by simp [hm])) hb.own h).imp ?_ ?_)
      · rintro n ⟨y, hy, hn⟩; exact ⟨y, .tail _ hy, hn⟩
      · rintro n ⟨y, hy, hn⟩; exact ⟨y, .tail _ hy, hn⟩

/-- The definitions of a document that has been read. -/
theorem read_definitions {schema : Json} {top : TopNode} (hw : schema.Wf) (h : readTop schema = .ok top) :
    Denotes top.node schema ∧ DenotesD (top.definitions.getD []) (schemaDefs schema) := by
  obtain ⟨hden, kvs, rfl, hdefs⟩ := readTop_denotes hw h
  obtain ⟨kvs', vs, he, hrf, -, -, hds⟩ := top_inv h
  cases he
  refine ⟨hden, ?_⟩
  cases htd : top.definitions with
  | some ds =>
    obtain ⟨xs, hx, hdx⟩ := hdefs ds htd
    have hxs : schemaDefs (.obj kvs) = xs := by simp [schemaDefs, hx]
    rw [hxs]; exact hdx
  | none =>
    have := top_definitions hrf hw hds
    rw [htd] at this
    generalize schemaDefs (.obj kvs) = xs at this
    cases this
    exact trivial

/-- The program and the module after a call of `schema_to_type` that returns or fails. -/
theorem schema_leaves {cfg : BuildCfg} {name : Str} {schema : Json} {st st' : BuildSt} {r : Res Ty} (hw : schema.Wf)
    (hl : NoLibraryFormats schema) (ho : OwnTypes cfg.modName st.env st.attrs) (h : schemaLeft cfg name schema st = (r, st')) :
    Leaves cfg.modName (NameFor name schema) (fun n => ∃ x ∈ schemaDefs schema, x.1 = n) st st' := by
  unfold schemaLeft at h
  split at h
  · cases h; exact .refl ho
  rename_i top htop
  obtain ⟨hden, hd⟩ := read_definitions hw htop
  have key := fun r st' => definitions_leaves (cfg := cfg) _ _ st r st' hd hl ho
  split at h
  · rename_i h1
    cases h
    exact (key _ _ h1).imp (fun _ h => .inr h) fun _ h => h
  rename_i a h1
  have g := (key _ _ h1).imp (Q := NameFor name schema) (fun _ h => .inr h) (fun _ h => h)
  split at h
  · rename_i h2
    cases h
    exact g.trans ((node_leaves cfg _ _ name a _ _ hden g.own h2).imp (fun _ h => .inl h) fun _ h => h.elim)
  · rename_i h2
    cases h
    exact g.trans ((node_leaves_ok hden g.own h2).imp (fun _ h => .inl h) fun _ h => h.elim)

/-! ### Documents that leave nothing behind -/

theorem MakesNothing.within {s t : Json} (h : MakesNothing s) (ht : t.Within s) : MakesNothing t := fun kvs hk => h kvs (hk.trans ht)

theorem settle_typeWithDefault (st : BuildSt) (t : Ty) (j : Option Json) : (settle st (typeWithDefault st t j)).2 = st := by
  unfold typeWithDefault
  cases jsonToValue st.env t j <;> rfl

/-- The node changes nothing. -/
def NodeStill (cfg : BuildCfg) (n : TNode) : Prop :=
  ∀ s ctx st, Denotes n s → MakesNothing s → (nodeLeft cfg n ctx st).2 = st

theorem props_still {cfg : BuildCfg} {ps : List (Str × TNode)} (hn : ∀ p ∈ ps, NodeStill cfg p.2) (ctx : Str) (req : List Str) :
    ∀ xs st, DenotesD ps xs → (∀ x ∈ xs, MakesNothing x.2) → (propsLeft cfg ps ctx req st).2 = st := by
  induction ps with
  | nil => intro xs st _ _; simp only [propsLeft]
  | cons p ps ih =>
    obtain ⟨k, n⟩ := p
    intro xs st hd hm
    cases xs with
    | nil => exact hd.elim
    | cons x xs =>
      obtain ⟨l, x⟩ := x
      obtain ⟨rfl, hd1, hd2⟩ := hd
      have hk : NodeStill cfg n := hn (k, n) (by simp)
      have h1 := hk x (propContext ctx k) st hd1 (hm _ (.head _))
      simp only [propsLeft]
      match hr : nodeLeft cfg n (propContext ctx k) st with
      | (.error e, a) => rw [hr] at h1; exact h1
      | (.ok d, a) =>
        rw [hr] at h1
        cases h1
        simp only
        cases propField req k d with
        | error e => rfl
        | ok f =>
          have h2 := ih (fun n hm => hn n (by simp [hm])) xs a hd2 (fun x hx => hm x (.tail _ hx))
          simp only
          match hr : propsLeft cfg ps ctx req a with
          | (.error e, a) => rw [hr] at h2; exact h2
          | (.ok fs, a) => rw [hr] at h2; exact h2

theorem members_still {cfg : BuildCfg} {ns : List TNode} (hn : ∀ n ∈ ns, NodeStill cfg n) (ctx : Str) :
    ∀ xs st, DenotesL ns xs → (∀ x ∈ xs, MakesNothing x) → (membersLeft cfg ns ctx st).2 = st := by
  induction ns with
  | nil => intro xs st _ _; simp only [membersLeft]
  | cons n ns ih =>
    intro xs st hd hm
    cases xs with
    | nil => exact hd.elim
    | cons x xs =>
      obtain ⟨hd1, hd2⟩ := hd
      have h1 := hn n (by simp) x ctx st hd1 (hm _ (.head _))
      simp only [membersLeft]
      match hr : nodeLeft cfg n ctx st with
      | (.error e, a) => rw [hr] at h1; exact h1
      | (.ok d, a) =>
        rw [hr] at h1
        cases h1
        have h2 := ih (fun n hm => hn n (by simp [hm])) xs a hd2 (fun x hx => hm x (.tail _ hx))
        simp only
        match hr : membersLeft cfg ns ctx a with
        | (.error e, a) => rw [hr] at h2; exact h2
        | (.ok fs, a) => rw [hr] at h2; exact h2

theorem node_still (cfg : BuildCfg) (n : TNode) : NodeStill cfg n := by
  generalize hsz : sizeOf n = sz
  induction sz using Nat.strongRecOn generalizing n with
  | _ sz ih =>
    subst hsz
    intro s ctx st hd hm
    cases n with
    | ref r =>
      simp only [nodeLeft, refTypedef]
      split
      · rfl
      split <;> rfl
    | bool c dv =>
      simp only [nodeLeft, boolTypedef]
      split
      · rfl
      · exact settle_typeWithDefault _ _ _
    | int =>
      simp only [nodeLeft, intTypedef]
      split
      · rfl
      · rfl
      · exact settle_typeWithDefault _ _ _
    | num =>
      simp only [nodeLeft, numTypedef]
      split
      · rfl
      split
      · rfl
      · exact settle_typeWithDefault _ _ _
    | str f c dv e m =>
      cases c with
      | some s => simp only [nodeLeft]
      | none =>
        obtain ⟨kvs, rfl, -, -, -, he⟩ := hd
        cases e with
        | some vs => have h1 := he vs rfl; rw [(hm kvs .self).2] at h1; cases h1
        | none =>
          simp only [nodeLeft, stringType]
          split
          · rfl
          · rename_i t a ht
            split at ht
            · cases ht; exact settle_typeWithDefault _ _ _
            split at ht
            · cases ht; exact settle_typeWithDefault _ _ _
            · cases ht
            · cases ht; exact settle_typeWithDefault _ _ _
    | arr n =>
      obtain ⟨kvs, x, rfl, _, hx, hdx⟩ := hd
      have h1 := ih _ (by simp) n rfl x ctx st hdx (hm.within (.obj (lookupKey_some_mem hx) .self))
      simp only [nodeLeft]
      match hr : nodeLeft cfg n ctx st with
      | (.error e, a) => rw [hr] at h1; exact h1
      | (.ok d, a) =>
        rw [hr] at h1
        cases h1
        simp only [listTypedef]
        split <;> rfl
    | obj ps a req =>
      cases ps with
      | none => obtain ⟨kvs, rfl, h⟩ := hd; exact absurd h (hm kvs .self).1
      | some ps => obtain ⟨kvs, xs, rfl, h, -⟩ := hd; exact absurd h (hm kvs .self).1
    | oneOf ns =>
      obtain ⟨kvs, xs, rfl, hx, hdx⟩ := hd
      have hns : ∀ n ∈ ns, NodeStill cfg n := fun n hn => ih _ (by
        have := List.sizeOf_lt_of_mem hn
        simp; omega) n rfl
      have h1 := members_still hns ctx xs st hdx fun x hx' => hm.within (.obj (lookupKey_some_mem hx) (.arr hx' .self))
      simp only [nodeLeft]
      match hr : membersLeft cfg ns ctx st with
      | (.error e, a) => rw [hr] at h1; exact h1
      | (.ok d, a) =>
        rw [hr] at h1
        cases h1
        simp only [unionTypedef]
        split
        · rfl
        split <;> rfl

/-- A document without definitions, and without objects and enumerations among the properties, leaves nothing behind if it fails. -/
theorem flat_still {cfg : BuildCfg} {name : Str} {schema : Json} {st : BuildSt} {e : Err} {st' : BuildSt} (hw : schema.Wf)
    (hf : FlatDocument schema) (h : schemaLeft cfg name schema st = (.error e, st')) : st' = st := by
  unfold schemaLeft at h
  split at h
  · cases h; rfl
  rename_i top htop
  obtain ⟨hden, hd⟩ := read_definitions hw htop
  rw [hf.1] at hd
  generalize top.definitions.getD [] = ds at h hd
  cases ds with
  | cons d ds => exact hd.elim
  | nil =>
    simp only [definitionsLeft] at h
    obtain ⟨kvs', vs, -, -, -, hon, -⟩ := top_inv htop
    have hobj : ∃ ps a r, top.node = .obj ps a r := by
      unfold objectNode at hon
      split at hon
      · exact ⟨_, _, _, (Option.some.inj hon).symm⟩
      · cases hon
    obtain ⟨ps, a, r, hn⟩ := hobj
    rw [hn] at h hden
    cases ps with
    | none => simp only [nodeLeft] at h; cases h; rfl
    | some ps =>
      obtain ⟨kvs, xs, he, -, hx, hdx, -⟩ := hden
      have h1 := props_still (cfg := cfg) (ps := ps) (fun p _ => node_still cfg p.2) name (r.getD []) xs st hdx (hf.2 kvs xs he hx)
      simp only [nodeLeft] at h
      by_cases ha : a ≠ some false
      · simp only [if_pos ha] at h; cases h; rfl
      · simp only [if_neg ha] at h
        match hr : propsLeft cfg ps name (r.getD []) st with
        | (.error e, b) => rw [hr] at h h1; cases h; exact h1
        | (.ok fs, b) =>
          rw [hr] at h h1
          cases h1
          simp only at h
          split at h
          · rename_i h2
            cases h
            exact settle_error h2
          · cases h

end Verif
