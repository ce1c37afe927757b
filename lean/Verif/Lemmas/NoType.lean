import Verif.Spec.NoType
import Verif.Lemmas.NodeInv
import Verif.Lemmas.RebuildNode
/-!
# No types are made from the schemas of `NoType`
-/
namespace Verif

variable {cfg : BuildCfg} {Known : Str → Prop}

/-! ### Attributes of nodes -/

theorem ReadFrom.present {c : Nat} {kvs : List (Str × Json)} {vs : List (Str × Val)} (h : ReadFrom c kvs vs) (name : Str) (t : Ty)
    (hf : ∀ cd, schemaEnv.classes[c]? = some cd →
      ∃ fw, cd.kind = .dataclass false ∧ fieldToProperty name Option.none = name ∧ (optTy t).required = t ∧
        cd.hints.find? (fun g => g.name = name) = some { name := name, ty := optTy t, fwd := fw })
    {x : Json} (hx : lookupKey name kvs = some x) (hn : x ≠ .null) : loads schemaEnv false t x = .ok (attrOf name vs) := by
  obtain ⟨cd, hcd, ha⟩ := h
  obtain ⟨fw, hk, hp, ht, hfd⟩ := hf cd hcd
  obtain ⟨w, hw, hr⟩ := all2_lookup ha (f := { name := name, ty := optTy t, fwd := fw }) hfd
  have hw' : attrOf name vs = w := by simp only at hw; simp [attrOf, hw]
  rw [hw']
  have e1 : fieldProp cd.kind { name := name, ty := optTy t, fwd := fw } = name := by rw [hk]; exact hp
  have e2 : fieldTy cd.kind { name := name, ty := optTy t, fwd := fw } = t := by rw [hk]; exact ht
  unfold readField at hr
  rw [e1, e2, hx] at hr
  cases x <;> first | exact absurd rfl hn | exact hr

/-- An attribute of type `Optional[T]`, as it is used. -/
structure Attr (c : Nat) (t : Ty) (kvs : List (Str × Json)) (name : Str) (a : Option α) : Prop where
  absent : Absent name kvs → a = Option.none
  present : ∀ x, lookupKey name kvs = some x → x ≠ .null → a ≠ Option.none

theorem attr_of {c : Nat} {kvs : List (Str × Json)} {vs : List (Str × Val)} (h : ReadFrom c kvs vs) (name : Str) (t : Ty)
    (hf : ∀ cd, schemaEnv.classes[c]? = some cd →
      ∃ fw, cd.kind = .dataclass false ∧ fieldToProperty name Option.none = name ∧ (optTy t).required = t ∧
        cd.hints.find? (fun g => g.name = name) = some { name := name, ty := optTy t, fwd := fw })
    (hl : ∀ x w, loads schemaEnv false t x = .ok w → w ≠ .none) {f : Val → Option α} {a : Option α}
    (ha : optAttr f (attrOf name vs) = some a) : Attr c t kvs name a := by
  refine ⟨fun hx => ?_, fun x hx hn he => ?_⟩
  · obtain ⟨w, hw, h1⟩ := h.opt name t hf
    rcases h1 with rfl | ⟨x, h1, _⟩
    · rw [hw] at ha; cases ha; rfl
    · rw [hx] at h1; cases h1
  · subst he
    have := hl _ _ (h.present name t hf hx hn)
    generalize attrOf name vs = w at this ha
    cases w <;> first | exact this rfl | (simp only [optAttr] at ha; split at ha <;> cases ha)

theorem not_none_bool (x : Json) (w : Val) (h : loads schemaEnv false .bool x = .ok w) : w ≠ .none := by
  obtain ⟨s, _, rfl⟩ := loads_bool_json h; simp
theorem not_none_str (x : Json) (w : Val) (h : loads schemaEnv false .str x = .ok w) : w ≠ .none := by
  obtain ⟨s, _, rfl⟩ := loads_str_json h; simp
theorem not_none_int (x : Json) (w : Val) (h : loads schemaEnv false .int x = .ok w) : w ≠ .none := by
  replace h := loads_int_json h
  rintro rfl
  unfold parseInt at h
  repeat' (split at h)
  all_goals cases h
theorem not_none_float (x : Json) (w : Val) (h : loads schemaEnv false .float x = .ok w) : w ≠ .none := by
  rintro rfl
  have h : parseFloat x = .ok .none := by cases x <;> exact h
  unfold parseFloat at h
  repeat' (split at h)
  all_goals cases h
theorem not_none_list (t : Ty) (x : Json) (w : Val) (h : loads schemaEnv false (.list t) x = .ok w) : w ≠ .none := by
  obtain ⟨_, vs, _, rfl, _⟩ := loads_list_json h; simp

theorem ReadAs.bool_attrs {kvs : List (Str × Json)} {c d : Option Bool} (h : ReadAs (.obj kvs) (.bool c d)) :
    Attr 1 .bool kvs c!"const" c ∧ Attr 1 .bool kvs c!"default" d := by
  obtain ⟨_, vs, cd, he, hr, -, -, hno⟩ := h.inv
  cases he
  have hno : nodeOf 1 vs (toAttrs vs) = some (.bool c d) := hno
  unfold nodeOf at hno
  rw [if_neg (by decide), if_pos (by decide)] at hno
  split at hno
  · rename_i h1 h2
    cases hno
    exact ⟨attr_of hr _ _ (by node_opt) not_none_bool h1, attr_of hr _ _ (by node_opt) not_none_bool h2⟩
  · cases hno

theorem ReadAs.int_attrs {kvs : List (Str × Json)} {f : Option Str} {c d : Option Int} {e : Option (List Int)} {lo hi : Option Int}
    (h : ReadAs (.obj kvs) (.int f c d e lo hi)) :
    Attr 2 .str kvs c!"format" f ∧ Attr 2 .int kvs c!"const" c ∧ Attr 2 .int kvs c!"default" d ∧
      Attr 2 (.list .int) kvs c!"enum" e ∧ Attr 2 .int kvs c!"minimum" lo ∧ Attr 2 .int kvs c!"maximum" hi := by
  obtain ⟨_, vs, cd, he, hr, -, -, hno⟩ := h.inv
  cases he
  have hno : nodeOf 2 vs (toAttrs vs) = some (.int f c d e lo hi) := hno
  unfold nodeOf at hno
  rw [if_neg (by decide), if_neg (by decide), if_pos (by decide)] at hno
  split at hno
  · rename_i h1 h2 h3 h4 h5 h6
    cases hno
    exact ⟨attr_of hr _ _ (by node_opt) not_none_str h1, attr_of hr _ _ (by node_opt) not_none_int h2,
      attr_of hr _ _ (by node_opt) not_none_int h3, attr_of hr _ _ (by node_opt) (not_none_list _) h4,
      attr_of hr _ _ (by node_opt) not_none_int h5, attr_of hr _ _ (by node_opt) not_none_int h6⟩
  · cases hno

theorem ReadAs.num_attrs {kvs : List (Str × Json)} {f : Option Str} {c d lo hi m : Option PyFloat}
    (h : ReadAs (.obj kvs) (.num f c d lo hi m)) :
    Attr 3 .str kvs c!"format" f ∧ Attr 3 .float kvs c!"const" c ∧ Attr 3 .float kvs c!"default" d ∧
      Attr 3 .float kvs c!"multipleOf" m := by
  obtain ⟨_, vs, cd, he, hr, -, -, hno⟩ := h.inv
  cases he
  have hno : nodeOf 3 vs (toAttrs vs) = some (.num f c d lo hi m) := hno
  unfold nodeOf at hno
  rw [if_neg (by decide), if_neg (by decide), if_neg (by decide), if_pos (by decide)] at hno
  split at hno
  · rename_i h1 h2 h3 h4 h5 h6
    cases hno
    exact ⟨attr_of hr _ _ (by node_opt) not_none_str h1, attr_of hr _ _ (by node_opt) not_none_float h2,
      attr_of hr _ _ (by node_opt) not_none_float h3, attr_of hr _ _ (by node_opt) not_none_float h6⟩
  · cases hno

theorem ReadAs.str_attrs {kvs : List (Str × Json)} {f c d : Option Str} {e : Option (List Str)} {m : Option Int}
    (h : ReadAs (.obj kvs) (.str f c d e m)) :
    Attr 4 .str kvs c!"format" f ∧ Attr 4 .str kvs c!"const" c ∧ Attr 4 .str kvs c!"default" d ∧
      Attr 4 (.list .str) kvs c!"enum" e ∧ Attr 4 .int kvs c!"maxLength" m ∧
      ∀ s, f = some s → lookupKey c!"format" kvs = some (.str s) := by
  obtain ⟨_, vs, cd, he, hr, -, -, hno⟩ := h.inv
  cases he
  have hno : nodeOf 4 vs (toAttrs vs) = some (.str f c d e m) := hno
  unfold nodeOf at hno
  rw [if_neg (by decide), if_neg (by decide), if_neg (by decide), if_neg (by decide), if_pos (by decide)] at hno
  split at hno
  · rename_i h1 h2 h3 h4 h5
    cases hno
    exact ⟨attr_of hr _ _ (by node_opt) not_none_str h1, attr_of hr _ _ (by node_opt) not_none_str h2,
      attr_of hr _ _ (by node_opt) not_none_str h3, attr_of hr _ _ (by node_opt) (not_none_list _) h4,
      attr_of hr _ _ (by node_opt) not_none_int h5, hr.strAttr _ (by node_opt) h1⟩
  · cases hno

/-! ### Vocabularies -/

theorem ReadAs.vocabulary {kvs : List (Str × Json)} {n : TNode} (h : ReadAs (.obj kvs) n) : ∃ V ∈ vocabularies, V.Has kvs := by
  have hw := h.words
  have hr : ∃ vs, ReadFrom n.classNo kvs vs := by
    obtain ⟨_, vs, _, he, hr, _⟩ := h.inv
    cases he
    exact ⟨vs, hr⟩
  obtain ⟨vs, hr⟩ := hr
  have ht : ∀ k, k ∉ n.words → lookupKey k kvs = Option.none := by
    intro k hk
    cases hx : lookupKey k kvs with
    | none => rfl
    | some x => exact absurd (lookup_words hw hx) hk
  have key : ∀ V, V ∈ vocabularies → lookupKey c!"type" kvs = V.type.map Json.str → (∀ k ∈ V.needed, ¬ Absent k kvs) →
      (∀ k ∈ n.words, k ∈ V.words) → ∃ V ∈ vocabularies, V.Has kvs :=
    fun V hV h1 h2 h3 => ⟨V, hV, h1, h2, fun kv hkv => h3 _ (hw kv hkv)⟩
  cases n with
  | ref r =>
    refine key vocabularies[0] (by simp [vocabularies]) (ht _ (by simp only [TNode.words]; decide)) ?_ (by simp only [TNode.words]; decide)
    intro k hk
    rw [List.mem_singleton.1 hk, Absent, h.ref_inv]
    simp
  | bool c d =>
    exact key vocabularies[1] (by simp [vocabularies]) (hr.typeAttr _ (by intro cd hcd; cases hcd; exact ⟨rfl, rfl⟩)) (by simp [vocabularies])
      (by simp only [TNode.words]; decide)
  | int =>
    exact key vocabularies[2] (by simp [vocabularies]) (hr.typeAttr _ (by intro cd hcd; cases hcd; exact ⟨rfl, rfl⟩)) (by simp [vocabularies])
      (by simp only [TNode.words]; decide)
  | num =>
    exact key vocabularies[3] (by simp [vocabularies]) (hr.typeAttr _ (by intro cd hcd; cases hcd; exact ⟨rfl, rfl⟩)) (by simp [vocabularies])
      (by simp only [TNode.words]; decide)
  | str =>
    exact key vocabularies[4] (by simp [vocabularies]) (hr.typeAttr _ (by intro cd hcd; cases hcd; exact ⟨rfl, rfl⟩)) (by simp [vocabularies])
      (by simp only [TNode.words]; decide)
  | arr n =>
    refine key vocabularies[5] (by simp [vocabularies]) (hr.typeAttr _ (by intro cd hcd; cases hcd; exact ⟨rfl, rfl⟩)) ?_
      (by simp only [TNode.words]; decide)
    intro k hk
    obtain ⟨x, hx, _⟩ := h.arr_inv
    rw [List.mem_singleton.1 hk, Absent, hx]
    simp
  | obj =>
    exact key vocabularies[6] (by simp [vocabularies]) (hr.typeAttr _ (by intro cd hcd; cases hcd; exact ⟨rfl, rfl⟩)) (by simp [vocabularies])
      (by simp only [TNode.words]; decide)
  | oneOf ns =>
    refine key vocabularies[7] (by simp [vocabularies]) (ht _ (by simp only [TNode.words]; decide)) ?_ (by simp only [TNode.words]; decide)
    intro k hk
    obtain ⟨x, hx, _⟩ := h.oneOf_inv
    rw [List.mem_singleton.1 hk, Absent, hx]
    simp

/-! ### Names in the module -/

/-- The attributes of the module are known. -/
def NamesIn (Known : Str → Prop) (attrs : List (Str × Ty)) : Prop := ∀ k T, lookupKey k attrs = some T → Known k

theorem NamesIn.set {attrs : List (Str × Ty)} {ctx : Str} {t : Ty} (h : NamesIn Known attrs) (hc : Known ctx) :
    NamesIn Known (upsert ctx t attrs) := by
  intro k T hk
  rw [lookupKey_upsert] at hk
  split at hk
  · rename_i he; exact he ▸ hc
  · exact h k T hk

/-- Making a type keeps what is known about names. -/
def KeepsNames (cfg : BuildCfg) (Known : Str → Prop) (n : TNode) : Prop :=
  ∀ ctx st D st', Known ctx → NamesIn Known st.attrs → nodeToTypedef cfg n ctx st = .ok (D, st') → NamesIn Known st'.attrs

theorem typeWithDefault_st {st st' : BuildSt} {t : Ty} {j : Option Json} {D : TypeDef} (h : typeWithDefault st t j = .ok (D, st')) :
    st' = st ∧ D.ty = t ∧ (j ≠ Option.none → D.dflt.isSome = true) := by
  unfold typeWithDefault at h
  split at h
  · cases h
  · rename_i d hd
    cases h
    refine ⟨rfl, rfl, fun hj => ?_⟩
    cases j with
    | none => exact absurd rfl hj
    | some j =>
      simp only [jsonToValue] at hd
      split at hd <;> cases hd
      rfl

theorem refTypedef_known {st st' : BuildSt} {r : Str} {D : TypeDef} (h : refTypedef cfg st r = .ok (D, st')) :
    st' = st ∧ ∃ n, refTarget cfg.word r = some n ∧ lookupKey n st.attrs = some D.ty := by
  unfold refTypedef at h
  split at h
  · cases h
  · rename_i n hn
    split at h
    · rename_i t ht; cases h; exact ⟨rfl, n, hn, ht⟩
    · cases h

theorem stringType_keeps {ctx : Str} {st st' : BuildSt} {f : Option Str} {e : Option (List Str)} {m : Option Int} {t : Ty}
    (hc : Known ctx) (hs : NamesIn Known st.attrs) (h : stringType cfg ctx st f e m = .ok (t, st')) : NamesIn Known st'.attrs := by
  unfold stringType at h
  split at h
  · cases h; exact hs
  split at h
  · unfold makeEnum at h
    split at h
    · cases h
    split at h
    · cases h
    · cases h; exact hs.set hc
  split at h <;> cases h <;> exact hs

theorem makeDataclass_ok {ctx : Str} {st st' : BuildSt} {fs : List FieldDef} {D : TypeDef}
    (h : makeDataclass cfg st ctx fs = .ok (D, st')) :
    checkFieldNames cfg [] (fs.map (·.name)) = .ok () ∧ ∃ t, st'.attrs = upsert ctx t st.attrs := by
  unfold makeDataclass at h
  split at h
  · cases h
  rename_i u hu
  split at h
  · cases h
  split at h
  · cases h
  cases h
  exact ⟨hu, _, rfl⟩

theorem members_each {ctx : Str} (hc : Known ctx) : ∀ (ns : List TNode), (∀ n ∈ ns, KeepsNames cfg Known n) →
    ∀ st ds st', NamesIn Known st.attrs → memberTypedefs cfg ns ctx st = .ok (ds, st') →
    NamesIn Known st'.attrs ∧ (∀ n ∈ ns, ∃ st1 D st2, NamesIn Known st1.attrs ∧ nodeToTypedef cfg n ctx st1 = .ok (D, st2) ∧ D ∈ ds) ∧
      (ns = [] → ds = []) := by
  intro ns
  induction ns with
  | nil =>
    intro _ st ds st' hs h
    cases h
    exact ⟨hs, by simp, fun _ => rfl⟩
  | cons n ns ih =>
    intro hk st ds st' hs h
    unfold memberTypedefs at h
    split at h
    · cases h
    rename_i D st1 hD
    split at h
    · cases h
    rename_i ds' st2 hds
    cases h
    have h1 := hk n (by simp) ctx st D st1 hc hs hD
    obtain ⟨r1, r2, _⟩ := ih (fun m hm => hk m (by simp [hm])) st1 ds' st' h1 hds
    refine ⟨r1, fun m hm => ?_, fun he => by cases he⟩
    rcases List.mem_cons.1 hm with rfl | hm
    · exact ⟨st, D, st1, hs, hD, by simp⟩
    · obtain ⟨s1, D1, s2, a1, a2, a3⟩ := r2 m hm
      exact ⟨s1, D1, s2, a1, a2, by simp [a3]⟩

theorem props_each {ctx : Str} (hp : ∀ c p, Known (propContext c p)) (req : List Str) : ∀ (ps : List (Str × TNode)),
    (∀ p ∈ ps, KeepsNames cfg Known p.2) →
    ∀ st fs st', NamesIn Known st.attrs → propTypedefs cfg ps ctx req st = .ok (fs, st') →
    NamesIn Known st'.attrs ∧ fs.map (·.name) = ps.map (·.1) ∧
      ∀ p ∈ ps, ∃ st1 r, NamesIn Known st1.attrs ∧ nodeToTypedef cfg p.2 (propContext ctx p.1) st1 = .ok r := by
  intro ps
  induction ps with
  | nil =>
    intro _ st ds st' hs h
    cases h
    exact ⟨hs, rfl, by simp⟩
  | cons p ps ih =>
    obtain ⟨name, n⟩ := p
    intro hk st ds st' hs h
    unfold propTypedefs at h
    split at h
    · cases h
    rename_i D st1 hD
    split at h
    · cases h
    rename_i f hf
    split at h
    · cases h
    rename_i ds' st2 hds
    cases h
    have h1 := hk (name, n) (by simp) _ st D st1 (hp ctx name) hs hD
    obtain ⟨r1, r2, r3⟩ := ih (fun m hm => hk m (by simp [hm])) st1 ds' st' h1 hds
    refine ⟨r1, ?_, fun m hm => ?_⟩
    · have : f.name = name := by
        unfold propField at hf
        split at hf <;> cases hf
        rfl
      simp [r2, this]
    · rcases List.mem_cons.1 hm with rfl | hm
      · exact ⟨st, _, hs, hD⟩
      · exact r3 m hm

theorem node_keeps (hp : ∀ c p, Known (propContext c p)) (n : TNode) : KeepsNames cfg Known n := by
  generalize hsz : sizeOf n = sz
  induction sz using Nat.strongRecOn generalizing n with
  | _ sz ih =>
    subst hsz
    intro ctx st D st' hc hs h
    cases n with
    | ref r => rw [(refTypedef_known h).1]; exact hs
    | bool c d =>
      have h : boolTypedef st c d = .ok (D, st') := h
      unfold boolTypedef at h
      split at h
      · cases h; exact hs
      · rw [(typeWithDefault_st h).1]; exact hs
    | int f c d e lo hi =>
      have h : intTypedef st _ d = .ok (D, st') := h
      unfold intTypedef at h
      split at h
      · cases h
      · cases h; exact hs
      · rw [(typeWithDefault_st h).1]; exact hs
    | num f c d lo hi m =>
      have h : numTypedef st f c d lo hi m = .ok (D, st') := h
      unfold numTypedef at h
      split at h
      · cases h
      · split at h
        · cases h
        · rw [(typeWithDefault_st h).1]; exact hs
    | str f c d e m =>
      have h : strTypedef cfg ctx st f c d e m = .ok (D, st') := h
      unfold strTypedef at h
      split at h
      · cases h; exact hs
      · split at h
        · cases h
        · rename_i t st1 ht
          rw [(typeWithDefault_st h).1]
          exact stringType_keeps hc hs ht
    | arr n =>
      simp only [nodeToTypedef] at h
      split at h
      · cases h
      · rename_i d st1 hd
        unfold listTypedef at h
        split at h <;> cases h
        exact ih _ (by simp) n rfl ctx st d _ hc hs hd
    | obj ps a req =>
      cases ps with
      | none => cases h
      | some ps =>
        simp only [nodeToTypedef] at h
        split at h
        · cases h
        split at h
        · cases h
        rename_i fs st1 hfs
        obtain ⟨_, t, ht⟩ := makeDataclass_ok h
        rw [ht]
        refine NamesIn.set ?_ hc
        refine (props_each hp _ ps (fun p hp => ih _ ?_ p.2 rfl) st fs st1 hs hfs).1
        have := List.sizeOf_lt_of_mem hp
        obtain ⟨k, n⟩ := p
        simp at this ⊢
        omega
    | oneOf ns =>
      simp only [nodeToTypedef] at h
      split at h
      · cases h
      rename_i ds st1 hds
      have : st' = st1 := by
        unfold unionTypedef at h
        split at h
        · cases h
        split at h <;> cases h
        rfl
      subst this
      refine (members_each hc ns (fun n hn => ih _ ?_ n rfl) st ds st' hs hds).1
      have := List.sizeOf_lt_of_mem hn
      simp; omega

/-! ### Failing -/

theorem refTarget_refers {r n : Str} (h : refTarget cfg.word r = some n) : Refers cfg r n := by
  obtain ⟨h1, h2⟩ := refTarget_some h
  refine ⟨⟨?_, h2⟩, ?_⟩
  · rintro rfl
    unfold refTarget at h
    simp only at h
    split at h
    · split at h
      · cases h
      · rename_i h3 h4; cases h; exact h3 rfl
      · rename_i h3 h4; cases h; exact h3 rfl
      · cases h
    · cases h
  · rcases h1 with h1 | h1
    · exact .inl h1
    · exact .inr (by rw [h1]; simp [defRef])

theorem checkFieldNames_names {ns seen : List Str} (h : checkFieldNames cfg seen ns = .ok ()) :
    ∀ n ∈ ns, ¬ BadName cfg n := by
  induction ns generalizing seen with
  | nil => simp
  | cons n ns ih =>
    unfold checkFieldNames at h
    split at h
    · cases h
    rename_i h1
    split at h
    · cases h
    rename_i h2
    split at h
    · cases h
    split at h
    · cases h
    intro m hm
    rcases List.mem_cons.1 hm with rfl | hm
    · rintro (h3 | h3)
      · simp [h3] at h1
      · exact h2 h3
    · exact ih h m hm

theorem default_some {kvs : List (Str × Json)} {n : TNode} (hd : HasDefault kvs) (hr : ReadAs (.obj kvs) n) {ctx : Str}
    {st st' : BuildSt} {D : TypeDef} (h : nodeToTypedef cfg n ctx st = .ok (D, st')) : D.dflt.isSome = true := by
  obtain ⟨hc, x, hx, hn⟩ := hd
  have hw := lookup_words hr.words hx
  cases n with
  | ref r => exact absurd hw (by simp only [TNode.words]; decide)
  | arr r => exact absurd hw (by simp only [TNode.words]; decide)
  | obj _ _ _ => exact absurd hw (by simp only [TNode.words]; decide)
  | oneOf r => exact absurd hw (by simp only [TNode.words]; decide)
  | bool c d =>
    obtain ⟨h1, h2⟩ := hr.bool_attrs
    have h : boolTypedef st c d = .ok (D, st') := h
    rw [h1.absent hc] at h
    exact (typeWithDefault_st h).2.2 (by simpa using h2.present x hx hn)
  | int f c d e lo hi =>
    obtain ⟨-, h1, h2, -⟩ := hr.int_attrs
    have h : intTypedef st _ d = .ok (D, st') := h
    rw [h1.absent hc] at h
    unfold intTypedef at h
    split at h
    · cases h
    · rename_i i hi'
      exfalso
      unfold intNodeType at hi'
      simp only at hi'
      repeat' (split at hi')
      all_goals first | cases hi' | skip
      all_goals (simp only [rangeToType, Except.ok.injEq] at hi'; repeat' (split at hi'))
      all_goals cases hi'
    · exact (typeWithDefault_st h).2.2 (by simpa using h2.present x hx hn)
  | num f c d lo hi m =>
    obtain ⟨-, h1, h2, -⟩ := hr.num_attrs
    have h : numTypedef st f c d lo hi m = .ok (D, st') := h
    rw [h1.absent hc] at h
    unfold numTypedef at h
    simp only at h
    split at h
    · cases h
    · exact (typeWithDefault_st h).2.2 (by simpa using h2.present x hx hn)
  | str f c d e m =>
    obtain ⟨-, h1, h2, -⟩ := hr.str_attrs
    have h : strTypedef cfg ctx st f c d e m = .ok (D, st') := h
    rw [h1.absent hc] at h
    unfold strTypedef at h
    simp only at h
    split at h
    · cases h
    · exact (typeWithDefault_st h).2.2 (by simpa using h2.present x hx hn)

theorem all2_mem_left {R : α → β → Prop} {xs : List α} {ys : List β} (h : All2 R xs ys) {x : α} (hx : x ∈ xs) :
    ∃ y ∈ ys, R x y := by
  induction h with
  | nil => cases hx
  | cons h1 _ ih =>
    rcases List.mem_cons.1 hx with rfl | hx
    · exact ⟨_, by simp, h1⟩
    · obtain ⟨y, hy, hr⟩ := ih hx
      exact ⟨y, by simp [hy], hr⟩

theorem ReadAs.not_words {kvs : List (Str × Json)} {n : TNode} (h : ReadAs (.obj kvs) n) {k : Str} {x : Json}
    (hx : lookupKey k kvs = some x) (hk : k ∉ n.words) : False := hk (lookup_words h.words hx)

/-- Properties of an object from which a class has been made. -/
theorem object_each {kvs xs : List (Str × Json)} {ps : Option (List (Str × TNode))} {a : Option Bool} {req : Option (List Str)}
    (hp : ∀ c p, Known (propContext c p)) (hx : lookupKey c!"properties" kvs = some (.obj xs)) (hn : (xs.map (·.1)).Nodup)
    (hi : ∀ ns, ps = some ns →
      (∃ xs, lookupKey c!"properties" kvs = some (.obj xs) ∧ ((xs.map (·.1)).Nodup → ReadAsD xs ns)) ∧
      ∀ b, a = some b → lookupKey c!"additionalProperties" kvs = some (.bool b))
    {ctx : Str} {st st' : BuildSt} {D : TypeDef} (hs : NamesIn Known st.attrs)
    (h : nodeToTypedef cfg (.obj ps a req) ctx st = .ok (D, st')) :
    lookupKey c!"additionalProperties" kvs = some (.bool false) ∧ ∀ x ∈ xs, ¬ BadName cfg x.1 ∧
      ∃ n st1 r, ReadAs x.2 n ∧ NamesIn Known st1.attrs ∧ nodeToTypedef cfg n (propContext ctx x.1) st1 = .ok r := by
  cases ps with
  | none => cases h
  | some ns =>
    obtain ⟨⟨xs', hx', hd⟩, ha⟩ := hi ns rfl
    rw [hx] at hx'
    cases hx'
    replace hd := hd hn
    simp only [nodeToTypedef] at h
    split at h
    · cases h
    rename_i hf
    split at h
    · cases h
    rename_i fs st1 hfs
    refine ⟨ha false (by simpa using hf), fun x hx => ?_⟩
    obtain ⟨-, h2, h3⟩ := props_each hp _ ns (fun p _ => node_keeps hp p.2) st fs st1 hs hfs
    obtain ⟨y, hy, he, hr⟩ := all2_mem_left hd hx
    refine ⟨?_, ?_⟩
    · refine checkFieldNames_names (makeDataclass_ok h).1 x.1 ?_
      have hm : x.1 ∈ fs.map (·.name) := by rw [h2, ← he]; exact List.mem_map_of_mem hy
      exact ((defaultsLast_perm fs).map _).mem_iff.2 hm
    · obtain ⟨s1, r, b1, b2⟩ := h3 y hy
      exact ⟨y.2, s1, r, hr, b1, he ▸ b2⟩

theorem wf_lookup {kvs : List (Str × Json)} {k : Str} {x : Json} (hw : (Json.obj kvs).Wf) (hx : lookupKey k kvs = some x) : x.Wf := by
  cases hw with
  | obj _ h => exact h _ (lookupKey_some_mem hx)

theorem wf_nodup {kvs : List (Str × Json)} (hw : (Json.obj kvs).Wf) : (kvs.map (·.1)).Nodup := by
  cases hw with
  | obj h _ => exact h

theorem noType_fails (hp : ∀ c p, Known (propContext c p)) {j : Json} (h : NoType cfg Known j) :
    ∀ n ctx st r, j.Wf → ReadAs j n → Known ctx → NamesIn Known st.attrs → nodeToTypedef cfg n ctx st ≠ .ok r := by
  induction h with
  | scalar h =>
    intro n ctx st r _ hr
    obtain ⟨kvs, rfl⟩ := hr.obj
    exact absurd rfl (h kvs)
  | words h =>
    intro n ctx st r _ hr
    obtain ⟨V, hV, h1⟩ := hr.vocabulary
    exact absurd h1 (h V hV)
  | @ref kvs r hx h =>
    rintro n ctx st ⟨D, st'⟩ _ hr hc hs hok
    cases n <;> first | exact hr.not_words hx (by simp only [TNode.words]; decide) | skip
    rename_i r'
    have := hr.ref_inv
    rw [hx] at this
    cases this
    obtain ⟨_, n, h1, h2⟩ := refTypedef_known hok
    exact h n (refTarget_refers h1) (hs n _ h2)
  | @items kvs x hx _ ih =>
    rintro n ctx st ⟨D, st'⟩ hw hr hc hs hok
    cases n <;> first | exact hr.not_words hx (by simp only [TNode.words]; decide) | skip
    rename_i n
    obtain ⟨y, hy, hr'⟩ := hr.arr_inv
    rw [hx] at hy
    cases hy
    simp only [nodeToTypedef] at hok
    split at hok
    · cases hok
    · rename_i d st1 hd
      exact ih n ctx st _ (wf_lookup hw hx) hr' hc hs hd
  | @itemsDefault kvs kws hx hd =>
    rintro n ctx st ⟨D, st'⟩ hw hr hc hs hok
    cases n <;> first | exact hr.not_words hx (by simp only [TNode.words]; decide) | skip
    rename_i n
    obtain ⟨y, hy, hr'⟩ := hr.arr_inv
    rw [hx] at hy
    cases hy
    simp only [nodeToTypedef] at hok
    split at hok
    · cases hok
    · rename_i d st1 hd'
      unfold listTypedef at hok
      rw [if_pos (default_some hd hr' hd')] at hok
      cases hok
  | @«open» kvs xs hx h =>
    rintro n ctx st ⟨D, st'⟩ hw hr hc hs hok
    cases n <;> first | exact hr.not_words hx (by simp only [TNode.words]; decide) | skip
    exact h (object_each hp hx (wf_nodup (wf_lookup hw hx)) (fun ns he => by subst he; exact hr.obj_inv) hs hok).1
  | @name kvs xs x hx hm h =>
    rintro n ctx st ⟨D, st'⟩ hw hr hc hs hok
    cases n <;> first | exact hr.not_words hx (by simp only [TNode.words]; decide) | skip
    exact ((object_each hp hx (wf_nodup (wf_lookup hw hx)) (fun ns he => by subst he; exact hr.obj_inv) hs hok).2 x hm).1 h
  | @property kvs xs x hx hm _ ih =>
    rintro n ctx st ⟨D, st'⟩ hw hr hc hs hok
    cases n <;> first | exact hr.not_words hx (by simp only [TNode.words]; decide) | skip
    obtain ⟨n, s1, r, h1, h2, h3⟩ :=
      ((object_each hp hx (wf_nodup (wf_lookup hw hx)) (fun ns he => by subst he; exact hr.obj_inv) hs hok).2 x hm).2
    have hwx : x.2.Wf := by
      cases wf_lookup hw hx with
      | obj _ h => exact h x hm
    exact ih n _ s1 r hwx h1 (hp _ _) h2 h3
  | @never kvs hx =>
    rintro n ctx st ⟨D, st'⟩ hw hr hc hs hok
    cases n <;> first | exact hr.not_words hx (by simp only [TNode.words]; decide) | skip
    rename_i ns
    obtain ⟨y, hy, ha⟩ := hr.oneOf_inv
    rw [hx] at hy
    cases hy
    cases ha
    cases hok
  | @member kvs xs x hx hm _ ih =>
    rintro n ctx st ⟨D, st'⟩ hw hr hc hs hok
    cases n <;> first | exact hr.not_words hx (by simp only [TNode.words]; decide) | skip
    rename_i ns
    obtain ⟨y, hy, ha⟩ := hr.oneOf_inv
    rw [hx] at hy
    cases hy
    simp only [nodeToTypedef] at hok
    split at hok
    · cases hok
    rename_i ds st1 hds
    obtain ⟨m, hm', hr'⟩ := all2_mem_left ha hm
    obtain ⟨s1, D1, s2, h1, h2, _⟩ := (members_each hc ns (fun n _ => node_keeps hp n) st ds st1 hs hds).2.1 m hm'
    have hwx : x.Wf := by
      cases wf_lookup hw hx with
      | arr h => exact h x hm
    exact ih m ctx s1 _ hwx hr' hc h1 h2
  | @memberDefault kvs xs kws hx hm hd =>
    rintro n ctx st ⟨D, st'⟩ hw hr hc hs hok
    cases n <;> first | exact hr.not_words hx (by simp only [TNode.words]; decide) | skip
    rename_i ns
    obtain ⟨y, hy, ha⟩ := hr.oneOf_inv
    rw [hx] at hy
    cases hy
    simp only [nodeToTypedef] at hok
    split at hok
    · cases hok
    rename_i ds st1 hds
    obtain ⟨m, hm', hr'⟩ := all2_mem_left ha hm
    obtain ⟨s1, D1, s2, h1, h2, h3⟩ := (members_each hc ns (fun n _ => node_keeps hp n) st ds st1 hs hds).2.1 m hm'
    have hd1 := default_some hd hr' h2
    unfold unionTypedef at hok
    rw [if_pos (List.any_eq_true.2 ⟨D1, h3, hd1⟩)] at hok
    cases hok

/-! ### Documents -/

theorem definitions_each (hp : ∀ c p, Known (propContext c p)) : ∀ (ds : List (Str × TNode)) st st', (∀ d ∈ ds, Known d.1) →
    NamesIn Known st.attrs → buildDefinitions cfg ds st = .ok st' →
    NamesIn Known st'.attrs ∧ ∀ d ∈ ds, ∃ st1 D st2 st3, NamesIn Known st1.attrs ∧
      nodeToTypedef cfg d.2 d.1 st1 = .ok (D, st2) ∧ D.dflt.isSome = false ∧ setModule cfg st2 D.ty = .ok st3 := by
  intro ds
  induction ds with
  | nil =>
    intro st st' _ hs h
    cases h
    exact ⟨hs, by simp⟩
  | cons d ds ih =>
    obtain ⟨name, n⟩ := d
    intro st st' hk hs h
    unfold buildDefinitions at h
    split at h
    · cases h
    rename_i D st1 hD
    split at h
    · cases h
    rename_i hdf
    split at h
    · cases h
    rename_i st2 hm
    have h1 := node_keeps hp n name st D st1 (hk (name, n) (by simp)) hs hD
    obtain ⟨r1, r2⟩ := ih { st2 with attrs := upsert name D.ty st2.attrs } st' (fun d hd => hk d (by simp [hd]))
      (by
        refine NamesIn.set ?_ (hk (name, n) (by simp))
        rw [(setModule_ok hm).2]
        exact h1) h
    refine ⟨r1, fun d hd => ?_⟩
    rcases List.mem_cons.1 hd with rfl | hd
    · exact ⟨st, D, st1, st2, hs, hD, by simpa using hdf, hm⟩
    · exact r2 d hd

theorem immovable_fails {kvs : List (Str × Json)} {n : TNode} (hi : Immovable kvs) (hr : ReadAs (.obj kvs) n) {ctx : Str}
    {st st' st'' : BuildSt} {D : TypeDef} (h : nodeToTypedef cfg n ctx st = .ok (D, st')) : setModule cfg st' D.ty ≠ .ok st'' := by
  intro hm
  have bad : ∀ t, D.ty = t → (∀ s, setModule cfg st' t ≠ .ok s) → False := fun t ht h => h st'' (ht ▸ hm)
  cases hi with
  | array ht =>
    have hc := hr.typed ht
    cases n <;> simp only [TNode.classNo] at hc <;> first | exact absurd hc (by decide) | skip
    simp only [nodeToTypedef] at h
    split at h
    · cases h
    unfold listTypedef at h
    split at h <;> cases h
    exact bad _ rfl (fun s => by simp [setModule])
  | bool ht h0 =>
    have hc := hr.typed ht
    cases n <;> simp only [TNode.classNo] at hc <;> first | exact absurd hc (by decide) | skip
    rename_i c d
    have h : boolTypedef st c d = .ok (D, st') := h
    rw [hr.bool_attrs.1.absent h0] at h
    exact bad _ (typeWithDefault_st h).2.1 (fun s => by simp [setModule])
  | integer ht h0 h1 h2 h3 =>
    have hc := hr.typed ht
    cases n <;> simp only [TNode.classNo] at hc <;> first | exact absurd hc (by decide) | skip
    rename_i f c d e lo hi
    obtain ⟨a1, a2, a3, a4, a5, a6⟩ := hr.int_attrs
    have h : intTypedef st { format := f, const := c, enum := e, minimum := lo, maximum := hi } d = .ok (D, st') := h
    rw [a1.absent h1, a2.absent h0, a4.absent h2] at h
    have hi : intNodeType { format := Option.none, const := Option.none, enum := Option.none, minimum := lo, maximum := hi } = .ok .int := by
      rcases h3 with h3 | h3
      · rw [a5.absent h3]; rfl
      · rw [a6.absent h3]; cases lo <;> rfl
    unfold intTypedef at h
    rw [hi] at h
    exact bad .int (typeWithDefault_st h).2.1 (fun s => by simp [setModule])
  | number ht h0 h1 h2 =>
    have hc := hr.typed ht
    cases n <;> simp only [TNode.classNo] at hc <;> first | exact absurd hc (by decide) | skip
    rename_i f c d lo hi m
    obtain ⟨a1, a2, a3, a4⟩ := hr.num_attrs
    have h : numTypedef st f c d lo hi m = .ok (D, st') := h
    rw [a1.absent h1, a2.absent h0, a4.absent h2] at h
    unfold numTypedef at h
    simp only at h
    split at h
    · cases h
    · rename_i t hnt
      have : t = .float := by
        unfold numberType at hnt
        rw [if_neg (by simp), if_neg (by simp)] at hnt
        split at hnt
        · cases hnt
        · simp only [decimalDigits, Bool.and_false, Bool.false_eq_true, if_false] at hnt
          cases hnt
          rfl
      subst this
      exact bad .float (typeWithDefault_st h).2.1 (fun s => by simp [setModule])
  | time ht h0 h1 =>
    have hc := hr.typed ht
    cases n <;> simp only [TNode.classNo] at hc <;> first | exact absurd hc (by decide) | skip
    rename_i f c d e m
    obtain ⟨a1, a2, a3, a4, a5, a6⟩ := hr.str_attrs
    have h : strTypedef cfg ctx st f c d e m = .ok (D, st') := h
    rw [a2.absent h0] at h
    obtain ⟨s, hs, hl⟩ := h1
    have hf : f = some s := by
      cases hf : f with
      | none => exact absurd hf (a1.present _ hl (by simp))
      | some s' => have := a6 s' hf; rw [hl] at this; cases this; rfl
    subst hf
    unfold strTypedef at h
    simp only at h
    split at h
    · cases h
    rename_i t st1 hst
    refine bad t (typeWithDefault_st h).2.1 ?_
    simp only [List.mem_cons, List.not_mem_nil, or_false] at hs
    rcases hs with rfl | rfl | rfl | rfl <;> (cases hst; intro s; simp [setModule])
  | text ht h0 h1 h2 h3 =>
    have hc := hr.typed ht
    cases n <;> simp only [TNode.classNo] at hc <;> first | exact absurd hc (by decide) | skip
    rename_i f c d e m
    obtain ⟨a1, a2, a3, a4, a5, a6⟩ := hr.str_attrs
    have h : strTypedef cfg ctx st f c d e m = .ok (D, st') := h
    rw [a2.absent h0, a1.absent h1, a4.absent h2, a5.absent h3] at h
    have h : typeWithDefault st .str (d.map Json.str) = .ok (D, st') := h
    exact bad .str (typeWithDefault_st h).2.1 (fun s => by simp [setModule])

theorem top_definitions {kvs : List (Str × Json)} {vs : List (Str × Val)} (hr : ReadFrom nTop kvs vs) (hw : (Json.obj kvs).Wf)
    {ds : Option (List (Str × TNode))}
    (h : optDict (attrOf c!"definitions" vs) (nodeAttrOf c!"definitions" (toAttrs vs)) = some ds) :
    ReadAsD (schemaDefs (.obj kvs)) (ds.getD []) := by
  unfold schemaDefs
  cases ds with
  | some ns =>
    obtain ⟨xs, hx, hd⟩ := hr.dict_inv c!"definitions" (by intro cd hcd; cases hcd; exact ⟨false, rfl, by decide, rfl, rfl⟩) h
    simp only [hx]
    exact hd (wf_nodup (wf_lookup hw hx))
  | none =>
    simp only
    split
    · rename_i xs hx
      have := hr.present c!"definitions" (.dict .str anyNodeTy)
        (by intro cd hcd; cases hcd; exact ⟨false, rfl, by decide, rfl, rfl⟩) hx (by simp)
      obtain ⟨us, he, _⟩ := loads_dict_json (wf_nodup (wf_lookup hw hx)) this
      rw [he] at h
      unfold optDict at h
      split at h
      · cases ‹Val.dict us = .none›
      · cases h
      · cases h
    · exact .nil

theorem document_fails {kvs : List (Str × Json)} (h : NoTypeDocument cfg kvs) (hw : (Json.obj kvs).Wf) (name : Str) (env : Env)
    (r : Ty × BuildSt) : schemaToType cfg name (.obj kvs) ⟨env, [], []⟩ ≠ .ok r := by
  intro hok
  unfold schemaToType at hok
  split at hok
  · cases hok
  rename_i top htop
  split at hok
  · cases hok
  rename_i st1 hst1
  split at hok
  · cases hok
  rename_i D st2 hD
  obtain ⟨_, vs, he, hr, hwords, hnode, hdefs⟩ := top_inv htop
  cases he
  have hp : ∀ c p, Referable (.obj kvs) (propContext c p) := fun c p => .inr ⟨c, p, rfl⟩
  have hds := top_definitions hr hw hdefs
  obtain ⟨hs1, heach⟩ := definitions_each (Known := Referable (.obj kvs)) hp _ _ _ (by
      intro d hd
      refine .inl ?_
      have : (schemaDefs (.obj kvs)).map (·.1) = (top.definitions.getD []).map (·.1) := by
        clear hst1 hd
        generalize schemaDefs (.obj kvs) = xs at hds
        generalize top.definitions.getD [] = ys at hds
        induction hds with
        | nil => rfl
        | cons h1 _ ih => simp [ih, h1.1]
      rw [this]
      exact List.mem_map_of_mem hd) (by intro k T hk; cases hk) hst1
  have hobj : ∃ ps a req, top.node = .obj ps a req := by
    unfold objectNode at hnode
    split at hnode
    · exact ⟨_, _, _, (Option.some.inj hnode).symm⟩
    · cases hnode
  obtain ⟨ps, a, req, hn⟩ := hobj
  rw [hn] at hD hnode
  have hprops : ∀ xs, lookupKey c!"properties" kvs = some (.obj xs) → _ := fun xs hx =>
    object_each (cfg := cfg) hp hx (wf_nodup (wf_lookup hw hx)) (fun ns he => by subst he; exact object_inv (.inr rfl) hr hnode) hs1 hD
  cases h with
  | words h =>
    refine h ⟨hr.typeAttr _ (by intro cd hcd; cases hcd; exact ⟨rfl, rfl⟩), ?_, ?_⟩
    · intro k hk
      rw [List.mem_singleton.1 hk]
      obtain ⟨w, x, _, hx, _⟩ := hr.req { name := c!"schema", ty := .annotated .str [.alias c!"$schema"] } c!"$schema" (by
        intro cd hcd; cases hcd; exact ⟨rfl, by decide, rfl, rfl, rfl⟩)
      rw [Absent, hx]
      simp
    · exact fun kv hkv => (by decide : ∀ k ∈ [c!"title", c!"description", c!"type", c!"properties", c!"$schema", c!"definitions"] ++ objKeywords.map (·.1), k ∈ documentVocabulary.words) _ (hwords kv hkv)
  | @definition x hx h =>
    obtain ⟨y, hy, he, hrx⟩ := all2_mem_left hds hx
    obtain ⟨s1, D1, s2, s3, b1, b2, _⟩ := heach y hy
    refine noType_fails hp h y.2 y.1 s1 _ ?_ hrx (.inl (he ▸ List.mem_map_of_mem hx)) b1 b2
    unfold schemaDefs at hx
    simp only at hx
    split at hx
    · rename_i ds hl
      cases wf_lookup hw hl with
      | obj _ h => exact h x hx
    · cases hx
  | @definitionDefault n kws hx h =>
    obtain ⟨y, hy, he, hrx⟩ := all2_mem_left hds hx
    obtain ⟨s1, D1, s2, s3, b1, b2, b3, b4⟩ := heach y hy
    rw [default_some h hrx b2] at b3
    cases b3
  | @immovable n kws hx h =>
    obtain ⟨y, hy, he, hrx⟩ := all2_mem_left hds hx
    obtain ⟨s1, D1, s2, s3, b1, b2, b3, b4⟩ := heach y hy
    exact immovable_fails h hrx b2 b4
  | «open» hx h => exact h (hprops _ hx).1
  | @name xs x hx hm h => exact ((hprops _ hx).2 x hm).1 h
  | @property xs x hx hm h =>
    obtain ⟨n, s1, r, h1, h2, h3⟩ := ((hprops _ hx).2 x hm).2
    refine noType_fails hp h n _ s1 r ?_ h1 (hp _ _) h2 h3
    cases wf_lookup hw hx with
    | obj _ h => exact h x hm

end Verif
