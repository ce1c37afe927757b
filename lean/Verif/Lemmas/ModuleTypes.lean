import Verif.Spec.ModuleTypes
import Verif.Lemmas.ClassBuildNames
import Verif.Lemmas.NodeInv
/-!
# Types that are made in a module: what each step adds
-/
namespace Verif

/-- Classes and enumerations are added, with names of a kind; attributes change only to such types, and these are found. -/
structure Enlarges (m : Str) (P X : Str → Prop) (a b : BuildSt) : Prop where
  classes : ∃ cs, b.env.classes = a.env.classes ++ cs ∧ ∀ cd ∈ cs, cd.module = m ∧ P cd.name
  enums : ∃ es, b.env.enums = a.env.enums ++ es ∧ ∀ ed ∈ es, ed.module = m ∧ P ed.name
  order : b.env.setOrder = a.env.setOrder
  attrs : ∀ n, ¬ X n → lookupKey n b.attrs = lookupKey n a.attrs ∨ ∃ T, lookupKey n b.attrs = some T ∧ NewType m a.env b.env n T
  found : ∀ n, ¬ X n → ∀ T, NewType m a.env b.env n T → ∃ T', lookupKey n b.attrs = some T' ∧ NewType m a.env b.env n T'

theorem new_none {m : Str} {a : Env} {n : Str} {T : Ty} (h : NewType m a a n T) : False := by
  cases h with
  | cls h1 h2 => have := (List.getElem?_eq_some_iff.1 h2).1; omega
  | enum h1 h2 => have := (List.getElem?_eq_some_iff.1 h2).1; omega

theorem Enlarges.refl {m : Str} {P X : Str → Prop} {a : BuildSt} : Enlarges m P X a a where
  classes := ⟨[], by simp, by simp⟩
  enums := ⟨[], by simp, by simp⟩
  order := rfl
  attrs := fun _ _ => .inl rfl
  found := fun _ _ _ h => (new_none h).elim

theorem Enlarges.imp {m : Str} {P Q X Y : Str → Prop} {a b : BuildSt} (h : Enlarges m P X a b) (hp : ∀ n, P n → Q n)
    (hx : ∀ n, X n → Y n) : Enlarges m Q Y a b where
  classes := by obtain ⟨cs, h1, h2⟩ := h.classes; exact ⟨cs, h1, fun cd hc => ⟨(h2 cd hc).1, hp _ (h2 cd hc).2⟩⟩
  enums := by obtain ⟨cs, h1, h2⟩ := h.enums; exact ⟨cs, h1, fun cd hc => ⟨(h2 cd hc).1, hp _ (h2 cd hc).2⟩⟩
  order := h.order
  attrs := fun n hn => h.attrs n fun hx' => hn (hx n hx')
  found := fun n hn => h.found n fun hx' => hn (hx n hx')

theorem new_later {m : Str} {P X : Str → Prop} {a : Env} {b c : BuildSt} (h : Enlarges m P X b c) {n : Str} {T : Ty}
    (hn : NewType m a b.env n T) : NewType m a c.env n T := by
  obtain ⟨cs, h1, -⟩ := h.classes
  obtain ⟨es, h2, -⟩ := h.enums
  cases hn with
  | cls g1 g2 g3 g4 =>
    refine .cls g1 ?_ g3 g4
    rw [h1, List.getElem?_append_left (List.getElem?_eq_some_iff.1 g2).1]; exact g2
  | enum g1 g2 g3 g4 =>
    refine .enum g1 ?_ g3 g4
    rw [h2, List.getElem?_append_left (List.getElem?_eq_some_iff.1 g2).1]; exact g2

theorem new_earlier {m : Str} {P X : Str → Prop} {a b : BuildSt} {c : Env} (h : Enlarges m P X a b) {n : Str} {T : Ty}
    (hn : NewType m b.env c n T) : NewType m a.env c n T := by
  obtain ⟨cs, h1, -⟩ := h.classes
  obtain ⟨es, h2, -⟩ := h.enums
  cases hn with
  | cls g1 g2 g3 g4 => exact .cls (by rw [h1, List.length_append] at g1; omega) g2 g3 g4
  | enum g1 g2 g3 g4 => exact .enum (by rw [h2, List.length_append] at g1; omega) g2 g3 g4

theorem new_split {m : Str} {P X : Str → Prop} {a : Env} {b c : BuildSt} (h : Enlarges m P X b c) {n : Str} {T : Ty}
    (hn : NewType m a c.env n T) : NewType m a b.env n T ∨ NewType m b.env c.env n T := by
  obtain ⟨cs, h1, -⟩ := h.classes
  obtain ⟨es, h2, -⟩ := h.enums
  cases hn with
  | @cls i cd g1 g2 g3 g4 =>
    by_cases hi : i < b.env.classes.length
    · rw [h1, List.getElem?_append_left hi] at g2; exact .inl (.cls g1 g2 g3 g4)
    · exact .inr (.cls (by omega) g2 g3 g4)
  | @enum i cd g1 g2 g3 g4 =>
    by_cases hi : i < b.env.enums.length
    · rw [h2, List.getElem?_append_left hi] at g2; exact .inl (.enum g1 g2 g3 g4)
    · exact .inr (.enum (by omega) g2 g3 g4)

theorem Enlarges.trans {m : Str} {P X : Str → Prop} {a b c : BuildSt} (h : Enlarges m P X a b) (h' : Enlarges m P X b c) :
    Enlarges m P X a c where
  classes := by
    obtain ⟨cs, h1, h2⟩ := h.classes
    obtain ⟨ds, h3, h4⟩ := h'.classes
    refine ⟨cs ++ ds, by rw [h3, h1, List.append_assoc], fun cd hc => ?_⟩
    rcases List.mem_append.1 hc with hc | hc
    · exact h2 cd hc
    · exact h4 cd hc
  enums := by
    obtain ⟨cs, h1, h2⟩ := h.enums
    obtain ⟨ds, h3, h4⟩ := h'.enums
    refine ⟨cs ++ ds, by rw [h3, h1, List.append_assoc], fun cd hc => ?_⟩
    rcases List.mem_append.1 hc with hc | hc
    · exact h2 cd hc
    · exact h4 cd hc
  order := h'.order.trans h.order
  attrs := by
    intro n hn
    rcases h'.attrs n hn with g | ⟨T, g1, g2⟩
    · rcases h.attrs n hn with k | ⟨T, k1, k2⟩
      · exact .inl (g.trans k)
      · exact .inr ⟨T, g.trans k1, new_later h' k2⟩
    · exact .inr ⟨T, g1, new_earlier h g2⟩
  found := by
    intro n hn T hT
    rcases new_split h' hT with g | g
    · obtain ⟨T', k1, k2⟩ := h.found n hn T g
      rcases h'.attrs n hn with r | ⟨T2, r1, r2⟩
      · exact ⟨T', r.trans k1, new_later h' k2⟩
      · exact ⟨T2, r1, new_earlier h r2⟩
    · obtain ⟨T', k1, k2⟩ := h'.found n hn T g
      exact ⟨T', k1, new_earlier h k2⟩

/-! ### Types of other modules -/

theorem foreign_mono {m : Str} {P X : Str → Prop} {a b : BuildSt} (h : Enlarges m P X a b) {t : Ty} (hf : Foreign m b.env t) :
    Foreign m a.env t := by
  obtain ⟨cs, h1, -⟩ := h.classes
  obtain ⟨es, h2, -⟩ := h.enums
  induction hf with
  | cls hc =>
    refine .cls fun cd hcd => hc cd ?_
    rw [h1, List.getElem?_append_left (List.getElem?_eq_some_iff.1 hcd).1]; exact hcd
  | enum hc =>
    refine .enum fun cd hcd => hc cd ?_
    rw [h2, List.getElem?_append_left (List.getElem?_eq_some_iff.1 hcd).1]; exact hcd
  | library hm => exact .library hm
  | union hm _ ih => exact .union hm ih

theorem OwnTypes.mono {m : Str} {P X : Str → Prop} {a b : BuildSt} (h : Enlarges m P X a b) {attrs : List (Str × Ty)}
    (ho : OwnTypes m a.env attrs) : OwnTypes m b.env attrs := fun n t hn hf => ho n t hn (foreign_mono h hf)

theorem OwnTypes.set {m : Str} {env : Env} {attrs : List (Str × Ty)} (ho : OwnTypes m env attrs) {n : Str} {t : Ty}
    (ht : ¬ Foreign m env t) : OwnTypes m env (upsert n t attrs) := by
  intro k T hk
  rw [lookupKey_upsert] at hk
  split at hk
  · cases hk; exact ht
  · exact ho k T hk

theorem new_own {m : Str} {a b : Env} {n : Str} {T : Ty} (h : NewType m a b n T) : ¬ Foreign m b T := by
  intro hf
  cases h with
  | cls _ h2 _ h4 =>
    cases hf with
    | cls hc => exact hc _ h2 h4
    | library hm => simp [libraryTypes] at hm
  | enum _ h2 _ h4 =>
    cases hf with
    | enum hc => exact hc _ h2 h4
    | library hm => simp [libraryTypes] at hm

theorem own_pyUnion {m : Str} {env : Env} {ts : List Ty} {t : Ty} (ho : ∀ u ∈ ts, ¬ Foreign m env u) (h : pyUnion ts = .ok t) :
    ¬ Foreign m env t := by
  have hall : ∀ u ∈ dedupTys [] (flattenUnions ts), ¬ Foreign m env u := by
    intro u hu
    rcases dedup_mem u hu with h' | h'
    · cases h'
    · rw [flattenUnions_eq, List.mem_flatMap] at h'
      obtain ⟨w, hw, hu⟩ := h'
      cases w <;> simp only [pieces, List.mem_singleton] at hu <;> first
        | (subst hu; exact ho _ hw)
        | exact fun hf => ho _ hw (.union hu hf)
  unfold pyUnion at h
  split at h
  · cases h
  · rename_i u hu
    cases h
    rw [hu] at hall
    exact hall _ (by simp)
  · rename_i us _ _
    cases h
    intro hf
    cases hf with
    | library hm => simp [libraryTypes] at hm
    | union hm hf => exact hall _ hm hf

theorem own_leaf {m : Str} {env : Env} {t : Ty} (h1 : ∀ c, t ≠ .cls c) (h2 : ∀ e, t ≠ .enum e) (h3 : ∀ ts, t ≠ .union ts)
    (h4 : ∀ f, (f, t) ∉ libraryTypes) : ¬ Foreign m env t := by
  intro hf
  cases hf with
  | cls => exact h1 _ rfl
  | enum => exact h2 _ rfl
  | library hm => exact h4 _ hm
  | union => exact h3 _ rfl

/-! ### Nodes -/

theorem makeEnum_enlarges {cfg : BuildCfg} {ctx : Str} {st st' : BuildSt} {vs : List Str} {t : Ty} {X : Str → Prop}
    (h : makeEnum cfg st ctx vs = .ok (t, st')) :
    Enlarges cfg.modName (NamedAfter ctx) X st st' ∧ NewType cfg.modName st.env st'.env ctx t ∧ st'.attrs = upsert ctx t st.attrs ∧
      st'.patched = st.patched := by
  unfold makeEnum at h
  split at h
  · cases h
  split at h
  · cases h
  rename_i ms hms
  cases h
  have hnew : NewType cfg.modName st.env { st.env with enums := st.env.enums ++ [{ module := cfg.modName, name := ctx, members := ms }] }
      ctx (.enum st.env.enums.length) := .enum (Nat.le_refl _) List.getElem?_concat_length rfl rfl
  refine ⟨⟨⟨[], by simp, by simp⟩, ⟨_, rfl, ?_⟩, rfl, ?_, ?_⟩, hnew, rfl, rfl⟩
  · intro ed hed
    rw [List.mem_singleton] at hed
    subst hed
    exact ⟨rfl, .inl rfl⟩
  · intro n _
    simp only [lookupKey_upsert]
    split
    · rename_i hn; subst hn; exact .inr ⟨_, rfl, hnew⟩
    · exact .inl rfl
  · intro n _ T hT
    have : n = ctx := by
      cases hT with
      | cls g1 g2 => have := (List.getElem?_eq_some_iff.1 g2).1; simp only at this; omega
      | enum g1 g2 g3 g4 =>
        simp only at g2
        rw [List.getElem?_append_right g1] at g2
        have := (List.getElem?_eq_some_iff.1 g2).1
        simp only [List.length_singleton, Nat.lt_one_iff] at this
        rw [this] at g2
        cases g2
        exact g3.symm
    subst this
    exact ⟨_, by simp only [lookupKey_upsert, if_true], hnew⟩

theorem makeDataclass_enlarges {cfg : BuildCfg} {ctx : Str} {st st' : BuildSt} {fs : List FieldDef} {d : TypeDef} {X : Str → Prop}
    (h : makeDataclass cfg st ctx fs = .ok (d, st')) :
    Enlarges cfg.modName (NamedAfter ctx) X st st' ∧ NewType cfg.modName st.env st'.env ctx d.ty ∧
      st'.attrs = upsert ctx d.ty st.attrs ∧ st'.patched = st.patched := by
  unfold makeDataclass at h
  split at h
  · cases h
  split at h
  · cases h
  split at h
  · cases h
  cases h
  have hnew : NewType cfg.modName st.env { st.env with classes := st.env.classes ++ [{ module := cfg.modName, name := ctx, kind := .dataclass false, fields := fs }] }
      ctx (.cls st.env.classes.length) := .cls (Nat.le_refl _) List.getElem?_concat_length rfl rfl
  refine ⟨⟨⟨_, rfl, ?_⟩, ⟨[], by simp, by simp⟩, rfl, ?_, ?_⟩, hnew, rfl, rfl⟩
  · intro ed hed
    rw [List.mem_singleton] at hed
    subst hed
    exact ⟨rfl, .inl rfl⟩
  · intro n _
    simp only [lookupKey_upsert]
    split
    · rename_i hn; subst hn; exact .inr ⟨_, rfl, hnew⟩
    · exact .inl rfl
  · intro n _ T hT
    have : n = ctx := by
      cases hT with
      | enum g1 g2 => have := (List.getElem?_eq_some_iff.1 g2).1; simp only at this; omega
      | cls g1 g2 g3 g4 =>
        simp only at g2
        rw [List.getElem?_append_right g1] at g2
        have := (List.getElem?_eq_some_iff.1 g2).1
        simp only [List.length_singleton, Nat.lt_one_iff] at this
        rw [this] at g2
        cases g2
        exact g3.symm
    subst this
    exact ⟨_, by simp only [lookupKey_upsert, if_true], hnew⟩

/-- No node within the schema has a format of a class of the library. -/
def NoLib (s : Json) : Prop :=
  ∀ kvs, (Json.obj kvs).Within s → ∀ f t, (f, t) ∈ libraryTypes → lookupKey c!"format" kvs ≠ some (.str f)

theorem NoLib.sub {s x : Json} (h : NoLib s) (hx : x.Within s) : NoLib x := fun kvs hk => h kvs (hk.trans hx)

/-- What is true of a node: the types of the module stay its own if nothing in the schema is of the library. -/
def NodeEnlarges (cfg : BuildCfg) (n : TNode) : Prop :=
  ∀ s ctx st d st', Denotes n s → OwnTypes cfg.modName st.env st.attrs → nodeToTypedef cfg n ctx st = .ok (d, st') →
    Enlarges cfg.modName (NamedAfter ctx) (fun _ => False) st st' ∧ OwnTypes cfg.modName st'.env st'.attrs ∧ st'.patched = st.patched ∧
      (NoLib s → ¬ Foreign cfg.modName st'.env d.ty)

theorem NamedAfter.prop {ctx p n : Str} (h : NamedAfter (propContext ctx p) n) : NamedAfter ctx n := by
  rcases h with rfl | ⟨r, rfl⟩
  · exact .inr ⟨p, by simp [propContext]⟩
  · exact .inr ⟨p ++ c!"__" ++ r, by simp [propContext]⟩

theorem stringType_enlarges {cfg : BuildCfg} {ctx : Str} {st st' : BuildSt} {f : Option Str} {e : Option (List Str)}
    {m : Option Int} {t : Ty} (ho : OwnTypes cfg.modName st.env st.attrs) (h : stringType cfg ctx st f e m = .ok (t, st')) :
    Enlarges cfg.modName (NamedAfter ctx) (fun _ => False) st st' ∧ OwnTypes cfg.modName st'.env st'.attrs ∧ st'.patched = st.patched ∧
      ((∀ p u, (p, u) ∈ libraryTypes → f ≠ some p) → ¬ Foreign cfg.modName st'.env t) := by
  unfold stringType at h
  split at h
  · rename_i t' hf
    cases h
    obtain ⟨p, rfl, hm⟩ := formatType_mem hf
    refine ⟨.refl, ho, rfl, fun hp => own_leaf ?_ ?_ ?_ ?_⟩
    · rintro c rfl; simp [textFormats] at hm
    · rintro c rfl; simp [textFormats] at hm
    · rintro c rfl; simp [textFormats] at hm
    · intro q hq
      have : ∀ t q, (q, t) ∈ libraryTypes → (p, t) ∈ textFormats → (p, t) ∈ libraryTypes := by
        intro t q hq hp
        simp only [libraryTypes, textFormats, List.mem_cons, Prod.mk.injEq, List.not_mem_nil, or_false] at hq hp ⊢
        rcases hq with ⟨rfl, rfl⟩ | ⟨rfl, rfl⟩ | ⟨rfl, rfl⟩ <;> simpa using hp
      exact hp p t (this t q hq hm) rfl
  · split at h
    · obtain ⟨h1, h2, h3, h4⟩ := makeEnum_enlarges (X := fun _ => False) h
      exact ⟨h1, by rw [h3]; exact (ho.mono h1).set (new_own h2), h4, fun _ => new_own h2⟩
    · split at h
      · cases h
        exact ⟨.refl, ho, rfl, fun _ => own_leaf (fun _ h => nomatch h) (fun _ h => nomatch h) (fun _ h => nomatch h)
          (by intro f hf; simp [libraryTypes] at hf)⟩
      · cases h
      · cases h
        exact ⟨.refl, ho, rfl, fun _ => own_leaf (fun _ h => nomatch h) (fun _ h => nomatch h) (fun _ h => nomatch h)
          (by intro f hf; simp [libraryTypes] at hf)⟩

theorem props_enlarges {cfg : BuildCfg} {ps : List (Str × TNode)} (hn : ∀ p ∈ ps, NodeEnlarges cfg p.2) (ctx : Str) (req : List Str) :
    ∀ xs st fs st', DenotesD ps xs → OwnTypes cfg.modName st.env st.attrs → propTypedefs cfg ps ctx req st = .ok (fs, st') →
      Enlarges cfg.modName (NamedAfter ctx) (fun _ => False) st st' ∧ OwnTypes cfg.modName st'.env st'.attrs ∧
        st'.patched = st.patched := by
  induction ps with
  | nil => intro xs st fs st' _ ho h; cases h; exact ⟨.refl, ho, rfl⟩
  | cons p ps ih =>
    obtain ⟨k, n⟩ := p
    intro xs st fs st' hd ho h
    cases xs with
    | nil => exact hd.elim
    | cons x xs =>
      obtain ⟨l, x⟩ := x
      obtain ⟨rfl, hd1, hd2⟩ := hd
      simp only [propTypedefs] at h
      split at h
      · cases h
      rename_i d1 st1 h1
      split at h
      · cases h
      split at h
      · cases h
      rename_i fs1 st2 h2
      cases h
      obtain ⟨g1, g2, g3, -⟩ := hn (k, n) (by simp) x _ st d1 st1 hd1 ho h1
      obtain ⟨k1, k2, k3⟩ := ih (fun n hm => hn n (by simp [hm])) xs st1 fs1 _ hd2 g2 h2
      exact ⟨(g1.imp (fun _ h => h.prop) fun _ h => h).trans k1, k2, k3.trans g3⟩

theorem members_enlarges {cfg : BuildCfg} {ns : List TNode} (hn : ∀ n ∈ ns, NodeEnlarges cfg n) (ctx : Str) :
    ∀ xs st ds st', DenotesL ns xs → OwnTypes cfg.modName st.env st.attrs → memberTypedefs cfg ns ctx st = .ok (ds, st') →
      Enlarges cfg.modName (NamedAfter ctx) (fun _ => False) st st' ∧ OwnTypes cfg.modName st'.env st'.attrs ∧
        st'.patched = st.patched ∧ ((∀ x ∈ xs, NoLib x) → ∀ d ∈ ds, ¬ Foreign cfg.modName st'.env d.ty) := by
  induction ns with
  | nil => intro xs st fs st' _ ho h; cases h; exact ⟨.refl, ho, rfl, fun _ d hd => nomatch hd⟩
  | cons n ns ih =>
    intro xs st fs st' hd ho h
    cases xs with
    | nil => exact hd.elim
    | cons x xs =>
      obtain ⟨hd1, hd2⟩ := hd
      simp only [memberTypedefs] at h
      split at h
      · cases h
      rename_i d1 st1 h1
      split at h
      · cases h
      rename_i fs1 st2 h2
      cases h
      obtain ⟨g1, g2, g3, g4⟩ := hn n (by simp) x _ st d1 st1 hd1 ho h1
      obtain ⟨k1, k2, k3, k4⟩ := ih (fun n hm => hn n (by simp [hm])) xs st1 fs1 _ hd2 g2 h2
      refine ⟨g1.trans k1, k2, k3.trans g3, fun hl d hd => ?_⟩
      rcases List.mem_cons.1 hd with rfl | hd
      · exact fun hf => g4 (hl x (by simp)) (foreign_mono k1 hf)
      · exact k4 (fun x hx => hl x (by simp [hx])) d hd

theorem obj_enlarges {cfg : BuildCfg} {ps : List (Str × TNode)} (hn : ∀ p ∈ ps, NodeEnlarges cfg p.2) (a req) {s : Json} {ctx : Str}
    {st st' : BuildSt} {d : TypeDef} (hd : Denotes (.obj (some ps) a req) s) (ho : OwnTypes cfg.modName st.env st.attrs)
    (h : nodeToTypedef cfg (.obj (some ps) a req) ctx st = .ok (d, st')) :
    Enlarges cfg.modName (NamedAfter ctx) (fun _ => False) st st' ∧ OwnTypes cfg.modName st'.env st'.attrs ∧ st'.patched = st.patched ∧
      NewType cfg.modName st.env st'.env ctx d.ty ∧ lookupKey ctx st'.attrs = some d.ty := by
  obtain ⟨kvs, xs, rfl, _, hx, hdx, _, _⟩ := hd
  simp only [nodeToTypedef] at h
  split at h
  · cases h
  split at h
  · cases h
  rename_i fs st1 h1
  obtain ⟨g1, g2, g3⟩ := props_enlarges hn ctx (req.getD []) xs st fs st1 hdx ho h1
  obtain ⟨k1, k2, k3, k4⟩ := makeDataclass_enlarges (X := fun _ => False) h
  refine ⟨g1.trans k1, by rw [k3]; exact (g2.mono k1).set (new_own k2), k4.trans g3, new_earlier g1 k2, ?_⟩
  rw [k3, lookupKey_upsert, if_pos rfl]

theorem node_enlarges (cfg : BuildCfg) (n : TNode) : NodeEnlarges cfg n := by
  generalize hsz : sizeOf n = sz
  induction sz using Nat.strongRecOn generalizing n with
  | _ sz ih =>
    subst hsz
    cases n with
    | ref r =>
      intro s ctx st d st' hd ha h
      simp only [nodeToTypedef, refTypedef] at h
      split at h
      · cases h
      split at h
      · rename_i t ht
        cases h
        exact ⟨.refl, ha, rfl, fun _ => ha _ _ ht⟩
      · cases h
    | bool c dv =>
      intro s ctx st d st' hd ha h
      simp only [nodeToTypedef, boolTypedef] at h
      split at h
      · cases h
        exact ⟨.refl, ha, rfl, fun _ => own_leaf (fun _ h => nomatch h) (fun _ h => nomatch h) (fun _ h => nomatch h)
          (by intro f hf; simp [libraryTypes] at hf)⟩
      · obtain ⟨h1, rfl⟩ := typeWithDefault_ok h
        rw [h1]
        exact ⟨.refl, ha, rfl, fun _ => own_leaf (fun _ h => nomatch h) (fun _ h => nomatch h) (fun _ h => nomatch h)
          (by intro f hf; simp [libraryTypes] at hf)⟩
    | int =>
      intro s ctx st d st' hd ha h
      simp only [nodeToTypedef, intTypedef] at h
      split at h
      · cases h
      · cases h
        exact ⟨.refl, ha, rfl, fun _ => own_leaf (fun _ h => nomatch h) (fun _ h => nomatch h) (fun _ h => nomatch h)
          (by intro f hf; simp [libraryTypes] at hf)⟩
      · rename_i t _ _
        obtain ⟨h1, rfl⟩ := typeWithDefault_ok h
        rw [h1]
        refine ⟨.refl, ha, rfl, fun _ => own_leaf ?_ ?_ ?_ ?_⟩
        · cases t <;> exact fun _ h => nomatch h
        · cases t <;> exact fun _ h => nomatch h
        · cases t <;> exact fun _ h => nomatch h
        · cases t <;> intro f hf <;> simp [libraryTypes, IntType.toTy] at hf
    | num =>
      intro s ctx st d st' hd ha h
      simp only [nodeToTypedef, numTypedef] at h
      split at h
      · cases h
      split at h
      · cases h
      rename_i t ht
      obtain ⟨h1, rfl⟩ := typeWithDefault_ok h
      rw [h1]
      refine ⟨.refl, ha, rfl, fun _ => ?_⟩
      rcases numberType_ok ht with rfl | ⟨ms, rfl⟩ <;>
        exact own_leaf (fun _ h => nomatch h) (fun _ h => nomatch h) (fun _ h => nomatch h)
          (by intro f hf; simp [libraryTypes] at hf)
    | str =>
      intro s ctx st d st' hd ha h
      simp only [nodeToTypedef, strTypedef] at h
      split at h
      · cases h
        exact ⟨.refl, ha, rfl, fun _ => own_leaf (fun _ h => nomatch h) (fun _ h => nomatch h) (fun _ h => nomatch h)
          (by intro f hf; simp [libraryTypes] at hf)⟩
      split at h
      · cases h
      rename_i t st1 ht
      obtain ⟨h1, rfl⟩ := typeWithDefault_ok h
      rw [h1]
      obtain ⟨g1, g2, g3, g4⟩ := stringType_enlarges ha ht
      obtain ⟨kvs, rfl, -, hf, -⟩ := hd
      exact ⟨g1, g2, g3, fun hl => g4 fun p u hp hfp => hl kvs .self p u hp (hf p hfp)⟩
    | arr n =>
      intro s ctx st d st' hd ha h
      obtain ⟨kvs, x, rfl, _, hx, hdx⟩ := hd
      simp only [nodeToTypedef] at h
      split at h
      · cases h
      rename_i d1 st1 h1
      obtain ⟨g1, g2, g3, -⟩ := ih _ (by simp) n rfl x ctx st d1 st1 hdx ha h1
      unfold listTypedef at h
      split at h
      · cases h
      · cases h
        exact ⟨g1, g2, g3, fun _ => own_leaf (fun _ h => nomatch h) (fun _ h => nomatch h) (fun _ h => nomatch h)
          (by intro f hf; simp [libraryTypes] at hf)⟩
    | obj ps a req =>
      cases ps with
      | none => intro s ctx st d st' _ _ h; cases h
      | some ps =>
        intro s ctx st d st' hd ha h
        obtain ⟨g1, g2, g3, g4, -⟩ := obj_enlarges (fun p hp => ih _ (by
          have := List.sizeOf_lt_of_mem hp
          obtain ⟨k, n⟩ := p
          simp at this ⊢
          omega) p.2 rfl) a req hd ha h
        exact ⟨g1, g2, g3, fun _ => new_own g4⟩
    | oneOf ns =>
      intro s ctx st d st' hd ha h
      obtain ⟨kvs, xs, rfl, hx, hdx⟩ := hd
      simp only [nodeToTypedef] at h
      split at h
      · cases h
      rename_i ds st1 h1
      obtain ⟨g1, g2, g3, g4⟩ := members_enlarges (fun n hn => ih _ (by
        have := List.sizeOf_lt_of_mem hn
        simp; omega) n rfl) ctx xs st ds st1 hdx ha h1
      unfold unionTypedef at h
      split at h
      · cases h
      split at h
      · cases h
      rename_i t ht
      cases h
      refine ⟨g1, g2, g3, fun hl => own_pyUnion ?_ ht⟩
      intro u hu
      obtain ⟨d, hd, rfl⟩ := List.mem_map.1 hu
      exact g4 (fun x hm => hl.sub (Json.Within.trans (.arr hm .self) (within_lookup hx))) d hd

/-! ### Definitions -/

theorem setModule_own {cfg : BuildCfg} {st st' : BuildSt} {t : Ty} (ht : ¬ Foreign cfg.modName st.env t)
    (h : setModule cfg st t = .ok st') : st' = st := by
  cases t <;> simp only [setModule, reduceCtorEq, Except.ok.injEq] at h <;> subst h
  case cls c =>
    have : ∃ cd, st.env.classes[c]? = some cd ∧ cd.module = cfg.modName := by
      refine Classical.byContradiction fun hn => ht (.cls fun cd h1 h2 => hn ⟨cd, h1, h2⟩)
    obtain ⟨cd, h1, h2⟩ := this
    rw [modify_self h1 (by rw [← h2])]
  case enum c =>
    have : ∃ cd, st.env.enums[c]? = some cd ∧ cd.module = cfg.modName := by
      refine Classical.byContradiction fun hn => ht (.enum fun cd h1 h2 => hn ⟨cd, h1, h2⟩)
    obtain ⟨cd, h1, h2⟩ := this
    rw [modify_self h1 (by rw [← h2])]
  case uuid => exact absurd (.library (f := c!"uuid") (by simp [libraryTypes])) ht
  case ipv4 => exact absurd (.library (f := c!"ipv4") (by simp [libraryTypes])) ht
  case ipv6 => exact absurd (.library (f := c!"ipv6") (by simp [libraryTypes])) ht
  all_goals rfl

theorem definitions_enlarges {cfg : BuildCfg} (ds : List (Str × TNode)) :
    ∀ xs st st', DenotesD ds xs → (∀ x ∈ xs, NoLib x.2) → OwnTypes cfg.modName st.env st.attrs →
      buildDefinitions cfg ds st = .ok st' →
      Enlarges cfg.modName (fun n => ∃ x ∈ xs, NamedAfter x.1 n) (fun n => ∃ x ∈ xs, x.1 = n ∧ ¬ ObjectSchema x.2) st st' ∧
        OwnTypes cfg.modName st'.env st'.attrs ∧ st'.patched = st.patched := by
  induction ds with
  | nil => intro xs st st' _ _ ha h; cases h; exact ⟨.refl, ha, rfl⟩
  | cons p ds ih =>
    obtain ⟨name, n⟩ := p
    intro xs st st' hd hl ha h
    cases xs with
    | nil => exact hd.elim
    | cons x xs =>
      obtain ⟨l, x⟩ := x
      obtain ⟨rfl, hdx, hds⟩ := hd
      simp only [buildDefinitions] at h
      split at h
      · cases h
      rename_i d1 st1 h1
      split at h
      · cases h
      split at h
      · cases h
      rename_i st2 h2
      obtain ⟨g1, g2, g3, g4⟩ := node_enlarges cfg n x name st d1 st1 hdx ha h1
      have hown := g4 (hl (name, x) (by simp))
      have he := setModule_own hown h2
      subst he
      have hnew : ObjectSchema x → NewType cfg.modName st.env st2.env name d1.ty := by
        intro hob
        cases n with
        | obj ps a req =>
          cases ps with
          | none => cases h1
          | some ps =>
            obtain ⟨-, -, -, k4, -⟩ := obj_enlarges (fun p _ => node_enlarges cfg p.2) a req hdx ha h1
            exact k4
        | ref r => obtain ⟨kvs, rfl, hr⟩ := hdx; have h0 := hob.2.1; rw [h0] at hr; cases hr
        | oneOf r => obtain ⟨kvs, _, rfl, hr, _⟩ := hdx; have h0 := hob.2.2; rw [h0] at hr; cases hr
        | bool => obtain ⟨kvs, rfl, hr, _⟩ := hdx; have h0 : lookupKey _ _ = _ := hob.1; rw [h0] at hr; cases hr
        | int => obtain ⟨kvs, rfl, hr, _⟩ := hdx; have h0 : lookupKey _ _ = _ := hob.1; rw [h0] at hr; cases hr
        | num => obtain ⟨kvs, rfl, hr⟩ := hdx; have h0 : lookupKey _ _ = _ := hob.1; rw [h0] at hr; cases hr
        | str => obtain ⟨kvs, rfl, hr, _⟩ := hdx; have h0 : lookupKey _ _ = _ := hob.1; rw [h0] at hr; cases hr
        | arr => obtain ⟨kvs, _, rfl, hr, _⟩ := hdx; have h0 : lookupKey _ _ = _ := hob.1; rw [h0] at hr; cases hr
      have hb : Enlarges cfg.modName (NamedAfter name) (fun n => n = name ∧ ¬ ObjectSchema x) st
          { st2 with attrs := upsert name d1.ty st2.attrs } := by
        refine ⟨g1.classes, g1.enums, g1.order, ?_, ?_⟩
        · intro k hk
          simp only [lookupKey_upsert]
          split
          · rename_i hkn
            subst hkn
            exact .inr ⟨_, rfl, hnew (Classical.byContradiction fun hn => hk ⟨rfl, hn⟩)⟩
          · exact g1.attrs k (fun h => h)
        · intro k hk T hT
          simp only [lookupKey_upsert]
          split
          · rename_i hkn
            subst hkn
            exact ⟨_, rfl, hnew (Classical.byContradiction fun hn => hk ⟨rfl, hn⟩)⟩
          · exact g1.found k (fun h => h) T hT
      have ha2 : OwnTypes cfg.modName st2.env (upsert name d1.ty st2.attrs) := g2.set hown
      obtain ⟨r1, r2, r3⟩ := ih xs _ st' hds (fun x hm => hl x (by simp [hm])) ha2 h
      refine ⟨(hb.imp ?_ ?_).trans (r1.imp ?_ ?_), r2, r3.trans g3⟩
      · exact fun n hn => ⟨(name, x), by simp, hn⟩
      · exact fun n hn => ⟨(name, x), by simp, hn.1.symm, hn.2⟩
      · rintro n ⟨y, hy, hn⟩; exact ⟨y, by simp [hy], hn⟩
      · rintro n ⟨y, hy, hn⟩; exact ⟨y, by simp [hy], hn⟩

/-- All that `schema_to_type` does to the program and the module. -/
theorem schemaToType_enlarges {cfg : BuildCfg} {name : Str} {schema : Json} {st st' : BuildSt} {t : Ty} (hw : schema.Wf)
    (hl : NoLibraryFormats schema) (ho : OwnTypes cfg.modName st.env st.attrs)
    (h : schemaToType cfg name schema st = .ok (t, st')) :
    Enlarges cfg.modName (NameFor name schema) (fun n => ∃ x ∈ schemaDefs schema, x.1 = n ∧ ¬ ObjectSchema x.2) st st' ∧
      st'.patched = st.patched ∧ NewType cfg.modName st.env st'.env name t ∧ lookupKey name st'.attrs = some t := by
  unfold schemaToType at h
  split at h
  · cases h
  rename_i top htop
  split at h
  · cases h
  rename_i st1 hst1
  split at h
  · cases h
  rename_i d st2 hd
  cases h
  obtain ⟨hden, kvs, rfl, hdefs⟩ := readTop_denotes hw htop
  have key : Enlarges cfg.modName (fun n => ∃ x ∈ schemaDefs (.obj kvs), NamedAfter x.1 n)
      (fun n => ∃ x ∈ schemaDefs (.obj kvs), x.1 = n ∧ ¬ ObjectSchema x.2) st st1 ∧
      OwnTypes cfg.modName st1.env st1.attrs ∧ st1.patched = st.patched := by
    cases htd : top.definitions with
    | none => rw [htd] at hst1; cases hst1; exact ⟨.refl, ho, rfl⟩
    | some ds =>
      obtain ⟨xs, hx, hdx⟩ := hdefs ds htd
      rw [htd] at hst1
      have hxs : schemaDefs (.obj kvs) = xs := by simp [schemaDefs, hx]
      have hl' : ∀ x ∈ xs, NoLib x.2 := fun x hm => hl x (by rw [hxs]; exact hm)
      rw [hxs]
      exact definitions_enlarges _ xs _ _ hdx hl' ho hst1
  obtain ⟨k1, k2, k3⟩ := key
  obtain ⟨kvs', vs, -, -, -, hon, -⟩ := top_inv htop
  have hobj : ∃ ps a r, top.node = .obj ps a r := by
    unfold objectNode at hon
    split at hon
    · exact ⟨_, _, _, (Option.some.inj hon).symm⟩
    · cases hon
  obtain ⟨ps, a, r, hn⟩ := hobj
  rw [hn] at hd hden
  cases ps with
  | none => cases hd
  | some ps =>
    obtain ⟨g1, -, g3, g4, g5⟩ := obj_enlarges (fun p _ => node_enlarges cfg p.2) a r hden k2 hd
    exact ⟨(k1.imp (fun _ h => .inr h) fun _ h => h).trans (g1.imp (fun _ h => .inl h) fun _ h => h.elim), g3.trans k3,
      new_earlier k1 g4, g5⟩

end Verif
