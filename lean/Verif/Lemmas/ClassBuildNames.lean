import Verif.Lemmas.ClassBuildPlain
/-!
# Names of types made from schemas without unions are different
-/
namespace Verif

/-- Names of classes and enumerations that are made: `ctx`, or `ctx` followed by names of properties, in the module. -/
def KeyIn (cfg : BuildCfg) (ctx : Str) (k : TKey) : Prop := k.1 = cfg.modName ∧ InContext ctx k.2

theorem KeyIn.prop {cfg : BuildCfg} {ctx p : Str} {k : TKey} (h : KeyIn cfg (propContext ctx p) k) : KeyIn cfg ctx k := by
  refine ⟨h.1, .inr ?_⟩
  rcases h.2 with h | ⟨r, h⟩
  · exact ⟨p, by rw [h]; simp [propContext]⟩
  · exact ⟨p ++ c!"__" ++ r, by rw [← h]; simp [propContext]⟩

/-- If one name followed by `__` goes on like another one, then one is the other followed by `_` or `__`. -/
theorem underscores {p q x y : Str} (h : p ++ '_' :: '_' :: x = q ++ '_' :: '_' :: y) (hp : p.getLast? ≠ some '_')
    (hq : q.getLast? ≠ some '_') : p = q ∨ (p ++ c!"__") <+: q ∨ (q ++ c!"__") <+: p := by
  have key : ∀ (p q x y : Str), p ++ '_' :: '_' :: x = q ++ '_' :: '_' :: y → q.getLast? ≠ some '_' → p.length ≤ q.length →
      p = q ∨ (p ++ c!"__") <+: q := by
    intro p q x y h hq hl
    obtain ⟨r, rfl⟩ : p <+: q := by
      have h1 : p <+: q ++ '_' :: '_' :: y := ⟨_, h⟩
      exact List.prefix_of_prefix_length_le h1 (List.prefix_append _ _) hl
    rw [List.append_assoc] at h
    have h := List.append_cancel_left h
    match r, h with
    | [], _ => exact .inl (by simp)
    | [a], h =>
      simp only [List.cons_append, List.nil_append, List.cons.injEq] at h
      exact absurd (by rw [← h.1]; simp) hq
    | a :: b :: r, h =>
      simp only [List.cons_append, List.cons.injEq] at h
      exact .inr ⟨r, by rw [← h.1, ← h.2.1]; simp⟩
  rcases Nat.le_total p.length q.length with hl | hl
  · rcases key p q x y h hq hl with h | h
    · exact .inl h
    · exact .inr (.inl h)
  · rcases key q p y x h.symm hp hl with h | h
    · exact .inl h.symm
    · exact .inr (.inr h)

/-- Names under different roots are different. -/
theorem inContext_apart {a b n : Str} (ha : InContext a n) (hb : InContext b n) (ha' : a.getLast? ≠ some '_')
    (hb' : b.getLast? ≠ some '_') : a = b ∨ (a ++ c!"__") <+: b ∨ (b ++ c!"__") <+: a := by
  rcases ha with rfl | ⟨x, hx⟩ <;> rcases hb with rfl | ⟨y, hy⟩
  · exact .inl rfl
  · exact .inr (.inr ⟨y, hy⟩)
  · exact .inr (.inl ⟨x, hx⟩)
  · have h : a ++ '_' :: '_' :: x = b ++ '_' :: '_' :: y := by
      have := hx.trans hy.symm
      simpa using this
    exact underscores h ha' hb'

/-- Keys of properties with different names are different. -/
theorem prop_apart {cfg : BuildCfg} {ctx p q : Str} {k : TKey} (h1 : KeyIn cfg (propContext ctx p) k)
    (h2 : KeyIn cfg (propContext ctx q) k) (hp : TidyName p) (hq : TidyName q) : p = q := by
  have red : ∀ {p n : Str}, InContext (propContext ctx p) n → ∃ m, n = ctx ++ c!"__" ++ m ∧ InContext p m := by
    rintro p n (rfl | ⟨r, rfl⟩)
    · exact ⟨p, rfl, .inl rfl⟩
    · exact ⟨p ++ c!"__" ++ r, by simp [propContext], .inr ⟨r, rfl⟩⟩
  obtain ⟨m, hm, h1'⟩ := red h1.2
  obtain ⟨m', hm', h2'⟩ := red h2.2
  have : m = m' := List.append_cancel_left (hm.symm.trans hm')
  subst this
  rcases inContext_apart h1' h2' hp.1 hq.1 with h | ⟨r, h⟩ | ⟨r, h⟩
  · exact h
  · exact absurd (by rw [← h, List.append_assoc]; exact ⟨p, r, by simp⟩) hq.2
  · exact absurd (by rw [← h, List.append_assoc]; exact ⟨q, r, by simp⟩) hp.2

theorem TidyNames.sub {s x : Json} (h : TidyNames s) (hx : x.Within s) : TidyNames x := fun kvs hk => h kvs (hk.trans hx)

/-- The type is not a class or enumeration of another module. -/
def TyIn (cfg : BuildCfg) (env : Env) (t : Ty) : Prop :=
  (∀ c, t = .cls c → ∃ cd, env.classes[c]? = some cd ∧ cd.module = cfg.modName) ∧
    ∀ e, t = .enum e → ∃ ed, env.enums[e]? = some ed ∧ ed.module = cfg.modName

/-- Attributes of the module. -/
def AttrsIn (cfg : BuildCfg) (st : BuildSt) : Prop := ∀ k T, lookupKey k st.attrs = some T → TyIn cfg st.env T

/-- Keys of enumerations and classes. -/
def keysOf (es : List EnumDef) (cs : List ClassDef) : List TKey := es.map EnumDef.key ++ cs.map ClassDef.key

theorem keysOf_append (es es' : List EnumDef) (cs cs' : List ClassDef) :
    (keysOf (es ++ es') (cs ++ cs')).Perm (keysOf es cs ++ keysOf es' cs') := by
  simp only [keysOf, List.map_append, List.append_assoc]
  refine List.Perm.append_left _ ?_
  rw [← List.append_assoc, ← List.append_assoc]
  exact List.Perm.append_right _ List.perm_append_comm

/-- The second state has more enumerations and classes, with the given keys. -/
structure Adds (st st' : BuildSt) (P : TKey → Prop) : Prop where
  more : ∃ es cs, st'.env.enums = st.env.enums ++ es ∧ st'.env.classes = st.env.classes ++ cs ∧ (keysOf es cs).Nodup ∧
    ∀ k ∈ keysOf es cs, P k

theorem Adds.refl {st : BuildSt} {P : TKey → Prop} : Adds st st P := ⟨[], [], by simp, by simp, by simp [keysOf], by simp [keysOf]⟩

theorem Adds.imp {st st' : BuildSt} {P Q : TKey → Prop} (h : Adds st st' P) (hi : ∀ k, P k → Q k) : Adds st st' Q := by
  obtain ⟨es, cs, h1, h2, h3, h4⟩ := h.more
  exact ⟨es, cs, h1, h2, h3, fun k hk => hi k (h4 k hk)⟩

theorem Adds.trans {a b c : BuildSt} {P Q : TKey → Prop} (h : Adds a b P) (h' : Adds b c Q) (hd : ∀ k, P k → Q k → False) :
    Adds a c (fun k => P k ∨ Q k) := by
  obtain ⟨es, cs, h1, h2, h3, h4⟩ := h.more
  obtain ⟨es', cs', g1, g2, g3, g4⟩ := h'.more
  refine ⟨es ++ es', cs ++ cs', by rw [g1, h1, List.append_assoc], by rw [g2, h2, List.append_assoc], ?_, ?_⟩
  · refine (keysOf_append _ _ _ _).nodup_iff.2 (List.nodup_append.2 ⟨h3, g3, ?_⟩)
    rintro x hx y hy rfl
    exact hd x (h4 x hx) (g4 x hy)
  · intro k hk
    rcases List.mem_append.1 ((keysOf_append _ _ _ _).mem_iff.1 hk) with hk | hk
    · exact .inl (h4 k hk)
    · exact .inr (g4 k hk)

theorem Adds.env {a b : BuildSt} {P : TKey → Prop} (h : Adds a b P) (b' : BuildSt) (he : b'.env = b.env) : Adds a b' P := by
  obtain ⟨es, cs, h1, h2, h3, h4⟩ := h.more
  exact ⟨es, cs, by rw [he]; exact h1, by rw [he]; exact h2, h3, h4⟩

theorem TyIn.mono {cfg : BuildCfg} {st st' : BuildSt} {P : TKey → Prop} {t : Ty} (h : TyIn cfg st.env t) (ha : Adds st st' P) :
    TyIn cfg st'.env t := by
  obtain ⟨es, cs, h1, h2, -, -⟩ := ha.more
  constructor
  · intro c hc
    obtain ⟨cd, h3, h4⟩ := h.1 c hc
    refine ⟨cd, ?_, h4⟩
    rw [h2, List.getElem?_append_left (List.getElem?_eq_some_iff.1 h3).1]
    exact h3
  · intro c hc
    obtain ⟨cd, h3, h4⟩ := h.2 c hc
    refine ⟨cd, ?_, h4⟩
    rw [h1, List.getElem?_append_left (List.getElem?_eq_some_iff.1 h3).1]
    exact h3

theorem AttrsIn.set {cfg : BuildCfg} {st st' : BuildSt} {P : TKey → Prop} {ctx : Str} {t : Ty} (h : AttrsIn cfg st)
    (ha : Adds st st' P) (ht : TyIn cfg st'.env t) (hs : st'.attrs = upsert ctx t st.attrs) : AttrsIn cfg st' := by
  intro k T hk
  rw [hs, lookupKey_upsert] at hk
  split at hk
  · cases hk; exact ht
  · exact (h k T hk).mono ha

/-- What is true of a node. -/
def NodeNames (cfg : BuildCfg) (n : TNode) : Prop :=
  ∀ s ctx st d st', Denotes n s → s.Wf → Tame s → TidyNames s → AttrsIn cfg st → nodeToTypedef cfg n ctx st = .ok (d, st') →
    Adds st st' (KeyIn cfg ctx) ∧ AttrsIn cfg st' ∧ TyIn cfg st'.env d.ty

theorem tyIn_other {cfg : BuildCfg} {env : Env} {t : Ty} (h1 : ∀ c, t ≠ .cls c) (h2 : ∀ e, t ≠ .enum e) : TyIn cfg env t :=
  ⟨fun c hc => absurd hc (h1 c), fun e he => absurd he (h2 e)⟩

theorem stringType_names {cfg : BuildCfg} {ctx : Str} {st st' : BuildSt} {f : Option Str} {e : Option (List Str)}
    {m : Option Int} {t : Ty} (ha : AttrsIn cfg st) (h : stringType cfg ctx st f e m = .ok (t, st')) :
    Adds st st' (KeyIn cfg ctx) ∧ AttrsIn cfg st' ∧ TyIn cfg st'.env t := by
  unfold stringType at h
  split at h
  · rename_i t' hf
    cases h
    obtain ⟨p, hp, hm⟩ := formatType_mem hf
    refine ⟨.refl, ha, tyIn_other ?_ ?_⟩ <;>
    · rintro c rfl
      simp [textFormats] at hm
  · split at h
    · rename_i vs
      unfold makeEnum at h
      split at h
      · cases h
      split at h
      · cases h
      rename_i ms hms
      cases h
      have hadd : Adds st { st with env := { st.env with enums := st.env.enums ++ [{ module := cfg.modName, name := ctx, members := ms }] }, attrs := upsert ctx (.enum st.env.enums.length) st.attrs } (KeyIn cfg ctx) := by
        refine ⟨[{ module := cfg.modName, name := ctx, members := ms }], [], rfl, by simp, by simp [keysOf], ?_⟩
        intro k hk
        simp only [keysOf, List.map_cons, List.map_nil, List.append_nil, List.mem_singleton] at hk
        subst hk
        exact ⟨rfl, .inl rfl⟩
      have hty : TyIn cfg { st.env with enums := st.env.enums ++ [{ module := cfg.modName, name := ctx, members := ms }] } (.enum st.env.enums.length) := by
        refine ⟨fun c hc => (nomatch hc), fun e he => ?_⟩
        cases he
        exact ⟨{ module := cfg.modName, name := ctx, members := ms }, by simp, rfl⟩
      exact ⟨hadd, ha.set hadd hty rfl, hty⟩
    · split at h
      · cases h; exact ⟨.refl, ha, tyIn_other (fun _ h => (nomatch h)) (fun _ h => (nomatch h))⟩
      · cases h
      · cases h; exact ⟨.refl, ha, tyIn_other (fun _ h => (nomatch h)) (fun _ h => (nomatch h))⟩

theorem props_names {cfg : BuildCfg} {ps : List (Str × TNode)} (hn : ∀ p ∈ ps, NodeNames cfg p.2) (ctx : Str) (req : List Str) :
    ∀ xs st fs st', DenotesD ps xs → (xs.map (·.1)).Nodup → (∀ x ∈ xs, x.2.Wf ∧ Tame x.2 ∧ TidyNames x.2 ∧ TidyName x.1) →
      AttrsIn cfg st → propTypedefs cfg ps ctx req st = .ok (fs, st') →
      Adds st st' (fun k => ∃ x ∈ xs, KeyIn cfg (propContext ctx x.1) k) ∧ AttrsIn cfg st' := by
  induction ps with
  | nil =>
    intro xs st fs st' _ _ _ ha h
    cases h
    exact ⟨.refl, ha⟩
  | cons p ps ih =>
    obtain ⟨k, n⟩ := p
    intro xs st fs st' hd hnd hx ha h
    cases xs with
    | nil => exact hd.elim
    | cons x xs =>
      obtain ⟨l, x⟩ := x
      obtain ⟨rfl, hd1, hd2⟩ := hd
      simp only [propTypedefs] at h
      split at h
      · cases h
      rename_i d1 st1 h1
      split at h
      · cases h
      rename_i f hf
      split at h
      · cases h
      rename_i fs1 st2 h2
      cases h
      obtain ⟨w1, w2, w3, w4⟩ := hx (k, x) (by simp)
      simp only [List.map_cons, List.nodup_cons] at hnd
      obtain ⟨g1, g2, g3⟩ := hn (k, n) (by simp) x _ st d1 st1 hd1 w1 w2 w3 ha h1
      obtain ⟨k1, k2⟩ := ih (fun n hm => hn n (by simp [hm])) xs st1 fs1 _ hd2 hnd.2 (fun x hm => hx x (by simp [hm])) g2 h2
      refine ⟨(g1.trans k1 ?_).imp ?_, k2⟩
      · rintro q hq ⟨y, hy, hq'⟩
        have := prop_apart hq hq' w4 (hx y (by simp [hy])).2.2.2
        exact hnd.1 (this ▸ List.mem_map.2 ⟨y, hy, rfl⟩)
      · rintro q (hq | ⟨y, hy, hq⟩)
        · exact ⟨(k, x), by simp, hq⟩
        · exact ⟨y, by simp [hy], hq⟩

theorem obj_names {cfg : BuildCfg} {ps : List (Str × TNode)} (hn : ∀ p ∈ ps, NodeNames cfg p.2) (a req) :
    NodeNames cfg (.obj (some ps) a req) := by
  intro s ctx st d st' hd hw ht htn ha h
  obtain ⟨kvs, xs, rfl, _, hx, hdx, _, _⟩ := hd
  simp only [nodeToTypedef] at h
  split at h
  · cases h
  split at h
  · cases h
  rename_i fs st1 h1
  have hwx : (Json.obj xs).Wf := by
    cases hw with | obj _ h => exact h _ (lookupKey_some_mem hx)
  obtain ⟨hnd, hwx⟩ : (xs.map (·.1)).Nodup ∧ ∀ x ∈ xs, x.2.Wf := by
    cases hwx with | obj h1 h2 => exact ⟨h1, h2⟩
  obtain ⟨g1, g2⟩ := props_names hn ctx (req.getD []) xs st fs st1 hdx hnd
    (fun x hm => ⟨hwx x hm, ht.sub (Json.Within.trans (.obj hm .self) (within_lookup hx)),
      htn.sub (Json.Within.trans (.obj hm .self) (within_lookup hx)), htn kvs .self xs hx x hm⟩) ha h1
  unfold makeDataclass at h
  split at h
  · cases h
  split at h
  · cases h
  split at h
  · cases h
  cases h
  have hadd : Adds st1 { st1 with env := { st1.env with classes := st1.env.classes ++ [{ module := cfg.modName, name := ctx, kind := .dataclass false, fields := defaultsLast fs }] }, attrs := upsert ctx (.cls st1.env.classes.length) st1.attrs } (fun k => k = (cfg.modName, ctx)) := by
    refine ⟨[], [{ module := cfg.modName, name := ctx, kind := .dataclass false, fields := defaultsLast fs }], by simp, rfl, by simp [keysOf], ?_⟩
    intro k hk
    simpa [keysOf, ClassDef.key] using hk
  have hty : TyIn cfg { st1.env with classes := st1.env.classes ++ [{ module := cfg.modName, name := ctx, kind := .dataclass false, fields := defaultsLast fs }] } (.cls st1.env.classes.length) := by
    refine ⟨fun c hc => ?_, fun c hc => (nomatch hc)⟩
    cases hc
    exact ⟨{ module := cfg.modName, name := ctx, kind := .dataclass false, fields := defaultsLast fs }, by simp, rfl⟩
  refine ⟨(g1.trans hadd ?_).imp ?_, g2.set hadd hty rfl, hty⟩
  · rintro k ⟨x, _, hk⟩ rfl
    have hk := hk.2
    have hlen : ctx.length < (propContext ctx x.1).length := by simp [propContext]
    rcases hk with hk | ⟨r, hk⟩
    · simp only at hk; rw [← hk] at hlen; omega
    · simp only at hk
      have := congrArg List.length hk
      simp at this
      omega
  · rintro k (⟨x, _, hk⟩ | rfl)
    · exact hk.prop
    · exact ⟨rfl, .inl rfl⟩

theorem node_names (cfg : BuildCfg) (n : TNode) : NodeNames cfg n := by
  generalize hsz : sizeOf n = sz
  induction sz using Nat.strongRecOn generalizing n with
  | _ sz ih =>
    subst hsz
    cases n with
    | ref r =>
      intro s ctx st d st' hd _ _ _ ha h
      simp only [nodeToTypedef, refTypedef] at h
      split at h
      · cases h
      split at h
      · rename_i t ht
        cases h
        exact ⟨.refl, ha, ha _ _ ht⟩
      · cases h
    | bool c dv =>
      intro s ctx st d st' hd _ _ _ ha h
      simp only [nodeToTypedef, boolTypedef] at h
      split at h
      · cases h; exact ⟨.refl, ha, tyIn_other (fun _ h => (nomatch h)) (fun _ h => (nomatch h))⟩
      · obtain ⟨h1, rfl⟩ := typeWithDefault_ok h
        rw [h1]
        exact ⟨.refl, ha, tyIn_other (fun _ h => (nomatch h)) (fun _ h => (nomatch h))⟩
    | int =>
      intro s ctx st d st' hd _ _ _ ha h
      simp only [nodeToTypedef, intTypedef] at h
      split at h
      · cases h
      · cases h; exact ⟨.refl, ha, tyIn_other (fun _ h => (nomatch h)) (fun _ h => (nomatch h))⟩
      · rename_i t _ _
        obtain ⟨h1, rfl⟩ := typeWithDefault_ok h
        rw [h1]
        refine ⟨.refl, ha, tyIn_other ?_ ?_⟩ <;> cases t <;> exact fun _ h => (nomatch h)
    | num =>
      intro s ctx st d st' hd _ _ _ ha h
      simp only [nodeToTypedef, numTypedef] at h
      split at h
      · cases h
      split at h
      · cases h
      rename_i t ht
      obtain ⟨h1, rfl⟩ := typeWithDefault_ok h
      rw [h1]
      refine ⟨.refl, ha, ?_⟩
      rcases numberType_ok ht with rfl | ⟨ms, rfl⟩ <;> exact tyIn_other (fun _ h => (nomatch h)) (fun _ h => (nomatch h))
    | str =>
      intro s ctx st d st' hd _ _ _ ha h
      simp only [nodeToTypedef, strTypedef] at h
      split at h
      · cases h; exact ⟨.refl, ha, tyIn_other (fun _ h => (nomatch h)) (fun _ h => (nomatch h))⟩
      split at h
      · cases h
      rename_i t st1 ht
      obtain ⟨h1, rfl⟩ := typeWithDefault_ok h
      rw [h1]
      exact stringType_names ha ht
    | arr n =>
      intro s ctx st d st' hd hw ht htn ha h
      obtain ⟨kvs, x, rfl, _, hx, hdx⟩ := hd
      simp only [nodeToTypedef] at h
      split at h
      · cases h
      rename_i d1 st1 h1
      have hwx : x.Wf := by
        cases hw with | obj _ h => exact h _ (lookupKey_some_mem hx)
      obtain ⟨g1, g2, g3⟩ := ih _ (by simp) n rfl x ctx st d1 st1 hdx hwx (ht.sub (within_lookup hx)) (htn.sub (within_lookup hx)) ha h1
      unfold listTypedef at h
      split at h
      · cases h
      · cases h; exact ⟨g1, g2, tyIn_other (fun _ h => (nomatch h)) (fun _ h => (nomatch h))⟩
    | obj ps a req =>
      cases ps with
      | none => intro s ctx st d st' _ _ _ _ _ h; cases h
      | some ps =>
        refine obj_names (fun p hp => ih _ ?_ p.2 rfl) a req
        have := List.sizeOf_lt_of_mem hp
        obtain ⟨k, n⟩ := p
        simp at this ⊢
        omega
    | oneOf ns =>
      intro s ctx st d st' hd _ hs _ _ _
      obtain ⟨kvs, xs, rfl, hx, _⟩ := hd
      rw [(hs kvs .self).1] at hx
      cases hx

/-! ### Definitions -/

theorem modify_self {α : Type} {g : α → α} {l : List α} {i : Nat} {x : α} (h : l[i]? = some x) (hg : g x = x) : l.modify i g = l := by
  apply List.ext_getElem?
  intro k
  rw [List.getElem?_modify]
  by_cases hk : i = k
  · subst hk; simp [h, hg]
  · simp [hk]

theorem setModule_same {cfg : BuildCfg} {st st' : BuildSt} {t : Ty} (ht : TyIn cfg st.env t) (h : setModule cfg st t = .ok st') :
    st'.env = st.env := by
  cases t <;> simp only [setModule, reduceCtorEq, Except.ok.injEq] at h <;> subst h
  case cls c =>
    obtain ⟨cd, h1, h2⟩ := ht.1 c rfl
    simp only
    rw [modify_self h1 (by rw [← h2])]
  case enum c =>
    obtain ⟨cd, h1, h2⟩ := ht.2 c rfl
    simp only
    rw [modify_self h1 (by rw [← h2])]
  all_goals rfl

theorem definitions_names {cfg : BuildCfg} (ds : List (Str × TNode)) :
    ∀ xs st st', DenotesD ds xs → (xs.map (·.1)).Nodup → (∀ x ∈ xs, x.2.Wf ∧ Tame x.2 ∧ TidyNames x.2 ∧ x.1.getLast? ≠ some '_') →
      (∀ x ∈ xs, ∀ y ∈ xs, ¬ (x.1 ++ c!"__") <+: y.1) → AttrsIn cfg st → buildDefinitions cfg ds st = .ok st' →
      Adds st st' (fun k => ∃ x ∈ xs, KeyIn cfg x.1 k) ∧ AttrsIn cfg st' := by
  induction ds with
  | nil => intro xs st st' _ _ _ _ ha h; cases h; exact ⟨.refl, ha⟩
  | cons p ds ih =>
    obtain ⟨name, n⟩ := p
    intro xs st st' hd hnd hx hap ha h
    cases xs with
    | nil => exact hd.elim
    | cons x xs =>
      obtain ⟨l, x⟩ := x
      obtain ⟨rfl, hdx, hds⟩ := hd
      simp only [buildDefinitions] at h
      split at h
      · cases h
      rename_i d1 st1 h1
      split at h
      · cases h
      split at h
      · cases h
      rename_i st2 h2
      obtain ⟨w1, w2, w3, w4⟩ := hx (name, x) (by simp)
      simp only [List.map_cons, List.nodup_cons] at hnd
      obtain ⟨g1, g2, g3⟩ := node_names cfg n x name st d1 st1 hdx w1 w2 w3 ha h1
      have he := setModule_same g3 h2
      obtain ⟨-, m2⟩ := setModule_ok h2
      have ha2 : AttrsIn cfg { st2 with attrs := upsert name d1.ty st2.attrs } := by
        intro k T hk
        simp only [lookupKey_upsert, m2] at hk
        simp only [he]
        split at hk
        · cases hk; exact g3
        · exact g2 k T hk
      obtain ⟨r1, r2⟩ := ih xs _ st' hds hnd.2 (fun x hm => hx x (by simp [hm]))
        (fun y hy z hz => hap y (by simp [hy]) z (by simp [hz])) ha2 h
      refine ⟨((g1.env { st2 with attrs := upsert name d1.ty st2.attrs } he).trans r1 ?_).imp ?_, r2⟩
      · rintro k hk ⟨y, hy, hk'⟩
        rcases inContext_apart hk.2 hk'.2 w4 (hx y (by simp [hy])).2.2.2 with h | h | h
        · exact hnd.1 (h ▸ List.mem_map.2 ⟨y, hy, rfl⟩)
        · exact hap (name, x) (by simp) y (by simp [hy]) h
        · exact hap y (by simp [hy]) (name, x) (by simp) h
      · rintro k (hk | ⟨y, hy, hk⟩)
        · exact ⟨(name, x), by simp, hk⟩
        · exact ⟨y, by simp [hy], hk⟩

/-- The names of the types that are made are different, and in the module. -/
theorem schemaToType_names {cfg : BuildCfg} {name : Str} {schema : Json} {env : Env} {t : Ty} {st : BuildSt} (hw : schema.Wf)
    (ht : Tame schema) (htn : TidyNames schema) (hs : NamesApart name schema)
    (h : schemaToType cfg name schema ⟨env, [], []⟩ = .ok (t, st)) :
    ∃ es cs, st.env.enums = env.enums ++ es ∧ st.env.classes = env.classes ++ cs ∧ (keysOf es cs).Nodup ∧
      ∀ k ∈ keysOf es cs, k.1 = cfg.modName := by
  unfold schemaToType at h
  split at h
  · cases h
  rename_i top htop
  split at h
  · cases h
  rename_i st1 hst1
  split at h
  · cases h
  rename_i d st2 hd
  cases h
  obtain ⟨hden, kvs, rfl, hdefs⟩ := readTop_denotes hw htop
  have h0 : AttrsIn cfg ⟨env, [], []⟩ := fun _ _ h => by cases h
  have key : Adds ⟨env, [], []⟩ st1 (fun k => ∃ x ∈ schemaDefs (.obj kvs), KeyIn cfg x.1 k) ∧ AttrsIn cfg st1 := by
    cases htd : top.definitions with
    | none => rw [htd] at hst1; cases hst1; exact ⟨.refl, h0⟩
    | some ds =>
      obtain ⟨xs, hx, hdx⟩ := hdefs ds htd
      rw [htd] at hst1
      have hxs : schemaDefs (.obj kvs) = xs := by simp [schemaDefs, hx]
      rw [hxs]
      have hwx : (Json.obj xs).Wf := by
        cases hw with | obj _ h => exact h _ (lookupKey_some_mem hx)
      obtain ⟨hnd, hwx⟩ : (xs.map (·.1)).Nodup ∧ ∀ x ∈ xs, x.2.Wf := by
        cases hwx with | obj h1 h2 => exact ⟨h1, h2⟩
      have hin : ∀ x ∈ xs, x.2.Within (.obj kvs) := fun x hm => Json.Within.trans (.obj hm .self) (within_lookup hx)
      have hmem : ∀ x ∈ xs, x.1 ∈ name :: (schemaDefs (.obj kvs)).map (·.1) :=
        fun x hm => by rw [hxs]; exact List.mem_cons_of_mem _ (List.mem_map.2 ⟨x, hm, rfl⟩)
      exact definitions_names _ xs _ _ hdx hnd
        (fun x hm => ⟨hwx x hm, ht.sub (hin x hm), htn.sub (hin x hm), hs.ends x.1 (hmem x hm)⟩)
        (fun x hm y hm' => hs.apart x.1 (hmem x hm) y.1 (hmem y hm')) h0 hst1
  obtain ⟨g1, -, -⟩ := node_names cfg top.node (.obj kvs) name st1 d st hden hw ht htn key.2 hd
  have hall := (key.1.trans g1 (by
    rintro k ⟨x, hx, hk⟩ hk'
    have hm : x.1 ∈ name :: (schemaDefs (.obj kvs)).map (·.1) := List.mem_cons_of_mem _ (List.mem_map.2 ⟨x, hx, rfl⟩)
    rcases inContext_apart hk.2 hk'.2 (hs.ends _ hm) (hs.ends name (by simp)) with h | h | h
    · exact hs.top (h ▸ List.mem_map.2 ⟨x, hx, rfl⟩)
    · exact hs.apart _ hm _ (by simp) h
    · exact hs.apart _ (by simp) _ hm h)).imp (Q := fun k => k.1 = cfg.modName) (by
    rintro k (⟨x, _, hk⟩ | hk)
    · exact hk.1
    · exact hk.1)
  exact hall.more

end Verif
