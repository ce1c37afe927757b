import Verif.Lemmas.Aliases
/-!
# Creation of deserializers for types with names comes to an end
-/
namespace Verif

theorem countP_lt {p q : α → Bool} : ∀ {l : List α}, (∀ x ∈ l, p x = true → q x = true) → (∃ x ∈ l, p x = false ∧ q x = true) →
    l.countP p < l.countP q
  | [], _, h => by obtain ⟨x, hx, _⟩ := h; cases hx
  | y :: ys, h, hx => by
    have hle : ys.countP p ≤ ys.countP q := List.countP_mono_left fun x hx => h x (by simp [hx])
    obtain ⟨x, hx, h1, h2⟩ := hx
    rcases List.mem_cons.1 hx with rfl | hx
    · rw [List.countP_cons_of_neg (by simp [h1]), List.countP_cons_of_pos h2]; omega
    · have ih := countP_lt (fun z hz => h z (by simp [hz])) ⟨x, hx, h1, h2⟩
      by_cases hy : p y = true
      · rw [List.countP_cons_of_pos hy, List.countP_cons_of_pos (h y (by simp) hy)]; omega
      · rw [List.countP_cons_of_neg hy]
        by_cases hq : q y = true
        · rw [List.countP_cons_of_pos hq]; omega
        · rw [List.countP_cons_of_neg hq]; omega

theorem mapRes_ends {f : Nat → α → Res β} {Q : α → β → Prop} : ∀ {xs : List α}, (∀ x ∈ xs, ∃ N y, (∀ n, N ≤ n → f n x = .ok y) ∧ Q x y) →
    ∃ N ys, (∀ n, N ≤ n → mapRes (f n) xs = .ok ys) ∧ All2 Q xs ys
  | [], _ => ⟨0, [], fun _ _ => rfl, .nil⟩
  | x :: xs, h => by
    obtain ⟨N, y, h1, h2⟩ := h x (by simp)
    obtain ⟨M, ys, h3, h4⟩ := mapRes_ends (xs := xs) fun z hz => h z (by simp [hz])
    refine ⟨max N M, y :: ys, fun n hn => ?_, .cons h2 h4⟩
    simp only [mapRes, h1 n (by omega), h3 n (by omega)]

theorem asRef_of_unwrap {o : ATy} (h : o.unwrap.name? = none) : o.asRef = o := by
  cases o <;> first | rfl | cases h

theorem name_of_unwrap {o : ATy} (h : o.unwrap.name? = none) : o.name? = none := by
  cases o <;> first | rfl | cases h

section
variable {w : AliasWorld}

theorem Proper.asRef {o : ATy} (h : Proper w o) : Proper w o.asRef := by
  cases h with
  | text s o h1 h2 h3 => exact .ref s o h1 h2 h3
  | plain t d h => exact .plain t d h
  | node f os h1 h2 h3 => exact .node f os h1 h2 h3
  | annotated o h1 h2 => exact .annotated o h1 h2
  | ref s o h1 h2 h3 => exact .ref s o h1 h2 h3

theorem eval_var {s : Str} {o : ATy} (h1 : s ≠ c!"typ") (h2 : s ≠ c!"module") (h3 : lookupKey s w.vars = some o) : w.eval s = .ok o := by
  simp only [AliasWorld.eval, if_neg h1, if_neg h2, h3]

/-- The result of the evaluation of a forward reference. -/
structure Resolved (w : AliasWorld) (g : List Str) (o t : ATy) : Prop where
  proper : Proper w t
  type : o.unwrap.name? = none → t.unwrap.name? = none
  known : ∀ s, o.name? = some s → s ∉ g → t.unwrap.name? = none
  chain : ∀ u, Chain w t u → Chain w o u

theorem resolve_ends (hw : w.Proper) : ∀ (k : Nat) (g : List Str), (w.vars.map (·.1)).countP (fun s => !g.contains s) ≤ k → ∀ {o : ATy},
    Proper w o → ∃ N t, (∀ n, N ≤ n → w.resolve n g o.asRef = .ok t) ∧ Resolved w g o t := by
  intro k
  induction k with
  | zero =>
    intro g hg o ho
    exact resolve_level hw g (fun s o h1 h2 h3 hm => by
      have : (s, o) ∈ w.vars := lookupKey_some_mem h3
      have : 0 < (w.vars.map (·.1)).countP (fun s => !g.contains s) :=
        List.countP_pos_iff.2 ⟨s, List.mem_map.2 ⟨_, this, rfl⟩, by simpa using hm⟩
      omega) ho
  | succ k ih =>
    intro g hg o ho
    refine resolve_level hw g (fun s o h1 h2 h3 hm => ?_) ho
    have hv : (s, o) ∈ w.vars := lookupKey_some_mem h3
    have : (w.vars.map (·.1)).countP (fun x => !(s :: g).contains x) < (w.vars.map (·.1)).countP (fun x => !g.contains x) :=
      countP_lt (fun x _ hx => by simp at hx ⊢; exact hx.2) ⟨s, List.mem_map.2 ⟨_, hv, rfl⟩, by simp, by simpa using hm⟩
    exact ih (s :: g) (Nat.le_of_lt_succ (Nat.lt_of_lt_of_le this hg)) (hw s o hv).1
where
  resolve_level (hw : w.Proper) (g : List Str) (hr : ∀ s o, s ≠ c!"typ" → s ≠ c!"module" → lookupKey s w.vars = some o → s ∉ g →
      ∃ N t, (∀ n, N ≤ n → w.resolve n (s :: g) o.asRef = .ok t) ∧ Resolved w (s :: g) o t) {o : ATy} (ho : Proper w o) :
      ∃ N t, (∀ n, N ≤ n → w.resolve n g o.asRef = .ok t) ∧ Resolved w g o t := by
    have name : ∀ s o', s ≠ c!"typ" → s ≠ c!"module" → lookupKey s w.vars = some o' →
        ∃ N t, (∀ n, N ≤ n → w.resolve n g (.ref s) = .ok t) ∧ Proper w t ∧ (s ∉ g → t.unwrap.name? = none) ∧
          ∀ u, Chain w t u → Chain w (.ref s) u := by
      intro s o' h1 h2 h3
      by_cases hm : s ∈ g
      · refine ⟨1, .ref s, fun n hn => ?_, .ref s o' h1 h2 h3, fun h => absurd hm h, fun _ h => h⟩
        obtain ⟨m, rfl⟩ : ∃ m, n = m + 1 := ⟨n - 1, by omega⟩
        simp [AliasWorld.resolve, hm]
      · obtain ⟨N, t, h4, h5⟩ := hr s o' h1 h2 h3 hm
        have hv := hw s o' (lookupKey_some_mem h3)
        refine ⟨N + 1, t, fun n hn => ?_, h5.proper, fun _ => h5.type hv.2, fun u hu => .ref s o' u (eval_var h1 h2 h3) (h5.chain u hu)⟩
        obtain ⟨m, rfl⟩ : ∃ m, n = m + 1 := ⟨n - 1, by omega⟩
        have : g.contains s = false := by simpa using hm
        simp only [AliasWorld.resolve, this, Bool.false_eq_true, if_false, eval_var h1 h2 h3]
        have hne : o' ≠ .other := fun h => by subst h; cases hv.1
        cases o' with
        | other => exact absurd rfl hne
        | _ => exact h4 m (by omega)
    induction ho with
    | plain t d h =>
      refine ⟨1, .ty t, fun n hn => ?_, .plain t d h, fun h => h, fun s hs => (by cases hs), fun _ h => h⟩
      obtain ⟨m, rfl⟩ : ∃ m, n = m + 1 := ⟨n - 1, by omega⟩
      rfl
    | node f os h1 _ h3 ih =>
      obtain ⟨N, ts, h4, h5⟩ := mapRes_ends ih
      refine ⟨N + 1, .node f ts, fun n hn => ?_, .node f ts (h5.length ▸ h1) (fun t ht => ?_) (fun us hf hu => ?_), fun _ => rfl,
        fun s hs => (by cases hs), fun u hu => (by cases hu)⟩
      · obtain ⟨m, rfl⟩ : ∃ m, n = m + 1 := ⟨n - 1, by omega⟩
        show w.resolve (m + 1) g (.node f os) = _
        simp only [AliasWorld.resolve, h4 m (by omega)]
      · obtain ⟨o, _, h6⟩ := h5.mem_right ht
        exact h6.proper
      · exact h3 us hf (all2_comp (fun o t u (h6 : Resolved w g o t) h7 => h6.chain u h7) h5 hu)
    | annotated o h1 h2 ih =>
      obtain ⟨N, t, h3, h4⟩ := ih
      refine ⟨N + 1, .annotated t, fun n hn => ?_, .annotated t h4.proper (h4.type h2), fun _ => h4.type h2, fun s hs => (by cases hs),
        fun u hu => (by cases hu)⟩
      obtain ⟨m, rfl⟩ : ∃ m, n = m + 1 := ⟨n - 1, by omega⟩
      have := h3 m (by omega)
      rw [asRef_of_unwrap h2] at this
      simp only [ATy.asRef, AliasWorld.resolve, this]
    | text s o' h1 h2 h3 =>
      obtain ⟨N, t, h4, h5, h6, h7⟩ := name s o' h1 h2 h3
      exact ⟨N, t, h4, h5, fun h => (by cases h), fun x hx => (by cases hx; exact h6), fun u hu => (Chain.of_asRef (o := .text s) (h7 u hu))⟩
    | ref s o' h1 h2 h3 =>
      obtain ⟨N, t, h4, h5, h6, h7⟩ := name s o' h1 h2 h3
      exact ⟨N, t, h4, h5, fun h => (by cases h), fun x hx => (by cases hx; exact h6), h7⟩

theorem create_proper {t : ATy} (h : Proper w t) (hn : t.unwrap.name? = none) :
    ∃ p, w.create t.unwrap = .ok p ∧ ∀ f os, p = .node f os → ∀ o ∈ os, Proper w o := by
  induction h with
  | plain t d h =>
    refine ⟨.leaf t, ?_, fun f os h => by cases h⟩
    simp only [ATy.unwrap, AliasWorld.create, h]
  | node f os h1 h2 h3 =>
    refine ⟨.node f os, ?_, fun f' os' h => by cases h; exact h2⟩
    cases f with
    | list => simp only [AForm.Takes] at h1; simp only [ATy.unwrap, AliasWorld.create, h1, if_true]
    | set => simp only [AForm.Takes] at h1; simp only [ATy.unwrap, AliasWorld.create, h1, if_true]
    | dict k => simp only [AForm.Takes] at h1; simp only [ATy.unwrap, AliasWorld.create, h1.1, h1.2, if_true]
    | tuple => rfl
    | union =>
      simp only [ATy.unwrap, AliasWorld.create]
      cases hp : plainL os with
      | none => rfl
      | some ts => simp only [h3 ts rfl (plainL_chain hp), if_true]
  | annotated o _ _ ih => exact ih hn
  | text => cases hn
  | ref => cases hn

theorem sane_put_none {H : AHeap} (hs : H.Sane w) (s : Str) : AHeap.Sane w (H.put s none) := by
  refine ⟨fun x y hx => ?_, fun x y hx => ?_⟩
  · by_cases h : x = s
    · subst h; rw [put_same] at hx; cases hx
    · rw [put_other H _ h] at hx; exact hs.rep x y hx
  · by_cases h : x = s
    · subst h; rw [put_same] at hx; cases hx
    · rw [put_other H _ h] at hx
      exact (hs.present x y hx).mono fun z hz => put_ne_none H s _ hz

/-- Names without an entry in the cache. -/
def missingNames (w : AliasWorld) (H : AHeap) : Nat := (w.vars.map (·.1)).countP (fun s => (H s).isNone)

theorem missingNames_grows {H H' : AHeap} (h : AGrows w H H') : missingNames w H' ≤ missingNames w H :=
  List.countP_mono_left fun s _ hs => by
    cases he : H s with
    | none => rfl
    | some e => rw [h.keep s e he] at hs; cases hs

theorem missingNames_put {H : AHeap} {s : Str} (hs : s ∈ w.vars.map (·.1)) (hn : H s = none) (e : Option AReader) :
    missingNames w (H.put s e) < missingNames w H :=
  countP_lt (fun x _ hx => by
    by_cases h : x = s
    · subst h; rw [put_same] at hx; cases hx
    · rwa [put_other H e h] at hx) ⟨s, hs, by rw [put_same]; rfl, by rw [hn]; rfl⟩

/-- A deserializer for the type is made, whatever has been made before. -/
def Ends (w : AliasWorld) (k : Nat) (o : ATy) : Prop :=
  ∀ H : AHeap, H.Sane w → missingNames w H ≤ k → ∃ N r H', ∀ n, N ≤ n → w.get true n o H = (.ok r, H')

theorem getAll_ends {k : Nat} : ∀ {os : List ATy}, (∀ o ∈ os, Ends w k o) → ∀ {H : AHeap}, H.Sane w → missingNames w H ≤ k →
    ∃ N rs H', ∀ n, N ≤ n → getAll (w.get true n) os H = (.ok rs, H')
  | [], _, H, _, _ => ⟨0, [], H, fun _ _ => rfl⟩
  | o :: os, h, H, hs, hm => by
    obtain ⟨N, r, H1, h1⟩ := h o (by simp) H hs hm
    obtain ⟨g, _, _⟩ := get_makes (w := w) true N _ _ _ _ (h1 N (by omega)) hs
    have := missingNames_grows g
    obtain ⟨M, rs, H2, h2⟩ := getAll_ends (fun x hx => h x (List.mem_cons_of_mem _ hx)) g.sane (by omega)
    refine ⟨max N M, r :: rs, H2, fun n hn => ?_⟩
    simp only [getAll, h1 n (by omega), h2 n (by omega)]

theorem build_ends {k : Nat} {p : APlan} (hp : ∀ f os, p = .node f os → ∀ o ∈ os, Ends w k o) {H : AHeap} (hs : H.Sane w)
    (hm : missingNames w H ≤ k) : ∃ N r H', ∀ n, N ≤ n → p.build (w.get true n) H = (.ok r, H') := by
  cases p with
  | leaf t => exact ⟨0, .leaf t, H, fun _ _ => rfl⟩
  | node f os =>
    obtain ⟨N, rs, H', h⟩ := getAll_ends (hp f os rfl) hs hm
    refine ⟨N, .node f rs, H', fun n hn => ?_⟩
    simp only [APlan.build, h n hn]

/-- A name, given that the parts of its type end for smaller caches. -/
theorem name_ends {k : Nat} (hw : w.Proper) {o : ATy} {s : Str} (hn : o.name? = some s) (ho : Proper w o)
    (hk : ∀ H : AHeap, H.Sane w → missingNames w H < k → ∀ o, Proper w o → ∃ N r H', ∀ n, N ≤ n → w.get true n o H = (.ok r, H'))
    (H : AHeap) (hs : H.Sane w) (hm : missingNames w H ≤ k) : ∃ N r H', ∀ n, N ≤ n → w.get true n o H = (.ok r, H') := by
  have he : ∃ N t, (∀ n, N ≤ n → w.evaluate n o = .ok t) ∧ Proper w t ∧ t.unwrap.name? = none := by
    cases ho with
    | text s' o' h1 h2 h3 =>
      have hv := hw s' o' (lookupKey_some_mem h3)
      exact ⟨0, o', fun _ _ => eval_var h1 h2 h3, hv.1, hv.2⟩
    | ref s' o' h1 h2 h3 =>
      obtain ⟨N, t, h4, h5⟩ := resolve_ends hw _ [] (Nat.le_refl _) (Proper.ref s' o' h1 h2 h3)
      exact ⟨N, t, h4, h5.proper, h5.known s' rfl (by simp)⟩
    | _ => cases hn
  have hv : s ∈ w.vars.map (·.1) ∧ (lookupKey s w.vars).isSome = true := by
    cases ho with
    | text s' o' h1 h2 h3 => cases hn; exact ⟨List.mem_map.2 ⟨_, lookupKey_some_mem h3, rfl⟩, by rw [h3]; rfl⟩
    | ref s' o' h1 h2 h3 => cases hn; exact ⟨List.mem_map.2 ⟨_, lookupKey_some_mem h3, rfl⟩, by rw [h3]; rfl⟩
    | _ => cases hn
  obtain ⟨N, t, h1, h2, h3⟩ := he
  obtain ⟨p, h4, h5⟩ := create_proper h2 h3
  by_cases hcls : t.unwrap.isClass = true
  · -- a class has no parts with names
    have hkey : w.key o t.unwrap = none := by simp [AliasWorld.key, hcls]
    have hleaf : ∃ u, p = .leaf u := by
      cases hu : t.unwrap with
      | ty u =>
        rw [hu] at h4
        simp only [AliasWorld.create] at h4
        split at h4
        · cases h4
        · cases h4; exact ⟨u, rfl⟩
      | _ => rw [hu] at hcls; cases hcls
    obtain ⟨u, rfl⟩ := hleaf
    refine ⟨N + 1, .leaf u, H, fun n hn' => ?_⟩
    obtain ⟨m, rfl⟩ : ∃ m, n = m + 1 := ⟨n - 1, by omega⟩
    simp [AliasWorld.get, h1 m (by omega), hkey, h4, APlan.build]
  · have hkey : w.key o t.unwrap = some s := by simp [AliasWorld.key, hcls, hn, hv.2]
    cases hh : H s with
    | some e =>
      refine ⟨N + 1, .ref s, H, fun n hn' => ?_⟩
      obtain ⟨m, rfl⟩ : ∃ m, n = m + 1 := ⟨n - 1, by omega⟩
      simp [AliasWorld.get, h1 m (by omega), hkey, hh]
    | none =>
      have hlt := missingNames_put hv.1 hh none
      obtain ⟨M, r, H', h6⟩ := build_ends (k := missingNames w (H.put s none)) (p := p)
        (fun f os hp o ho H' hs' hm' => hk H' hs' (by omega) o (h5 f os hp o ho)) (sane_put_none hs s) (Nat.le_refl _)
      refine ⟨max N M + 1, .ref s, H'.put s (some r), fun n hn' => ?_⟩
      obtain ⟨m, rfl⟩ : ∃ m, n = m + 1 := ⟨n - 1, by omega⟩
      simp [AliasWorld.get, h1 m (by omega), hkey, hh, h4, h6 m (by omega)]

theorem get_annotated {o : ATy} (h : o.unwrap.name? = none) (n : Nat) (H : AHeap) :
    w.get true n (.annotated o) H = w.get true n o H := by
  cases n with
  | zero => rfl
  | succ n =>
    have hn := name_of_unwrap h
    have he : w.evaluate n o = .ok o := by cases o <;> first | rfl | cases hn
    simp only [AliasWorld.get, he, hn]
    have : w.key (.annotated o) o.unwrap = w.key o o.unwrap := by simp only [AliasWorld.key, hn]; rfl
    simp only [AliasWorld.evaluate, ATy.unwrap, this]
    rfl

theorem get_ends (hw : w.Proper) : ∀ (k : Nat) (H : AHeap), H.Sane w → missingNames w H < k → ∀ o, Proper w o →
    ∃ N r H', ∀ n, N ≤ n → w.get true n o H = (.ok r, H')
  | 0, _, _, h, _, _ => by omega
  | k + 1, H, hs, hm, o, ho => by
    have ih := get_ends hw k
    have main : Ends w k o := by
      clear hm hs H
      induction ho with
      | plain t d h =>
        intro H hs hm
        refine ⟨1, .leaf t, H, fun n hn => ?_⟩
        obtain ⟨m, rfl⟩ : ∃ m, n = m + 1 := ⟨n - 1, by omega⟩
        have hk : w.key (.ty t) (.ty t) = none := by unfold AliasWorld.key; split <;> rfl
        simp [AliasWorld.get, ATy.name?, AliasWorld.evaluate, ATy.unwrap, hk, AliasWorld.create, h, APlan.build]
      | node f os h1 h2 h3 ihk =>
        intro H hs hm
        obtain ⟨p, h4, h5⟩ := create_proper (Proper.node f os h1 h2 h3) rfl
        have hp : p = .node f os := by
          cases f with
          | list => simp only [ATy.unwrap, AliasWorld.create] at h4; split at h4 <;> cases h4; rfl
          | set => simp only [ATy.unwrap, AliasWorld.create] at h4; split at h4 <;> cases h4; rfl
          | dict k =>
            simp only [ATy.unwrap, AliasWorld.create] at h4
            split at h4
            · split at h4 <;> cases h4; rfl
            · cases h4
          | tuple => cases h4; rfl
          | union =>
            simp only [ATy.unwrap, AliasWorld.create] at h4
            cases hp : plainL os with
            | none => rw [hp] at h4; cases h4; rfl
            | some ts => simp only [hp, h3 ts rfl (plainL_chain hp), if_true] at h4; cases h4; rfl
        subst hp
        obtain ⟨N, r, H', h6⟩ := build_ends (k := k) (p := .node f os) (fun f' os' hp o ho => by cases hp; exact ihk o ho) hs hm
        refine ⟨N + 1, r, H', fun n hn => ?_⟩
        obtain ⟨m, rfl⟩ : ∃ m, n = m + 1 := ⟨n - 1, by omega⟩
        simp only [ATy.unwrap] at h4
        simp [AliasWorld.get, ATy.name?, AliasWorld.evaluate, ATy.unwrap, AliasWorld.key, ATy.isClass, h4, h6 m (by omega)]
      | annotated o h1 h2 iho =>
        intro H hs hm
        obtain ⟨N, r, H', h3⟩ := iho H hs hm
        exact ⟨N, r, H', fun n hn => by rw [get_annotated h2]; exact h3 n hn⟩
      | text s o' h1 h2 h3 =>
        intro H hs hm
        exact name_ends hw rfl (.text s o' h1 h2 h3) ih H hs hm
      | ref s o' h1 h2 h3 =>
        intro H hs hm
        exact name_ends hw rfl (.ref s o' h1 h2 h3) ih H hs hm
    exact main H hs (by omega)

theorem AHeap.Used.props {H : AHeap} (h : H.Used w) : H.Sane w ∧ H.Complete := by
  induction h with
  | fresh => exact ⟨⟨fun s r h => (by cases h), fun s r h => (by cases h)⟩, fun s h => (by cases h)⟩
  | call context n o H r H' _ h ih =>
    obtain ⟨g, _, _⟩ := get_makes context n _ _ _ _ h ih.1
    exact ⟨g.sane, fun s hs => ih.2 s (g.fresh s hs)⟩

/-! ### Names can be replaced to every depth -/

theorem Tops.known {o : ATy} {s : Str} (h : Tops o s) (ho : Proper w o) : (lookupKey s w.vars).isSome = true := by
  induction h with
  | text s => cases ho with | text _ o h1 h2 h3 => rw [h3]; rfl
  | ref s => cases ho with | ref _ o h1 h2 h3 => rw [h3]; rfl
  | union os o s hm _ ih => cases ho with | node _ _ _ hk _ => exact ih (hk o hm)
  | annotated o s _ ih => cases ho with | annotated _ h _ => exact ih h

/-- Ranks of variables have a bound. -/
theorem rank_bound (rank : Str → Nat) : ∀ vars : List (Str × ATy), ∃ K, ∀ s, (lookupKey s vars).isSome = true → rank s < K
  | [] => ⟨0, fun s h => (by cases h)⟩
  | (x, o) :: vars => by
    obtain ⟨K, hK⟩ := rank_bound rank vars
    refine ⟨max K (rank x + 1), fun s hs => ?_⟩
    by_cases h : s = x
    · subst h; omega
    · have : (lookupKey s vars).isSome = true := by
        have hx : ¬ x = s := fun h' => h h'.symm
        simpa [lookupKey, hx] using hs
      have := hK s this
      omega

/-- Of a type without names that results from the replacement, a class is one that the object is a name of. -/
theorem unfolds_type {n : Nat} {o : ATy} {t : Ty} (h : Unfolds w (n + 1) o t) (ht : t.isType = true) : Chain w o t := by
  generalize hm : n + 1 = m at h
  induction h with
  | cut => omega
  | plain n t => exact .plain t
  | node n f os ts t _ _ _ hf =>
    cases f with
    | union => cases hf; cases ht
    | tuple => cases hf; cases ht
    | list => cases ts with | nil => cases hf | cons a ts => cases ts with | nil => cases hf; cases ht | cons => cases hf
    | set => cases ts with | nil => cases hf | cons a ts => cases ts with | nil => cases hf; cases ht | cons => cases hf
    | dict => cases ts with | nil => cases hf | cons a ts => cases ts with | nil => cases hf; cases ht | cons => cases hf
  | union => cases ht
  | annotated => cases ht
  | text n s o t ho _ ih => exact .text s o t ho (ih ht hm)
  | ref n s o t ho _ ih => exact .ref s o t ho (ih ht hm)

theorem compileL_of_all {env : Env} : ∀ {ts : List Ty}, (∀ t ∈ ts, ∃ d, compile env t = .ok d) → ∃ ds, compileL env ts = .ok ds
  | [], _ => ⟨[], rfl⟩
  | t :: ts, h => by
    obtain ⟨d, hd⟩ := h t (by simp)
    obtain ⟨ds, hds⟩ := compileL_of_all (ts := ts) fun x hx => h x (by simp [hx])
    exact ⟨d :: ds, by simp only [compileL, hd, hds]⟩

/-- There is a type with arguments, and a deserializer for it. -/
theorem type_exists {f : AForm} {ts : List Ty} (h : f.Takes w.env ts.length) (hk : ∀ t ∈ ts, ∃ d, compile w.env t = .ok d)
    (hu : f = .union → discProps w.env ts = []) : ∃ t d, f.type ts = some t ∧ compile w.env t = .ok d := by
  have one : ∀ {ts : List Ty}, ts.length = 1 → ∃ a, ts = [a] := by
    intro ts h
    cases ts with
    | nil => cases h
    | cons a ts => cases ts with | nil => exact ⟨a, rfl⟩ | cons => simp at h
  cases f with
  | list =>
    obtain ⟨a, rfl⟩ := one h
    obtain ⟨d, hd⟩ := hk a (by simp)
    exact ⟨.list a, .list d, rfl, by simp only [compile, hd]⟩
  | set =>
    obtain ⟨a, rfl⟩ := one h
    obtain ⟨d, hd⟩ := hk a (by simp)
    exact ⟨.set a, .set d, rfl, by simp only [compile, hd]⟩
  | dict k =>
    obtain ⟨a, rfl⟩ := one h.1
    obtain ⟨d, hd⟩ := hk a (by simp)
    exact ⟨.dict k a, .dict k d, rfl, by simp only [compile, h.2, hd]⟩
  | tuple =>
    obtain ⟨ds, hd⟩ := compileL_of_all hk
    exact ⟨.tuple ts, .tuple ds, rfl, by simp only [compile, hd]⟩
  | union =>
    obtain ⟨ds, hd⟩ := compileL_of_all hk
    exact ⟨.union ts, .union ds, rfl, by simp only [compile, hu rfl, if_true, hd]⟩

theorem all2_exists {R : α → β → Prop} : ∀ {as : List α}, (∀ a ∈ as, ∃ b, R a b) → ∃ bs, All2 R as bs
  | [], _ => ⟨[], .nil⟩
  | a :: as, h => by
    obtain ⟨b, hb⟩ := h a (by simp)
    obtain ⟨bs, hbs⟩ := all2_exists (as := as) fun x hx => h x (by simp [hx])
    exact ⟨b :: bs, .cons hb hbs⟩

theorem unfolds_exist (hw : w.Proper) {rank : Str → Nat} (hr : ∀ s o s', lookupKey s w.vars = some o → Tops o s' → rank s' < rank s) :
    ∀ (n k : Nat) {o : ATy}, Proper w o → (∀ s, Tops o s → rank s < k) → ∃ t d, Unfolds w n o t ∧ compile w.env t = .ok d
  | 0, _, o, _, _ => ⟨.none, .none, .cut o .none, rfl⟩
  | n + 1, k, o, ho, hk => by
    obtain ⟨K, hK⟩ := rank_bound rank w.vars
    have deeper : ∀ {o : ATy}, Proper w o → ∃ t d, Unfolds w n o t ∧ compile w.env t = .ok d :=
      fun ho => unfolds_exist hw hr n K ho fun s hs => hK s (hs.known ho)
    induction k generalizing o with
    | zero =>
      refine level hr deeper (fun s o hs _ => ?_) ho hk
      exact absurd hs (by omega)
    | succ k ih =>
      refine level hr deeper (fun s o hs ho => ?_) ho hk
      exact ih o (hw s o (lookupKey_some_mem ho)).1 fun s' hs' => by have := hr s o s' ho hs'; omega
where
  level {rank : Str → Nat} (hr : ∀ s o s', lookupKey s w.vars = some o → Tops o s' → rank s' < rank s) {n k : Nat}
      (deeper : ∀ {o : ATy}, Proper w o → ∃ t d, Unfolds w n o t ∧ compile w.env t = .ok d)
      (names : ∀ s o, rank s < k → lookupKey s w.vars = some o → ∃ t d, Unfolds w (n + 1) o t ∧ compile w.env t = .ok d)
      {o : ATy} (ho : Proper w o) (hk : ∀ s, Tops o s → rank s < k) : ∃ t d, Unfolds w (n + 1) o t ∧ compile w.env t = .ok d := by
    induction ho with
    | plain t d h => exact ⟨t, d, .plain (n + 1) t, h⟩
    | node f os h1 h2 h3 ih =>
      by_cases hf : f = .union
      · subst hf
        obtain ⟨ts, hts⟩ := all2_exists (R := fun o t => Unfolds w (n + 1) o t ∧ ∃ d, compile w.env t = .ok d) (as := os) fun o ho => by
          obtain ⟨t, d, h4, h5⟩ := ih o ho fun s hs => hk s (.union os o s ho hs)
          exact ⟨t, h4, d, h5⟩
        have hd : discProps w.env ts = [] := by
          by_cases ha : ts.all Ty.isType = true
          · refine h3 ts rfl ?_
            have ha : ∀ t ∈ ts, t.isType = true := List.all_eq_true.1 ha
            exact all2_zip.2 ⟨hts.length, fun p hp => unfolds_type ((all2_zip.1 hts).2 p hp).1 (ha p.2 (List.of_mem_zip hp).2)⟩
          · cases ts with
            | nil => rfl
            | cons a ts => simp only [discProps, ha, if_false, Bool.false_eq_true]
        obtain ⟨t, d, h4, h5⟩ := type_exists (f := .union) (ts := ts) trivial
          (fun t ht => by obtain ⟨_, _, _, h⟩ := hts.mem_right ht; exact h) (fun _ => hd)
        cases h4
        exact ⟨.union ts, d, .union (n + 1) os ts hts.length (fun p hp => ((all2_zip.1 hts).2 p hp).1) hd, h5⟩
      · obtain ⟨ts, hts⟩ := all2_exists (R := fun o t => Unfolds w n o t ∧ ∃ d, compile w.env t = .ok d) (as := os) fun o ho => by
          obtain ⟨t, d, h4, h5⟩ := deeper (h2 o ho)
          exact ⟨t, h4, d, h5⟩
        obtain ⟨t, d, h4, h5⟩ := type_exists (f := f) (ts := ts) (hts.length ▸ h1)
          (fun t ht => by obtain ⟨_, _, _, h⟩ := hts.mem_right ht; exact h) (fun h => absurd h hf)
        exact ⟨t, d, .node n f os ts t hf hts.length (fun p hp => ((all2_zip.1 hts).2 p hp).1) h4, h5⟩
    | annotated o _ _ ih =>
      obtain ⟨t, d, h1, h2⟩ := ih fun s hs => hk s (.annotated o s hs)
      exact ⟨.annotated t [], d, .annotated (n + 1) o t h1, h2⟩
    | text s o h1 h2 h3 =>
      obtain ⟨t, d, h4, h5⟩ := names s o (hk s (.text s)) h3
      exact ⟨t, d, .text (n + 1) s o t (eval_var h1 h2 h3) h4, h5⟩
    | ref s o h1 h2 h3 =>
      obtain ⟨t, d, h4, h5⟩ := names s o (hk s (.ref s)) h3
      exact ⟨t, d, .ref (n + 1) s o t (eval_var h1 h2 h3) h4, h5⟩

end
end Verif
