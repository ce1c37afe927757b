import Verif.Lemmas.ClassBuildTy
import Verif.Lemmas.EnumBuild
/-!
# What is made from a node
-/
namespace Verif

/-! ### The program grows -/

/-- The second program has the classes and enumerations of the first one, up to the name of their module. -/
structure Grows (A B : Env) : Prop where
  classes : ∀ (c : Nat) cd, A.classes[c]? = some cd → ∃ m, B.classes[c]? = some { cd with module := m }
  enums : ∀ (e : Nat) ed, A.enums[e]? = some ed → ∃ m, B.enums[e]? = some { ed with module := m }

theorem Grows.refl (A : Env) : Grows A A := ⟨fun _ cd h => ⟨cd.module, h⟩, fun _ ed h => ⟨ed.module, h⟩⟩

theorem Grows.trans {A B C : Env} (h : Grows A B) (h' : Grows B C) : Grows A C where
  classes c cd hc := by
    obtain ⟨m, h1⟩ := h.classes c cd hc
    obtain ⟨m', h2⟩ := h'.classes c _ h1
    exact ⟨m', h2⟩
  enums e ed he := by
    obtain ⟨m, h1⟩ := h.enums e ed he
    obtain ⟨m', h2⟩ := h'.enums e _ h1
    exact ⟨m', h2⟩

/-! ### Types of nodes -/

/-- Everything found in the first list is found in the second. -/
def FindsLe (F G : List (Str × Ty)) : Prop := ∀ k T, lookupKey k F = some T → lookupKey k G = some T

mutual
/-- The type that a node stands for, in a program `E` and with the types `F` of the definitions; `names` are the names of all
definitions. -/
def TypeOf (E : Env) (names : List Str) (F : List (Str × Ty)) : TNode → Ty → Prop
  | .ref r, T => (∃ m, r = defRef m ∧ '/' ∉ m ∧ '%' ∉ m ∧ '~' ∉ m) ∧ ∀ name ∈ names, r = defRef name → lookupKey name F = some T
  | .bool c _, T => T = .bool ∨ ∃ b, c = some b ∧ T = .literal [.bool b]
  | .int _ c _ _ _ _, T => T = .int ∨ (∃ ms, T = .annotated .int ms) ∨ ∃ i, c = some i ∧ T = .literal [.int i]
  | .num _ _ _ _ _ _, T => T = .float ∨ ∃ ms, T = .annotated .float ms
  | .str f c _ e _, T => T = .str ∨ (∃ ms, T = .annotated .str ms) ∨ (∃ s, c = some s ∧ T = .literal [.str s]) ∨
      (∃ p, f = some p ∧ (p, T) ∈ textFormats) ∨
      ∃ vs k ed, e = some vs ∧ T = .enum k ∧ E.enums[k]? = some ed ∧ ∀ v ∈ vs, ∃ m ∈ ed.members, m.2 = .str v
  | .arr n, T => ∃ t, T = .list t ∧ Made t ∧ TypeOf E names F n t
  | .obj Option.none _ _, _ => False
  | .obj (some ps) a req, T => a = some false ∧ ∃ c cd fs, T = .cls c ∧ E.classes[c]? = some cd ∧ cd.kind = .dataclass false ∧
      cd.fromJson = Option.none ∧ cd.fields.Perm fs ∧ FieldsOf E names F ps (req.getD []) fs
  | .oneOf ns, T => ∃ ts, (∀ t ∈ ts, Made t) ∧ pyUnion ts = .ok T ∧ TypesOf E names F ns ts
/-- The fields for properties. -/
def FieldsOf (E : Env) (names : List Str) (F : List (Str × Ty)) : List (Str × TNode) → List Str → List FieldDef → Prop
  | [], _, fs => fs = []
  | (k, n) :: r, req, fs => ∃ f fs' t, fs = f :: fs' ∧ f.name = k ∧ Made t ∧ TypeOf E names F n t ∧
      (if k ∈ req then f.ty = t else pyUnion [.none, t] = .ok f.ty) ∧ FieldsOf E names F r req fs'
/-- The types for members. -/
def TypesOf (E : Env) (names : List Str) (F : List (Str × Ty)) : List TNode → List Ty → Prop
  | [], ts => ts = []
  | n :: r, ts => ∃ t ts', ts = t :: ts' ∧ TypeOf E names F n t ∧ TypesOf E names F r ts'
end

/-! ### Conditions while types are made -/

/-- The definition being made is `bad`; attributes with the name of another definition are as in `F`. -/
def AttrsOk (names : List Str) (F : List (Str × Ty)) (bad : Str) (attrs : List (Str × Ty)) : Prop :=
  ∀ k T, lookupKey k attrs = some T → Made T ∧ (k ∈ names → k ≠ bad → lookupKey k F = some T)

/-- The name of a class is the name of the definition, or that followed by names of properties. -/
def InContext (bad ctx : Str) : Prop := ctx = bad ∨ (bad ++ c!"__") <+: ctx

/-- The schema does not refer to `bad` and its enumerations are safe. -/
def SafeIn (uni : Char → Bool) (names : List Str) (bad : Str) (s : Json) : Prop :=
  ∀ kvs, (Json.obj kvs).Within s → (bad ∈ names → lookupKey c!"$ref" kvs ≠ some (.str (defRef bad))) ∧
    ∀ vs, lookupKey c!"enum" kvs = some (.arr (vs.map Json.str)) → SafeValues uni vs

theorem SafeIn.sub {uni : Char → Bool} {names : List Str} {bad : Str} {s x : Json} (h : SafeIn uni names bad s)
    (hx : x.Within s) : SafeIn uni names bad x := fun kvs hk => h kvs (hk.trans hx)

theorem InContext.prop {bad ctx : Str} (h : InContext bad ctx) (p : Str) : InContext bad (propContext ctx p) := by
  right
  rcases h with rfl | ⟨r, rfl⟩
  · exact ⟨p, by simp [propContext]⟩
  · exact ⟨r ++ c!"__" ++ p, by simp [propContext]⟩

/-- What is true of a node. -/
def NodeOk (cfg : BuildCfg) (names : List Str) (F : List (Str × Ty)) (bad : Str) (n : TNode) : Prop :=
  ∀ s ctx st d st', Denotes n s → SafeIn cfg.word names bad s → InContext bad ctx → AttrsOk names F bad st.attrs →
    nodeToTypedef cfg n ctx st = .ok (d, st') →
    Grows st.env st'.env ∧ AttrsOk names F bad st'.attrs ∧ Made d.ty ∧
      ∀ E G, Grows st'.env E → FindsLe F G → TypeOf E names G n d.ty

theorem typeWithDefault_ok {st st' : BuildSt} {t : Ty} {j : Option Json} {d : TypeDef}
    (h : typeWithDefault st t j = .ok (d, st')) : d.ty = t ∧ st' = st := by
  unfold typeWithDefault at h
  split at h
  · cases h
  · cases h; exact ⟨rfl, rfl⟩

theorem AttrsOk.set {names : List Str} {F : List (Str × Ty)} {bad ctx : Str} {attrs : List (Str × Ty)} {t : Ty}
    (h : AttrsOk names F bad attrs) (ht : Made t) (hc : InContext bad ctx) (ha : ∀ d ∈ names, ¬ (bad ++ c!"__") <+: d) :
    AttrsOk names F bad (upsert ctx t attrs) := by
  intro k T hk
  rw [lookupKey_upsert] at hk
  split at hk
  · rename_i he
    subst he
    cases hk
    refine ⟨ht, fun hm hne => ?_⟩
    rcases hc with rfl | hc
    · exact absurd rfl hne
    · exact absurd hc (ha _ hm)
  · exact h k T hk

/-! ### Leaves -/

theorem piece_leaf {t : Ty} (h : t ∈ [Ty.bool, .int, .float, .str, .datetime, .date, .time, .timedelta, .uuid, .ipv4, .ipv6]) :
    Piece t := by
  simp only [List.mem_cons, List.not_mem_nil, or_false] at h
  rcases h with rfl | rfl | rfl | rfl | rfl | rfl | rfl | rfl | rfl | rfl | rfl <;> exact ⟨rfl, rfl, rfl⟩

theorem spanWord_eq (uni : Char → Bool) (s : Str) :
    s = (spanWord uni s).1 ++ (spanWord uni s).2 ∧ ∀ c ∈ (spanWord uni s).1, isWordChar uni c = true := by
  induction s with
  | nil => exact ⟨rfl, by simp [spanWord]⟩
  | cons c r ih =>
    unfold spanWord
    split
    · rename_i hc
      refine ⟨by simpa using ih.1, fun d hd => ?_⟩
      rcases List.mem_cons.1 hd with rfl | hd
      · exact hc
      · exact ih.2 d hd
    · simp

theorem word_not {uni : Char → Bool} {n : Str} (h : ∀ c ∈ n, isWordChar uni c = true) {x : Char}
    (hx : isWordChar uni x = false) : x ∉ n := fun hm => by rw [h x hm] at hx; cases hx

theorem refTarget_some {uni : Char → Bool} {r n : Str} (h : refTarget uni r = some n) :
    (r = defRef n ∨ r = defRef (n ++ ['\n'])) ∧ ∀ c ∈ n, isWordChar uni c = true := by
  unfold refTarget at h
  simp only at h
  split at h
  · rename_i ht
    have hr : r = c!"#/definitions/" ++ r.drop 14 := by
      have := List.take_append_drop 14 r
      have ht : List.take 14 r = c!"#/definitions/" := ht
      rw [ht] at this
      exact this.symm
    obtain ⟨h1, h2⟩ := spanWord_eq uni (r.drop 14)
    change (match spanWord uni (r.drop 14) with
      | ([], _) => Option.none
      | (n, []) => some n
      | (n, ['\n']) => some n
      | _ => Option.none) = some n at h
    generalize spanWord uni (r.drop 14) = p at h h1 h2
    obtain ⟨a, b⟩ := p
    simp only at h1 h2
    split at h
    · cases h
    · rename_i he; cases h; cases he
      exact ⟨.inl (by rw [hr, h1]; simp [defRef]), h2⟩
    · rename_i he; cases h; cases he
      exact ⟨.inr (by rw [hr, h1]; simp [defRef]), h2⟩
    · cases h
  · cases h

theorem ref_ok {cfg : BuildCfg} {names : List Str} {F : List (Str × Ty)} {bad : Str} (hl : ∀ d ∈ names, '\n' ∉ d) (r : Str) :
    NodeOk cfg names F bad (.ref r) := by
  intro s ctx st d st' hd hs _ ha h
  obtain ⟨kvs, rfl, hr⟩ := hd
  simp only [nodeToTypedef, refTypedef] at h
  split at h
  · cases h
  · rename_i n hn
    split at h
    · rename_i t ht
      cases h
      obtain ⟨h1, h2⟩ := refTarget_some hn
      have w1 := word_not h2 (x := '/') (by simp [isWordChar, isDig])
      have w2 := word_not h2 (x := '%') (by simp [isWordChar, isDig])
      have w3 := word_not h2 (x := '~') (by simp [isWordChar, isDig])
      refine ⟨.refl _, ha, (ha n t ht).1, fun E G _ hG => ⟨?_, fun name hname hrn => ?_⟩⟩
      · rcases h1 with rfl | rfl
        · exact ⟨n, rfl, w1, w2, w3⟩
        · exact ⟨_, rfl, by simp [w1], by simp [w2], by simp [w3]⟩
      · have hne : name ≠ bad := by
          rintro rfl
          exact (hs kvs .self).1 hname (hrn ▸ hr)
        have hnn : name = n := by
          rcases h1 with h1 | h1
          · rw [h1] at hrn
            exact (List.append_cancel_left hrn).symm
          · rw [h1] at hrn
            have := (List.append_cancel_left hrn).symm
            exact absurd (by rw [this]; simp) (hl name hname)
        subst hnn
        exact hG _ _ ((ha name t ht).2 hname hne)
    · cases h

theorem bool_ok {cfg : BuildCfg} {names : List Str} {F : List (Str × Ty)} {bad : Str} (c d : Option Bool) :
    NodeOk cfg names F bad (.bool c d) := by
  intro s ctx st d st' _ _ _ ha h
  simp only [nodeToTypedef, boolTypedef] at h
  split at h
  · cases h; exact ⟨.refl _, ha, Piece.made ⟨rfl, rfl, rfl⟩, fun _ _ _ _ => .inr ⟨_, rfl, rfl⟩⟩
  · obtain ⟨h1, rfl⟩ := typeWithDefault_ok h
    rw [h1]
    exact ⟨.refl _, ha, Piece.made ⟨rfl, rfl, rfl⟩, fun _ _ _ _ => .inl rfl⟩

theorem rangeToType_not_lit (lo hi i : Int) : rangeToType lo hi ≠ .lit i := by
  unfold rangeToType; split <;> (try split) <;> simp

theorem intNodeType_lit {n : IntNode} {i : Int} (h : intNodeType n = .ok (.lit i)) : n.const = some i := by
  unfold intNodeType at h
  split at h
  · rename_i c hc; cases h; exact hc
  · split at h
    · cases h
    split at h
    · cases h
    split at h
    · cases h
    split at h
    · split at h
      · cases h
      · split at h
        · cases h
        · exact absurd (Except.ok.inj h) (rangeToType_not_lit _ _ _)
    · split at h
      · exact absurd (Except.ok.inj h) (rangeToType_not_lit _ _ _)
      · cases h

theorem int_ok {cfg : BuildCfg} {names : List Str} {F : List (Str × Ty)} {bad : Str} (f c d e lo hi) :
    NodeOk cfg names F bad (.int f c d e lo hi) := by
  intro s ctx st d st' _ _ _ ha h
  simp only [nodeToTypedef, intTypedef] at h
  split at h
  · cases h
  · rename_i i hi
    cases h
    exact ⟨.refl _, ha, Piece.made ⟨rfl, rfl, rfl⟩, fun _ _ _ _ => .inr (.inr ⟨_, intNodeType_lit hi, rfl⟩)⟩
  · rename_i t hnl ht
    obtain ⟨h1, rfl⟩ := typeWithDefault_ok h
    rw [h1]
    refine ⟨.refl _, ha, ?_, fun _ _ _ _ => ?_⟩
    · cases t <;> exact Piece.made ⟨rfl, rfl, rfl⟩
    · cases t with
      | lit i => exact absurd rfl (hnl i)
      | int => exact .inl rfl
      | _ => exact .inr (.inl ⟨_, rfl⟩)

theorem numberType_ok {f : Option Str} {a b c : Option PyFloat} {t : Ty} (h : numberType f a b c = .ok t) :
    t = .float ∨ ∃ ms, t = .annotated .float ms := by
  unfold numberType at h
  split at h
  · cases h; exact .inr ⟨_, rfl⟩
  split at h
  · cases h; exact .inr ⟨_, rfl⟩
  split at h
  · cases h
  split at h
  · cases h
  split at h
  · cases h
  · cases h; exact .inl rfl

theorem num_ok {cfg : BuildCfg} {names : List Str} {F : List (Str × Ty)} {bad : Str} (f c d lo hi m) :
    NodeOk cfg names F bad (.num f c d lo hi m) := by
  intro s ctx st d st' _ _ _ ha h
  simp only [nodeToTypedef, numTypedef] at h
  split at h
  · cases h
  split at h
  · cases h
  rename_i t ht
  obtain ⟨h1, rfl⟩ := typeWithDefault_ok h
  rw [h1]
  have := numberType_ok ht
  refine ⟨.refl _, ha, ?_, fun _ _ _ _ => this⟩
  rcases this with rfl | ⟨ms, rfl⟩ <;> exact Piece.made ⟨rfl, rfl, rfl⟩

/-! ### Enumerations -/

theorem enum_members {uni : Char → Bool} {ctx : Str} {vs : List Str} (hs : SafeValues uni vs) {ms : List (Str × Scalar)}
    (h : enumFromSchema uni ctx vs = .ok ms) : ∀ v ∈ vs, ∃ m ∈ ms, m.2 = Scalar.str v := by
  have hkeys : (vs.map (fun v => (enumSafeName uni v, Scalar.str v))).map (·.1) = vs.map (enumSafeName uni) := by simp
  unfold enumFromSchema at h
  rw [updateAll_nil _ (by rw [hkeys]; exact hs.1)] at h
  have hl1 : ∀ m ∈ vs.map (fun v => (enumSafeName uni v, Scalar.str v)), isMember ctx m.1 = .ok true := by
    intro m hm
    obtain ⟨v, hv, rfl⟩ := List.mem_map.1 hm
    refine isMember_of_public (enumSafeName_legal uni v).1 (enumSafeName_legal uni v).2 ?_
    have := hs.2 v hv
    unfold isPrivate
    simp only
    cases hn : enumSafeName uni v with
    | nil => simp
    | cons c r =>
      rw [hn] at this
      have hc : c ≠ '_' := by simpa using this
      simp [hc]
  by_cases hl2 : ∀ m ∈ vs.map (fun v => (enumSafeName uni v, Scalar.str v)), m.1 ≠ c!"mro" ∧ m.1 ≠ []
  · rcases pyEnumUnique_legal hl1 hl2 with ⟨-, h'⟩ | ⟨-, h'⟩
    · rw [h'] at h
      cases h
      exact fun v hv => ⟨_, List.mem_map.2 ⟨v, hv, rfl⟩, rfl⟩
    · rw [h'] at h; cases h
  · exfalso
    have hmn : ∀ l : List (Str × Scalar), (∀ m ∈ l, isMember ctx m.1 = .ok true) → memberNames ctx l = .ok l := by
      intro l
      induction l with
      | nil => intro _; rfl
      | cons p l ih =>
        intro hl
        obtain ⟨a, b⟩ := p
        simp only [memberNames, hl (a, b) (by simp), ih (fun m hm => hl m (by simp [hm]))]
        rfl
    have hany : (vs.map (fun v => (enumSafeName uni v, Scalar.str v))).any (fun m => m.1 = c!"mro" || m.1 = []) = true := by
      apply Classical.byContradiction
      intro hc
      apply hl2
      simpa using hc
    simp only [pyEnumUnique, pyEnum, hmn _ hl1, hany, if_true] at h
    cases h

theorem getElem?_concat_lt {α : Type} {l : List α} {x a : α} {i : Nat} (h : l[i]? = some a) : (l ++ [x])[i]? = some a := by
  have hlt : i < l.length := (List.getElem?_eq_some_iff.1 h).1
  rw [List.getElem?_append_left hlt]; exact h

theorem formatType_mem {f : Option Str} {t : Ty} (h : formatType f = some t) : ∃ p, f = some p ∧ (p, t) ∈ textFormats := by
  unfold formatType at h
  repeat' split at h
  all_goals first | (rename_i hf; cases h; exact ⟨_, hf, by simp [textFormats]⟩) | cases h

theorem str_ok {cfg : BuildCfg} {names : List Str} {F : List (Str × Ty)} {bad : Str}
    (ha' : ∀ d ∈ names, ¬ (bad ++ c!"__") <+: d) (f c d e m) : NodeOk cfg names F bad (.str f c d e m) := by
  intro s ctx st d st' hd hs hc ha h
  simp only [nodeToTypedef, strTypedef] at h
  split at h
  · cases h
    exact ⟨.refl _, ha, Piece.made ⟨rfl, rfl, rfl⟩, fun _ _ _ _ => .inr (.inr (.inl ⟨_, rfl, rfl⟩))⟩
  split at h
  · cases h
  rename_i t st1 ht
  obtain ⟨h1, rfl⟩ := typeWithDefault_ok h
  rw [h1]
  clear h h1
  unfold stringType at ht
  split at ht
  · rename_i t' hf
    cases ht
    obtain ⟨p, hp, hm⟩ := formatType_mem hf
    refine ⟨.refl _, ha, ?_, fun _ _ _ _ => .inr (.inr (.inr (.inl ⟨p, hp, hm⟩)))⟩
    apply Piece.made
    apply piece_leaf
    simp [textFormats] at hm
    rcases hm with ⟨_, rfl⟩ | ⟨_, rfl⟩ | ⟨_, rfl⟩ | ⟨_, rfl⟩ | ⟨_, rfl⟩ | ⟨_, rfl⟩ | ⟨_, rfl⟩ <;> simp
  · split at ht
    · rename_i vs
      unfold makeEnum at ht
      split at ht
      · cases ht
      split at ht
      · cases ht
      rename_i ms hms
      cases ht
      have hmade : Made (.enum st.env.enums.length) := Piece.made ⟨rfl, rfl, rfl⟩
      have hg : Grows st.env { st.env with enums := st.env.enums ++ [{ module := cfg.modName, name := ctx, members := ms }] } :=
        ⟨fun c cd h => ⟨_, h⟩, fun e ed h => ⟨ed.module, getElem?_concat_lt h⟩⟩
      obtain ⟨kvs, rfl, _, _, _, he⟩ := hd
      refine ⟨hg, ha.set hmade hc ha', hmade, fun E G hE _ => ?_⟩
      obtain ⟨mm, hmm⟩ := hE.enums st.env.enums.length { module := cfg.modName, name := ctx, members := ms }
        (by simp)
      exact .inr (.inr (.inr (.inr ⟨vs, _, _, rfl, rfl, hmm, enum_members ((hs kvs .self).2 vs (he vs rfl)) hms⟩)))
    · split at ht
      · cases ht
        exact ⟨.refl _, ha, Piece.made ⟨rfl, rfl, rfl⟩, fun _ _ _ _ => .inr (.inl ⟨_, rfl⟩)⟩
      · cases ht
      · cases ht
        exact ⟨.refl _, ha, Piece.made ⟨rfl, rfl, rfl⟩, fun _ _ _ _ => .inl rfl⟩

/-! ### Composite nodes -/

theorem arr_ok {cfg : BuildCfg} {names : List Str} {F : List (Str × Ty)} {bad : Str} {n : TNode} (hn : NodeOk cfg names F bad n) :
    NodeOk cfg names F bad (.arr n) := by
  intro s ctx st d st' hd hs hc ha h
  obtain ⟨kvs, x, rfl, _, hx, hdx⟩ := hd
  simp only [nodeToTypedef] at h
  split at h
  · cases h
  rename_i d1 st1 h1
  obtain ⟨g1, g2, g3, g4⟩ := hn x ctx st d1 st1 hdx (hs.sub (within_lookup hx)) hc ha h1
  unfold listTypedef at h
  split at h
  · cases h
  · cases h
    exact ⟨g1, g2, Piece.made ⟨rfl, rfl, rfl⟩, fun E G hE hG => ⟨_, rfl, g3, g4 E G hE hG⟩⟩

theorem members_ok {cfg : BuildCfg} {names : List Str} {F : List (Str × Ty)} {bad : Str} {ns : List TNode}
    (hn : ∀ n ∈ ns, NodeOk cfg names F bad n) (ctx : Str) (hc : InContext bad ctx) :
    ∀ xs st ds st', DenotesL ns xs → (∀ x ∈ xs, SafeIn cfg.word names bad x) → AttrsOk names F bad st.attrs →
      memberTypedefs cfg ns ctx st = .ok (ds, st') →
      Grows st.env st'.env ∧ AttrsOk names F bad st'.attrs ∧ (∀ t ∈ ds.map (·.ty), Made t) ∧
        ∀ E G, Grows st'.env E → FindsLe F G → TypesOf E names G ns (ds.map (·.ty)) := by
  induction ns with
  | nil =>
    intro xs st ds st' _ _ ha h
    cases h
    exact ⟨.refl _, ha, by simp, fun _ _ _ _ => rfl⟩
  | cons n ns ih =>
    intro xs st ds st' hd hs ha h
    cases xs with
    | nil => exact hd.elim
    | cons x xs =>
      simp only [memberTypedefs] at h
      split at h
      · cases h
      rename_i d1 st1 h1
      split at h
      · cases h
      rename_i ds1 st2 h2
      cases h
      obtain ⟨g1, g2, g3, g4⟩ := hn n (by simp) x ctx st d1 st1 hd.1 (hs x (by simp)) hc ha h1
      obtain ⟨k1, k2, k3, k4⟩ := ih (fun n hm => hn n (by simp [hm])) xs st1 ds1 _ hd.2 (fun x hx => hs x (by simp [hx])) g2 h2
      refine ⟨g1.trans k1, k2, ?_, fun E G hE hG => ⟨_, _, rfl, g4 E G (k1.trans hE) hG, k4 E G hE hG⟩⟩
      intro t ht
      rcases List.mem_cons.1 ht with rfl | ht
      · exact g3
      · exact k3 t ht

theorem oneOf_ok {cfg : BuildCfg} {names : List Str} {F : List (Str × Ty)} {bad : Str} {ns : List TNode}
    (hn : ∀ n ∈ ns, NodeOk cfg names F bad n) : NodeOk cfg names F bad (.oneOf ns) := by
  intro s ctx st d st' hd hs hc ha h
  obtain ⟨kvs, xs, rfl, hx, hdx⟩ := hd
  simp only [nodeToTypedef] at h
  split at h
  · cases h
  rename_i ds st1 h1
  obtain ⟨g1, g2, g3, g4⟩ := members_ok hn ctx hc xs st ds st1 hdx
    (fun x hm => hs.sub (Json.Within.trans (.arr hm .self) (within_lookup hx))) ha h1
  unfold unionTypedef at h
  split at h
  · cases h
  split at h
  · cases h
  rename_i t ht
  cases h
  exact ⟨g1, g2, Made.pyUnion g3 ht, fun E G hE hG => ⟨_, g3, ht, g4 E G hE hG⟩⟩

theorem props_ok {cfg : BuildCfg} {names : List Str} {F : List (Str × Ty)} {bad : Str} {ps : List (Str × TNode)}
    (hn : ∀ p ∈ ps, NodeOk cfg names F bad p.2) (ctx : Str) (hc : InContext bad ctx) (req : List Str) :
    ∀ xs st fs st', DenotesD ps xs → (∀ x ∈ xs, SafeIn cfg.word names bad x.2) → AttrsOk names F bad st.attrs →
      propTypedefs cfg ps ctx req st = .ok (fs, st') →
      Grows st.env st'.env ∧ AttrsOk names F bad st'.attrs ∧
        ∀ E G, Grows st'.env E → FindsLe F G → FieldsOf E names G ps req fs := by
  induction ps with
  | nil =>
    intro xs st ds st' _ _ ha h
    cases h
    exact ⟨.refl _, ha, fun _ _ _ _ => rfl⟩
  | cons p ps ih =>
    obtain ⟨k, n⟩ := p
    intro xs st fs st' hd hs ha h
    cases xs with
    | nil => exact hd.elim
    | cons x xs =>
      obtain ⟨l, x⟩ := x
      simp only [propTypedefs] at h
      split at h
      · cases h
      rename_i d1 st1 h1
      split at h
      · cases h
      rename_i f hf
      split at h
      · cases h
      rename_i fs1 st2 h2
      cases h
      obtain ⟨g1, g2, g3, g4⟩ := hn (k, n) (by simp) x _ st d1 st1 hd.2.1 (hs (l, x) (by simp)) (hc.prop k) ha h1
      obtain ⟨k1, k2, k3⟩ := ih (fun n hm => hn n (by simp [hm])) xs st1 fs1 _ hd.2.2 (fun x hx => hs x (by simp [hx])) g2 h2
      refine ⟨g1.trans k1, k2, fun E G hE hG => ?_⟩
      unfold propField at hf
      split at hf
      · cases hf
      rename_i t ht
      cases hf
      refine ⟨_, _, d1.ty, rfl, rfl, g3, g4 E G (k1.trans hE) hG, ?_, k3 E G hE hG⟩
      by_cases hk : k ∈ req
      · rw [if_pos hk] at ht ⊢; cases ht; rfl
      · rw [if_neg hk] at ht ⊢; exact ht

theorem defaultsOrdered_true {fs : List FieldDef} (h : ∀ f ∈ fs, f.hasDefault = true) (b : Bool) :
    defaultsOrdered b fs = true := by
  induction fs generalizing b with
  | nil => rfl
  | cons f fs ih => simp [defaultsOrdered, h f (by simp), ih (fun g hg => h g (List.mem_cons_of_mem _ hg))]

theorem defaultsOrdered_append {fs gs : List FieldDef} (h : ∀ f ∈ fs, f.hasDefault = false)
    (hg : ∀ f ∈ gs, f.hasDefault = true) : defaultsOrdered false (fs ++ gs) = true := by
  induction fs with
  | nil => exact defaultsOrdered_true hg _
  | cons f fs ih => simp [defaultsOrdered, h f (by simp), ih (fun g hg => h g (List.mem_cons_of_mem _ hg))]

/-- The sort puts fields in an order that `dataclasses` accepts. -/
theorem defaultsLast_ordered (fs : List FieldDef) : defaultsOrdered false (defaultsLast fs) = true :=
  defaultsOrdered_append (fun f hf => by simpa using (List.mem_filter.1 hf).2) (fun f hf => (List.mem_filter.1 hf).2)

theorem defaultsLast_perm (fs : List FieldDef) : (defaultsLast fs).Perm fs := by
  unfold defaultsLast
  have := List.filter_append_perm (fun f : FieldDef => !f.hasDefault) fs
  simpa using this

theorem obj_ok {cfg : BuildCfg} {names : List Str} {F : List (Str × Ty)} {bad : Str}
    (ha' : ∀ d ∈ names, ¬ (bad ++ c!"__") <+: d) {ps : List (Str × TNode)}
    (hn : ∀ p ∈ ps, NodeOk cfg names F bad p.2) (a req) : NodeOk cfg names F bad (.obj (some ps) a req) := by
  intro s ctx st d st' hd hs hc ha h
  obtain ⟨kvs, xs, rfl, _, hx, hdx, _, _⟩ := hd
  simp only [nodeToTypedef] at h
  split at h
  · cases h
  rename_i hfalse
  split at h
  · cases h
  rename_i fs st1 h1
  obtain ⟨g1, g2, g3⟩ := props_ok hn ctx hc (req.getD []) xs st fs st1 hdx
    (fun x hm => hs.sub (Json.Within.trans (.obj hm .self) (within_lookup hx))) ha h1
  unfold makeDataclass at h
  split at h
  · cases h
  split at h
  · cases h
  split at h
  · cases h
  cases h
  have hmade : Made (.cls st1.env.classes.length) := Piece.made ⟨rfl, rfl, rfl⟩
  have hg : Grows st1.env { st1.env with classes := st1.env.classes ++ [{ module := cfg.modName, name := ctx, kind := .dataclass false, fields := defaultsLast fs }] } :=
    ⟨fun c cd h => ⟨cd.module, getElem?_concat_lt h⟩, fun e ed h => ⟨_, h⟩⟩
  refine ⟨g1.trans hg, g2.set hmade hc ha', hmade, fun E G hE hG => ⟨Classical.byContradiction hfalse, ?_⟩⟩
  obtain ⟨mm, hmm⟩ := hE.classes st1.env.classes.length { module := cfg.modName, name := ctx, kind := .dataclass false, fields := defaultsLast fs }
    (by simp)
  exact ⟨_, _, fs, rfl, hmm, rfl, rfl, defaultsLast_perm fs, g3 E G (hg.trans hE) hG⟩

theorem node_ok {cfg : BuildCfg} {names : List Str} {F : List (Str × Ty)} {bad : Str} (hl : ∀ d ∈ names, '\n' ∉ d)
    (ha : ∀ d ∈ names, ¬ (bad ++ c!"__") <+: d) (n : TNode) : NodeOk cfg names F bad n := by
  generalize hsz : sizeOf n = sz
  induction sz using Nat.strongRecOn generalizing n with
  | _ sz ih =>
    subst hsz
    cases n with
    | ref r => exact ref_ok hl r
    | bool c d => exact bool_ok c d
    | int => exact int_ok _ _ _ _ _ _
    | num => exact num_ok _ _ _ _ _ _
    | str => exact str_ok ha _ _ _ _ _
    | arr n => exact arr_ok (ih _ (by simp) n rfl)
    | obj ps a req =>
      cases ps with
      | none => intro s ctx st d st' _ _ _ _ h; cases h
      | some ps =>
        refine obj_ok ha (fun p hp => ih _ ?_ p.2 rfl) a req
        have := List.sizeOf_lt_of_mem hp
        obtain ⟨k, n⟩ := p
        simp at this ⊢
        omega
    | oneOf ns =>
      refine oneOf_ok (fun n hn => ih _ ?_ n rfl)
      have := List.sizeOf_lt_of_mem hn
      simp; omega

/-! ### Definitions -/

theorem setModule_ok {cfg : BuildCfg} {st st' : BuildSt} {t : Ty} (h : setModule cfg st t = .ok st') :
    Grows st.env st'.env ∧ st'.attrs = st.attrs := by
  cases t <;> simp only [setModule, reduceCtorEq, Except.ok.injEq] at h <;> subst h
  case cls c =>
    refine ⟨⟨fun i cd hi => ?_, fun e ed he => ⟨ed.module, he⟩⟩, rfl⟩
    simp only [List.getElem?_modify]
    split
    · exact ⟨_, by rw [hi]; rfl⟩
    · exact ⟨cd.module, by rw [hi]; rfl⟩
  case enum c =>
    refine ⟨⟨fun i cd hi => ⟨cd.module, hi⟩, fun i cd hi => ?_⟩, rfl⟩
    simp only [List.getElem?_modify]
    split
    · exact ⟨_, by rw [hi]; rfl⟩
    · exact ⟨cd.module, by rw [hi]; rfl⟩
  all_goals exact ⟨.refl _, rfl⟩

theorem lookupKey_append_one {k k' : Str} {F : List (Str × Ty)} {T : Ty} :
    lookupKey k' (F ++ [(k, T)]) = match lookupKey k' F with | some x => some x | Option.none => if k = k' then some T else Option.none := by
  induction F with
  | nil => simp [lookupKey]
  | cons p F ih =>
    obtain ⟨a, b⟩ := p
    simp only [lookupKey, List.cons_append]
    split
    · rfl
    · exact ih

theorem lookupKey_append_new {k : Str} {F : List (Str × Ty)} {T : Ty} (h : lookupKey k F = Option.none) :
    lookupKey k (F ++ [(k, T)]) = some T := by
  induction F with
  | nil => simp [lookupKey]
  | cons p F ih =>
    obtain ⟨a, b⟩ := p
    simp only [lookupKey, List.cons_append] at h ⊢
    split at h
    · cases h
    · rename_i hne; rw [if_neg hne]; exact ih h

theorem findsLe_append (F G : List (Str × Ty)) : FindsLe F (F ++ G) := by
  intro k T h
  induction F with
  | nil => cases h
  | cons p F ih =>
    obtain ⟨a, b⟩ := p
    simp only [lookupKey, List.cons_append] at h ⊢
    split at h
    · rename_i he; rw [if_pos he]; exact h
    · rename_i hne; rw [if_neg hne]; exact ih h

theorem FindsLe.trans {F G H : List (Str × Ty)} (h : FindsLe F G) (h' : FindsLe G H) : FindsLe F H :=
  fun k T hk => h' k T (h k T hk)

theorem definitions_ok {cfg : BuildCfg} {names : List Str} (hl : ∀ d ∈ names, '\n' ∉ d) (ds : List (Str × TNode)) :
    ∀ xs st st' F, DenotesD ds xs → (∀ x ∈ xs, SafeIn cfg.word names x.1 x.2) →
      (∀ x ∈ xs, ∀ d ∈ names, ¬ (x.1 ++ c!"__") <+: d) → (xs.map (·.1)).Nodup → (∀ x ∈ xs, lookupKey x.1 F = Option.none) →
      (∀ bad, AttrsOk names F bad st.attrs) → buildDefinitions cfg ds st = .ok st' →
      ∃ F', FindsLe F F' ∧ (∀ bad, AttrsOk names F' bad st'.attrs) ∧ Grows st.env st'.env ∧
        ∀ k T, lookupKey k F' = some T → lookupKey k F = some T ∨
          ∃ n s, (k, s) ∈ xs ∧ Denotes n s ∧ ∀ E G, Grows st'.env E → FindsLe F' G → TypeOf E names G n T := by
  induction ds with
  | nil =>
    intro xs st st' F _ _ _ _ _ ha h
    cases h
    exact ⟨F, fun _ _ h => h, ha, .refl _, fun k T h => .inl h⟩
  | cons p ds ih =>
    obtain ⟨name, n⟩ := p
    intro xs st st' F hd hs hp hnd hF ha h
    cases xs with
    | nil => exact hd.elim
    | cons x xs =>
      obtain ⟨l, x⟩ := x
      obtain ⟨rfl, hdx, hds⟩ := hd
      simp only [buildDefinitions] at h
      split at h
      · cases h
      rename_i d1 st1 h1
      split at h
      · cases h
      split at h
      · cases h
      rename_i st2 h2
      obtain ⟨g1, g2, g3, g4⟩ := node_ok hl (hp (name, x) (by simp)) n x name st d1 st1 hdx (hs (name, x) (by simp)) (.inl rfl)
        (ha name) h1
      obtain ⟨m1, m2⟩ := setModule_ok h2
      have hnew := hF (name, x) (by simp)
      simp only [List.map_cons, List.nodup_cons] at hnd
      have ha2 : ∀ bad, AttrsOk names (F ++ [(name, d1.ty)]) bad (upsert name d1.ty st2.attrs) := by
        intro bad k T hk
        rw [lookupKey_upsert] at hk
        split at hk
        · rename_i he
          subst he
          cases hk
          exact ⟨g3, fun _ _ => lookupKey_append_new hnew⟩
        · rename_i hne
          rw [m2] at hk
          obtain ⟨q1, q2⟩ := g2 k T hk
          exact ⟨q1, fun hm _ => findsLe_append _ _ _ _ (q2 hm (Ne.symm hne))⟩
      obtain ⟨F', r1, r2, r3, r4⟩ := ih xs { st2 with attrs := upsert name d1.ty st2.attrs } st' (F ++ [(name, d1.ty)]) hds
        (fun x hx => hs x (by simp [hx])) (fun x hx => hp x (by simp [hx])) hnd.2 (by
          intro y hy
          have hne : name ≠ y.1 := fun he => hnd.1 (by rw [he]; exact List.mem_map.2 ⟨y, hy, rfl⟩)
          have := hF y (by simp [hy])
          rw [lookupKey_append_one, this]
          exact if_neg hne) ha2 h
      refine ⟨F', (findsLe_append _ _).trans r1, r2, (g1.trans m1).trans r3, fun k T hk => ?_⟩
      rcases r4 k T hk with hk' | ⟨n', s', hm, hd', ht⟩
      · rw [lookupKey_append_one] at hk'
        split at hk'
        · rename_i T' hT'; cases hk'; exact .inl hT'
        · split at hk'
          · rename_i he
            subst he
            cases hk'
            refine .inr ⟨n, x, by simp, hdx, fun E G hE hG => g4 E G ((m1.trans r3).trans hE) (((findsLe_append _ _).trans r1).trans hG)⟩
          · cases hk'
      · exact .inr ⟨n', s', by simp [hm], hd', ht⟩

end Verif
