import Verif.Spec.ModuleBefore
import Verif.Lemmas.ClassBuildNames
import Verif.Lemmas.NodeInv
import Verif.Lemmas.NoType
/-!
# Types made in two modules with different contents
-/
namespace Verif

/-- States with the same program whose modules have the same types under the given names; `A` and `B` are the contents of the modules
at the start. -/
structure Alike (A B : List (Str × Ty)) (K : Str → Prop) (a b : BuildSt) : Prop where
  env : a.env = b.env
  patched : a.patched = b.patched
  known : ∀ n, K n → lookupKey n a.attrs = lookupKey n b.attrs
  others : ∀ n, SameOrKept A B a.attrs b.attrs n

/-- Results with the same error, or the same value and states that are alike. -/
def SameRes {α : Type} (R : BuildSt → BuildSt → Prop) : Res (α × BuildSt) → Res (α × BuildSt) → Prop
  | .error e, .error e' => e = e'
  | .ok (x, a), .ok (y, b) => x = y ∧ R a b
  | _, _ => False

theorem Alike.put {A B : List (Str × Ty)} {K : Str → Prop} {a b : BuildSt} (h : Alike A B K a b) (env : Env) (p : List Ty) (n : Str)
    (t : Ty) : Alike A B (fun m => K m ∨ m = n) ⟨env, upsert n t a.attrs, p⟩ ⟨env, upsert n t b.attrs, p⟩ where
  env := rfl
  patched := rfl
  known := by
    intro m hm
    simp only [lookupKey_upsert]
    split
    · rfl
    · rename_i hne
      exact h.known m (hm.resolve_right fun he => hne he.symm)
  others := by
    intro m
    simp only [SameOrKept, lookupKey_upsert]
    split
    · exact .inl rfl
    · exact h.others m

theorem Alike.mono {A B : List (Str × Ty)} {K L : Str → Prop} {a b : BuildSt} (h : Alike A B K a b) (hl : ∀ n, L n → K n) :
    Alike A B L a b := ⟨h.env, h.patched, fun n hn => h.known n (hl n hn), h.others⟩

theorem sameRes_inv {α : Type} {R : BuildSt → BuildSt → Prop} {r r' : Res (α × BuildSt)} (h : SameRes R r r') :
    (∃ e, r = .error e ∧ r' = .error e) ∨ ∃ x a b, r = .ok (x, a) ∧ r' = .ok (x, b) ∧ R a b := by
  match r, r', h with
  | .error e, .error e', h => cases h; exact .inl ⟨e, rfl, rfl⟩
  | .ok (x, a), .ok (y, b), h => obtain ⟨rfl, h⟩ := h; exact .inr ⟨x, a, b, rfl, rfl, h⟩

theorem typeWithDefault_same {A B : List (Str × Ty)} {K : Str → Prop} {a b : BuildSt} (h : Alike A B K a b) (t : Ty) (j : Option Json) :
    SameRes (Alike A B K) (typeWithDefault a t j) (typeWithDefault b t j) := by
  unfold typeWithDefault
  rw [h.env]
  cases jsonToValue b.env t j with
  | error e => rfl
  | ok d => exact ⟨rfl, h⟩

theorem makeEnum_same {A B : List (Str × Ty)} {K : Str → Prop} {a b : BuildSt} (h : Alike A B K a b) (cfg : BuildCfg) (name : Str)
    (vs : List Str) : SameRes (Alike A B K) (makeEnum cfg a name vs) (makeEnum cfg b name vs) := by
  unfold makeEnum
  split
  · rfl
  cases enumFromSchema cfg.word name vs with
  | error e => rfl
  | ok ms =>
    simp only [h.env, h.patched]
    exact ⟨rfl, (h.put _ _ _ _).mono fun _ => .inl⟩

theorem makeDataclass_same {A B : List (Str × Ty)} {K : Str → Prop} {a b : BuildSt} (h : Alike A B K a b) (cfg : BuildCfg) (name : Str)
    (fs : List FieldDef) : SameRes (Alike A B K) (makeDataclass cfg a name fs) (makeDataclass cfg b name fs) := by
  unfold makeDataclass
  cases checkFieldNames cfg [] (fs.map (·.name)) with
  | error e => rfl
  | ok _ =>
    simp only
    split
    · rfl
    split
    · rfl
    simp only [h.env, h.patched]
    exact ⟨rfl, (h.put _ _ _ _).mono fun _ => .inl⟩

theorem stringType_same {A B : List (Str × Ty)} {K : Str → Prop} {a b : BuildSt} (h : Alike A B K a b) (cfg : BuildCfg) (ctx : Str)
    (f : Option Str) (e : Option (List Str)) (m : Option Int) :
    SameRes (Alike A B K) (stringType cfg ctx a f e m) (stringType cfg ctx b f e m) := by
  unfold stringType
  split
  · exact ⟨rfl, h⟩
  split
  · exact makeEnum_same h cfg ctx _
  split
  · exact ⟨rfl, h⟩
  · rfl
  · exact ⟨rfl, h⟩

/-- The node gives the same in both states. -/
def NodeSame (cfg : BuildCfg) (A B : List (Str × Ty)) (n : TNode) : Prop :=
  ∀ K s ctx a b, Denotes n s → RefsTo K s → Alike A B K a b →
    SameRes (Alike A B K) (nodeToTypedef cfg n ctx a) (nodeToTypedef cfg n ctx b)

theorem props_same {cfg : BuildCfg} {A B : List (Str × Ty)} {K : Str → Prop} {ctx : Str} {req : List Str} (ps : List (Str × TNode))
    (ih : ∀ p ∈ ps, NodeSame cfg A B p.2) : ∀ xs a b, DenotesD ps xs → (∀ x ∈ xs, RefsTo K x.2) → Alike A B K a b →
      SameRes (Alike A B K) (propTypedefs cfg ps ctx req a) (propTypedefs cfg ps ctx req b) := by
  induction ps with
  | nil => intro xs a b _ _ h; simp only [propTypedefs]; exact ⟨rfl, h⟩
  | cons p r ihr =>
    obtain ⟨name, n⟩ := p
    intro xs a b hd hr h
    cases xs with
    | nil => cases hd
    | cons x xs =>
      obtain ⟨k, j⟩ := x
      obtain ⟨rfl, hj, hds⟩ := hd
      simp only [propTypedefs]
      have hn : NodeSame cfg A B n := ih _ (.head _)
      rcases sameRes_inv (hn K j (propContext ctx name) a b hj (hr _ (.head _)) h) with ⟨e, h1, h2⟩ | ⟨d, a', b', h1, h2, h'⟩
      · simp only [h1, h2]; rfl
      simp only [h1, h2]
      cases propField req name d with
      | error e => rfl
      | ok f =>
        rcases sameRes_inv (ihr (fun p hp => ih p (.tail _ hp)) xs a' b' hds (fun x hx => hr x (.tail _ hx)) h') with
          ⟨e, h1, h2⟩ | ⟨fs, a2, b2, h1, h2, h''⟩
        · simp only [h1, h2]; rfl
        · simp only [h1, h2]; exact ⟨rfl, h''⟩

theorem members_same {cfg : BuildCfg} {A B : List (Str × Ty)} {K : Str → Prop} {ctx : Str} (ns : List TNode)
    (ih : ∀ n ∈ ns, NodeSame cfg A B n) : ∀ xs a b, DenotesL ns xs → (∀ x ∈ xs, RefsTo K x) → Alike A B K a b →
      SameRes (Alike A B K) (memberTypedefs cfg ns ctx a) (memberTypedefs cfg ns ctx b) := by
  induction ns with
  | nil => intro xs a b _ _ h; simp only [memberTypedefs]; exact ⟨rfl, h⟩
  | cons n r ihr =>
    intro xs a b hd hr h
    cases xs with
    | nil => cases hd
    | cons j xs =>
      obtain ⟨hj, hds⟩ := hd
      simp only [memberTypedefs]
      rcases sameRes_inv (ih n (.head _) K j ctx a b hj (hr _ (.head _)) h) with ⟨e, h1, h2⟩ | ⟨d, a', b', h1, h2, h'⟩
      · simp only [h1, h2]; rfl
      simp only [h1, h2]
      rcases sameRes_inv (ihr (fun p hp => ih p (.tail _ hp)) xs a' b' hds (fun x hx => hr x (.tail _ hx)) h') with
        ⟨e, h1, h2⟩ | ⟨fs, a2, b2, h1, h2, h''⟩
      · simp only [h1, h2]; rfl
      · simp only [h1, h2]; exact ⟨rfl, h''⟩

theorem RefsTo.within {K : Str → Prop} {s t : Json} (h : RefsTo K s) (ht : t.Within s) : RefsTo K t :=
  fun kvs hk => h kvs (hk.trans ht)

theorem node_same (cfg : BuildCfg) (A B : List (Str × Ty)) (n : TNode) : NodeSame cfg A B n := by
  generalize hsz : sizeOf n = sz
  induction sz using Nat.strongRecOn generalizing n with
  | _ sz ih =>
    subst hsz
    intro K s ctx a b hd hr h
    cases n with
    | ref r =>
      obtain ⟨kvs, rfl, hl⟩ := hd
      simp only [nodeToTypedef, refTypedef]
      split
      · rfl
      · rename_i n hn
        obtain ⟨h1, -⟩ := refTarget_some hn
        have hk : K n := by
          refine hr kvs .self n ?_
          rcases h1 with rfl | rfl
          · exact .inl hl
          · exact .inr hl
        rw [h.known n hk]
        cases lookupKey n b.attrs with
        | none => rfl
        | some t => exact ⟨rfl, h⟩
    | bool c dv =>
      simp only [nodeToTypedef, boolTypedef]
      split
      · exact ⟨rfl, h⟩
      · exact typeWithDefault_same h _ _
    | int =>
      simp only [nodeToTypedef, intTypedef]
      split
      · rfl
      · exact ⟨rfl, h⟩
      · exact typeWithDefault_same h _ _
    | num =>
      simp only [nodeToTypedef, numTypedef]
      split
      · rfl
      split
      · rfl
      · exact typeWithDefault_same h _ _
    | str f c dv e m =>
      simp only [nodeToTypedef, strTypedef]
      split
      · exact ⟨rfl, h⟩
      · rcases sameRes_inv (stringType_same h cfg ctx f e m) with ⟨e, h1, h2⟩ | ⟨t, a', b', h1, h2, h'⟩
        · simp only [h1, h2]; rfl
        · simp only [h1, h2]; exact typeWithDefault_same h' _ _
    | arr n =>
      obtain ⟨kvs, x, rfl, _, hx, hdx⟩ := hd
      simp only [nodeToTypedef]
      rcases sameRes_inv (ih _ (by simp) n rfl K x ctx a b hdx (hr.within (.obj (lookupKey_some_mem hx) .self)) h) with
        ⟨e, h1, h2⟩ | ⟨d, a', b', h1, h2, h'⟩
      · simp only [h1, h2]; rfl
      simp only [h1, h2]
      unfold listTypedef
      split
      · rfl
      · exact ⟨rfl, h'⟩
    | obj ps ad req =>
      cases ps with
      | none => simp only [nodeToTypedef]; rfl
      | some ps =>
        obtain ⟨kvs, xs, rfl, -, hx, hdx, -⟩ := hd
        simp only [nodeToTypedef]
        split
        · rfl
        have hps : ∀ p ∈ ps, NodeSame cfg A B p.2 := by
          intro p hp
          refine ih _ ?_ p.2 rfl
          have h1 := List.sizeOf_lt_of_mem hp
          obtain ⟨p1, p2⟩ := p
          simp only [TNode.obj.sizeOf_spec, Option.some.sizeOf_spec, Prod.mk.sizeOf_spec] at h1 ⊢
          omega
        rcases sameRes_inv (props_same (ctx := ctx) (req := req.getD []) ps hps xs a b hdx
          (fun x hm => hr.within (.obj (lookupKey_some_mem hx) (.obj hm .self))) h) with ⟨e, h1, h2⟩ | ⟨fs, a', b', h1, h2, h'⟩
        · simp only [h1, h2]; rfl
        · simp only [h1, h2]; exact makeDataclass_same h' cfg ctx _
    | oneOf ns =>
      obtain ⟨kvs, xs, rfl, hx, hdx⟩ := hd
      simp only [nodeToTypedef]
      have hns : ∀ n ∈ ns, NodeSame cfg A B n := by
        intro n hn
        refine ih _ ?_ n rfl
        have h1 := List.sizeOf_lt_of_mem hn
        simp only [TNode.oneOf.sizeOf_spec]
        omega
      rcases sameRes_inv (members_same (ctx := ctx) ns hns xs a b hdx
          (fun x hm => hr.within (.obj (lookupKey_some_mem hx) (.arr hm .self))) h) with ⟨e, h1, h2⟩ | ⟨ds, a', b', h1, h2, h'⟩
      · simp only [h1, h2]; rfl
      · simp only [h1, h2]
        unfold unionTypedef
        split
        · rfl
        cases pyUnion (ds.map (·.ty)) with
        | error e => rfl
        | ok t => exact ⟨rfl, h'⟩

theorem setModule_alike {A B : List (Str × Ty)} {K : Str → Prop} {a b : BuildSt} (h : Alike A B K a b) (cfg : BuildCfg) (t : Ty) :
    (∃ e, setModule cfg a t = .error e ∧ setModule cfg b t = .error e) ∨
      ∃ env p, setModule cfg a t = .ok ⟨env, a.attrs, p⟩ ∧ setModule cfg b t = .ok ⟨env, b.attrs, p⟩ := by
  obtain ⟨ea, aa, pa⟩ := a
  obtain ⟨eb, ab, pb⟩ := b
  obtain ⟨h1, h2, -, -⟩ := h
  cases h1
  cases h2
  cases t <;> first | exact .inr ⟨_, _, rfl, rfl⟩ | exact .inl ⟨_, rfl, rfl⟩

/-- Definitions in two modules: each gives the same. -/
theorem definitions_same {cfg : BuildCfg} {A B : List (Str × Ty)} (F : Str → Prop) (ds : List (Str × TNode)) :
    ∀ (done : List Str) xs a b, DenotesD ds xs →
      (∀ pre x post, xs = pre ++ x :: post → RefsTo (fun n => F n ∨ n ∈ done ++ pre.map (·.1)) x.2) →
      Alike A B (fun n => F n ∨ n ∈ done) a b →
      (∃ e, buildDefinitions cfg ds a = .error e ∧ buildDefinitions cfg ds b = .error e) ∨
        ∃ a' b', buildDefinitions cfg ds a = .ok a' ∧ buildDefinitions cfg ds b = .ok b' ∧
          Alike A B (fun n => F n ∨ n ∈ done ++ xs.map (·.1)) a' b' := by
  induction ds with
  | nil =>
    intro done xs a b hd _ h
    cases xs with
    | cons x xs => cases hd
    | nil => exact .inr ⟨a, b, rfl, rfl, by simpa using h⟩
  | cons p r ih =>
    obtain ⟨name, n⟩ := p
    intro done xs a b hd hr h
    cases xs with
    | nil => cases hd
    | cons x xs =>
      obtain ⟨k, j⟩ := x
      obtain ⟨rfl, hj, hds⟩ := hd
      have hn := node_same cfg A B n (fun n => F n ∨ n ∈ done) j name a b hj (by simpa using hr [] (name, j) xs rfl) h
      simp only [buildDefinitions]
      generalize nodeToTypedef cfg n name a = ra at hn ⊢
      generalize nodeToTypedef cfg n name b = rb at hn ⊢
      match ra, rb, hn with
      | .error e, .error e', hn => cases hn; exact .inl ⟨e, rfl, rfl⟩
      | .ok (d, a'), .ok (d', b'), hn =>
        obtain ⟨rfl, h'⟩ := hn
        simp only
        by_cases hdf : d.dflt.isSome = true
        · simp only [hdf, if_true]
          exact .inl ⟨_, rfl, rfl⟩
        · simp only [hdf]
          rcases setModule_alike h' cfg d.ty with ⟨e, h1, h2⟩ | ⟨env, p, h1, h2⟩
          · simp only [h1, h2]
            exact .inl ⟨_, rfl, rfl⟩
          · simp only [h1, h2]
            have hput := h'.put env p name d.ty
            rcases ih (done ++ [name]) xs _ _ hds (fun pre x post he => by
              have := hr ((name, j) :: pre) x post (by rw [he]; rfl)
              simpa using this) (hput.mono fun m hm => by simpa [or_assoc] using hm) with g | ⟨a2, b2, g1, g2, g3⟩
            · exact .inl g
            · exact .inr ⟨a2, b2, g1, g2, by simpa using g3⟩

/-- The whole of `schema_to_type` in two modules. -/
theorem schemaToType_same {cfg : BuildCfg} {name : Str} {schema : Json} (hw : schema.Wf) (env : Env) (p : List Ty)
    (A B : List (Str × Ty)) (hf : ∀ n, FreeName schema n → lookupKey n A = lookupKey n B) :
    SameRes (Alike A B (fun n => FreeName schema n ∨ n ∈ (schemaDefs schema).map (·.1))) (schemaToType cfg name schema ⟨env, A, p⟩)
      (schemaToType cfg name schema ⟨env, B, p⟩) := by
  unfold schemaToType
  split
  · rfl
  rename_i top htop
  have h0 : Alike A B (fun n => FreeName schema n ∨ n ∈ ([] : List Str)) ⟨env, A, p⟩ ⟨env, B, p⟩ :=
    ⟨rfl, rfl, fun n hn => hf n (hn.resolve_right fun h => nomatch h), fun n => .inr ⟨rfl, rfl⟩⟩
  obtain ⟨hden, kvs, rfl, hdefs⟩ := readTop_denotes hw htop
  obtain ⟨kvs', vs, he, hrf, -, -, hds⟩ := top_inv htop
  cases he
  have hd2 : DenotesD (top.definitions.getD []) (schemaDefs (.obj kvs)) := by
    cases htd : top.definitions with
    | some ds =>
      obtain ⟨xs, hx, hdx⟩ := hdefs ds htd
      have hxs : schemaDefs (.obj kvs) = xs := by simp [schemaDefs, hx]
      rw [hxs]; exact hdx
    | none =>
      have := top_definitions hrf hw hds
      rw [htd] at this
      generalize schemaDefs (.obj kvs) = xs at this
      cases this
      exact trivial
  have hdefs' : ∀ pre x post, schemaDefs (.obj kvs) = pre ++ x :: post →
      RefsTo (fun n => FreeName (.obj kvs) n ∨ n ∈ [] ++ pre.map (·.1)) x.2 := by
    intro pre x post he ws hws n hn
    by_cases hp : n ∈ pre.map (·.1)
    · exact .inr (by simpa using hp)
    · exact .inl (.inl ⟨pre, x, post, he, ⟨ws, hws, hn⟩, hp⟩)
  have hdoc : RefsTo (fun n => FreeName (.obj kvs) n ∨ n ∈ (schemaDefs (.obj kvs)).map (·.1)) (.obj kvs) := by
    intro ws hws n hn
    by_cases hp : n ∈ (schemaDefs (.obj kvs)).map (·.1)
    · exact .inr hp
    · exact .inl (.inr ⟨⟨ws, hws, hn⟩, hp⟩)
  rcases definitions_same (cfg := cfg) _ _ [] _ _ _ hd2 hdefs' h0 with
    ⟨e, h1, h2⟩ | ⟨a, b, h1, h2, h3⟩
  · simp only [h1, h2]
    rfl
  · simp only [h1, h2]
    rcases sameRes_inv (node_same cfg A B _ _ _ name a b hden hdoc (by simpa using h3)) with
      ⟨e, h1, h2⟩ | ⟨d, a', b', h1, h2, h'⟩
    · simp only [h1, h2]; rfl
    · simp only [h1, h2]; exact ⟨rfl, h'⟩

end Verif
