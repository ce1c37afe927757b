import Verif.Lemmas.Rebuild
/-!
# Classes made again from their schemas: enumerations, lists, references, and classes
-/
namespace Verif

theorem getElem?_append_some {α : Type} {l m : List α} {i : Nat} {x : α} (h : l[i]? = some x) : (l ++ m)[i]? = some x := by
  rw [List.getElem?_append_left (List.getElem?_eq_some_iff.1 h).1]; exact h

/-- The second program has more enumerations and classes. -/
def Extends (B B' : Env) : Prop := ∃ es cs, B'.enums = B.enums ++ es ∧ B'.classes = B.classes ++ cs

theorem Extends.refl {B : Env} : Extends B B := ⟨[], [], by simp, by simp⟩

theorem Extends.enums {B B' : Env} (h : Extends B B') {i : Nat} {ed : EnumDef} (he : B.enums[i]? = some ed) :
    B'.enums[i]? = some ed := by
  obtain ⟨es, cs, h1, _⟩ := h
  rw [h1]; exact getElem?_append_some he

theorem Extends.classes {B B' : Env} (h : Extends B B') {i : Nat} {ed : ClassDef} (he : B.classes[i]? = some ed) :
    B'.classes[i]? = some ed := by
  obtain ⟨es, cs, _, h1⟩ := h
  rw [h1]; exact getElem?_append_some he

theorem Adds.extends {st st' : BuildSt} {P : TKey → Prop} (h : Adds st st' P) : Extends st.env st'.env := by
  obtain ⟨es, cs, h1, h2, _⟩ := h.more
  exact ⟨es, cs, h1, h2⟩

theorem Mirror.mono {A B B' : Env} {t u : Ty} (h : Mirror A B t u) (hx : Extends B B') : Mirror A B' t u := by
  induction h with
  | leaf h => exact .leaf h
  | literal h1 h2 => exact .literal h1 h2
  | annotatedL _ ih => exact .annotatedL ih
  | annotatedR _ ih => exact .annotatedR ih
  | list _ ih => exact .list ih
  | enum h1 h2 h3 h4 h5 h6 => exact .enum h1 (hx.enums h2) h3 h4 h5 h6
  | cls h1 h2 h3 h4 h5 h6 h7 h8 h9 h10 _ ih => exact .cls h1 (hx.classes h2) h3 h4 h5 h6 h7 h8 h9 h10 ih

/-- The type is a class or enumeration of the module. -/
def Settled (cfg : BuildCfg) (B : Env) (u : Ty) : Prop :=
  (∃ c cd, u = .cls c ∧ B.classes[c]? = some cd ∧ cd.module = cfg.modName) ∨
    ∃ e ed, u = .enum e ∧ B.enums[e]? = some ed ∧ ed.module = cfg.modName

theorem Settled.mono {cfg : BuildCfg} {B B' : Env} {u : Ty} (h : Settled cfg B u) (hx : Extends B B') : Settled cfg B' u := by
  rcases h with ⟨c, cd, h1, h2, h3⟩ | ⟨e, ed, h1, h2, h3⟩
  · exact .inl ⟨c, cd, h1, hx.classes h2, h3⟩
  · exact .inr ⟨e, ed, h1, hx.enums h2, h3⟩

/-- What is true of the type that is made for a type. -/
structure MadeFor (cfg : BuildCfg) (A B : Env) (t u : Ty) : Prop where
  mirror : Mirror A B t u
  piece : Piece u
  unaliased : u.alias = Option.none
  settled : t.regKey.isSome → Settled cfg B u

theorem MadeFor.mono {cfg : BuildCfg} {A B B' : Env} {t u : Ty} (h : MadeFor cfg A B t u) (hx : Extends B B') :
    MadeFor cfg A B' t u := ⟨h.mirror.mono hx, h.piece, h.unaliased, fun hr => (h.settled hr).mono hx⟩

/-- The names are attributes of the module that stand for the registered types. -/
structure KnownDefs (cfg : BuildCfg) (A : Env) (cat : SchemaCatalog) (S : Str → Prop) (st : BuildSt) : Prop where
  tidy : st.env.Tidy
  defs : ∀ n, S n → ∀ k e, lookupKey k cat.byType = some e → e.identifier = n →
    ∃ u, lookupKey n st.attrs = some u ∧ MadeFor cfg A st.env k.toTy u

/-- A use of a registered type. -/
def UseOf (cat : SchemaCatalog) (Before : Str → Prop) (u : TypeUse) : Prop :=
  ∃ k e, lookupKey k cat.byType = some e ∧ u.name = e.identifier ∧ u.ty = .ty k.toTy ∧ Before e.identifier

/-- New attributes in the context are not among the names. -/
def FreshIn (S : Str → Prop) (ctx : Str) : Prop := ∀ n, S n → ¬ InContext ctx n

theorem FreshIn.prop {S : Str → Prop} {ctx p : Str} (h : FreshIn S ctx) : FreshIn S (propContext ctx p) := by
  intro n hn hi
  have : KeyIn ⟨[], fun _ => true, fun _ => true, fun _ => true⟩ ctx ([], n) :=
    KeyIn.prop (cfg := ⟨[], fun _ => true, fun _ => true, fun _ => true⟩) (p := p) (k := ([], n)) ⟨rfl, hi⟩
  exact h n hn this.2

/-- A type is made from the node. -/
def MakesFor (cfg : BuildCfg) (A : Env) (cat : SchemaCatalog) (S : Str → Prop) (n : TNode) (t : Ty) : Prop :=
  ∀ ctx st, FreshIn S ctx → '\x00' ∉ ctx → KnownDefs cfg A cat S st →
    ∃ u st', nodeToTypedef cfg n ctx st = .ok (⟨u, Option.none⟩, st') ∧ Adds st st' (KeyIn cfg ctx) ∧
      KnownDefs cfg A cat S st' ∧ MadeFor cfg A st'.env t u

theorem PlainNode.makes {cfg : BuildCfg} {A : Env} {cat : SchemaCatalog} {S : Str → Prop} {n : TNode} {t t' : Ty}
    (h : PlainNode cfg A t n) (hm : ∀ B u, Mirror A B t u → Mirror A B t' u) (hr : t'.regKey = Option.none) :
    MakesFor cfg A cat S n t' := by
  intro ctx st _ _ hk
  obtain ⟨u, h1, h2, h3, h4⟩ := h
  exact ⟨u, st, h4 ctx st, .refl, hk, hm _ _ (h1 _), h2, h3, fun h => by rw [hr] at h; cases h⟩

/-- New enumerations and classes, and an attribute in the context. -/
theorem KnownDefs.set {cfg : BuildCfg} {A : Env} {cat : SchemaCatalog} {S : Str → Prop} {st : BuildSt} {ctx : Str} {u : Ty}
    {E : Env} {p : List Ty} (h : KnownDefs cfg A cat S st) (hc : FreshIn S ctx) (hx : Extends st.env E) (ht : E.Tidy) :
    KnownDefs cfg A cat S ⟨E, upsert ctx u st.attrs, p⟩ := by
  refine ⟨ht, fun n hn k e hk hi => ?_⟩
  obtain ⟨u, h1, h2⟩ := h.defs n hn k e hk hi
  refine ⟨u, ?_, h2.mono hx⟩
  simp only [lookupKey_upsert]
  rw [if_neg (by rintro rfl; exact hc _ hn (.inl rfl))]
  exact h1

/-! ### References -/

theorem spanWord_all {uni : Char → Bool} {s : Str} (h : ∀ c ∈ s, isWordChar uni c = true) : spanWord uni s = (s, []) := by
  induction s with
  | nil => rfl
  | cons c r ih =>
    unfold spanWord
    rw [if_pos (h c (by simp)), ih fun x hx => h x (by simp [hx])]

theorem refTarget_word {uni : Char → Bool} {n : Str} (hn : n ≠ []) (h : ∀ c ∈ n, isWordChar uni c = true) :
    refTarget uni (c!"#/definitions/" ++ n) = some n := by
  unfold refTarget
  have h1 : (c!"#/definitions/" ++ n).take 14 = c!"#/definitions/" := by simp
  have h2 : (c!"#/definitions/" ++ n).drop 14 = n := by simp
  show (if (c!"#/definitions/" ++ n).take 14 = _ then _ else _) = _
  rw [if_pos h1]
  show (match spanWord uni ((c!"#/definitions/" ++ n).drop 14) with
    | ([], _) => Option.none | (n, []) => some n | (n, ['\n']) => some n | _ => Option.none) = _
  rw [h2, spanWord_all h]
  cases n with
  | nil => exact absurd rfl hn
  | cons c r => rfl

theorem ref_makes {cfg : BuildCfg} {scfg : SchemaCfg} {A : Env} {cat : SchemaCatalog} {k : RegKey}
    {e : CatEntry Sch (List Json)} (hp : scfg.definitionsPath = c!"#/definitions/") (he : lookupKey k cat.byType = some e)
    (hid : e.identifier ≠ [] ∧ ∀ x ∈ e.identifier, isWordChar cfg.word x = true) :
    ∃ n, ReadAs (.obj (refSch scfg e.identifier)) n ∧ ∀ S : Str → Prop, S e.identifier → MakesFor cfg A cat S n k.toTy := by
  refine ⟨_, ref_readAs (r := scfg.definitionsPath ++ e.identifier) ?_ rfl, ?_⟩
  · intro k x hx hne
    simp only [List.mem_singleton] at hne
    simp [refSch, lookupKey, Ne.symm hne] at hx
  · intro S hs ctx st _ _ hk
    obtain ⟨u, h1, h2⟩ := hk.defs _ hs k e he rfl
    refine ⟨u, st, ?_, .refl, hk, h2⟩
    simp only [nodeToTypedef, refTypedef, hp, refTarget_word hid.1 hid.2, h1]

/-! ### Enumerations -/

theorem allSome_strs (vs : List Str) : allSome jsonStr (vs.map Json.str) = some vs := by
  induction vs with
  | nil => rfl
  | cons v vs ih => simp [allSome, jsonStr, ih]

theorem enum_node {uni : Char → Bool} {vs : List Str} (hl : LegalValues uni vs) (hn : vs.Nodup) (ctx : Str) :
    enumFromSchema uni ctx vs = .ok (vs.map fun v => (enumSafeName uni v, Scalar.str v)) := by
  refine (C39_partial uni ctx vs hn hl.distinct fun v hv => ?_).2
  obtain ⟨h1, h2, h3⟩ := hl.legal v hv
  refine ⟨h1, h2, ?_⟩
  unfold isPrivate
  simp only
  cases hn : enumSafeName uni v with
  | nil => simp
  | cons c r =>
    rw [hn] at h3
    have hc : c ≠ '_' := by simpa using h3
    simp [hc]

theorem enum_makes {cfg : BuildCfg} {A : Env} {cat : SchemaCatalog} {e : Nat} {ed : EnumDef} {vs : List Str} {s : Sch}
    (hA : A.Ok) (he : A.enums[e]? = some ed) (hj : ed.toJson = Option.none) (hv : ed.members.map (·.2) = vs.map Scalar.str)
    (hne : vs ≠ []) (hl : LegalValues cfg.word vs) (hs : enumSchema A e = .ok s) :
    ∃ n, ReadAs (.obj s) n ∧ ∀ S, MakesFor cfg A cat S n (.enum e) := by
  have hsch : s = [(c!"type", js c!"string"), (c!"enum", .arr (vs.map Json.str))] := by
    simp only [enumSchema, he] at hs
    split at hs
    · have hmem : (ed.members.map fun m => m.2.toJson) = vs.map Json.str := by
        have : (ed.members.map fun m => m.2.toJson) = (ed.members.map (·.2)).map Scalar.toJson := by simp
        rw [this, hv]
        simp [Scalar.toJson]
      cases hm : ed.members with
      | nil => rw [hm] at hv; cases vs with | nil => exact absurd rfl hne | cons => cases hv
      | cons m ms =>
        obtain ⟨n, x⟩ := m
        rw [hm] at hs hv hmem
        cases vs with
        | nil => exact absurd rfl hne
        | cons v vs =>
          simp only [List.map_cons, List.cons.injEq] at hv
          obtain ⟨rfl, _⟩ := hv
          simp only at hs
          cases hs
          rw [← hmem]
          rfl
    · cases hs
  have hdistinct : vs.Nodup := by
    have h1 : (ed.members.map (·.2)).Pairwise (fun a b => a.pyEq b = false) :=
      List.pairwise_map.2 (hA.enums ed (List.mem_of_getElem? he))
    rw [hv, List.pairwise_map] at h1
    refine h1.imp ?_
    rintro a b h rfl
    simp [Scalar.pyEq] at h
  refine ⟨_, str_readAs (kvs := s) ?_ (by subst hsch; rfl), ?_⟩
  · intro k x hx hk
    subst hsch
    by_cases hc : c!"enum" = k
    · subst hc
      have : lookupKey c!"enum" [(c!"type", js c!"string"), (c!"enum", .arr (vs.map Json.str))] = some (.arr (vs.map Json.str)) := rfl
      rw [this] at hx; cases hx
      exact ⟨.strs, by decide, _, rfl, fun y hy => by obtain ⟨v, _, rfl⟩ := List.mem_map.1 hy; exact ⟨v, rfl⟩⟩
    · simp only [List.mem_singleton] at hk
      simp [lookupKey, hc, Ne.symm hk] at hx
  · intro S ctx st hf h0 hk
    subst hsch
    have hkv : kvStrs c!"enum" [(c!"type", js c!"string"), (c!"enum", .arr (vs.map Json.str))] = some vs := allSome_strs vs
    rw [hkv]
    let ed' : EnumDef := { module := cfg.modName, name := ctx, members := vs.map fun v => (enumSafeName cfg.word v, Scalar.str v) }
    have hx : Extends st.env { st.env with enums := st.env.enums ++ [ed'] } := ⟨[ed'], [], rfl, by simp⟩
    have hget : (st.env.enums ++ [ed'])[st.env.enums.length]? = some ed' := by simp
    refine ⟨.enum st.env.enums.length, ⟨{ st.env with enums := st.env.enums ++ [ed'] }, upsert ctx (.enum st.env.enums.length) st.attrs, st.patched⟩,
      ?_, ⟨[ed'], [], rfl, by simp, by simp [keysOf], ?_⟩, hk.set hf hx ⟨?_, hk.tidy.fields, hk.tidy.setOrder⟩, ?_⟩
    · have : nodeToTypedef cfg (.str Option.none Option.none Option.none (some vs) Option.none) ctx st =
          (match makeEnum cfg st ctx vs with | .error e => .error e | .ok (t, st') => .ok (⟨t, Option.none⟩, st')) := by
        simp only [nodeToTypedef, strTypedef, stringType]
        rfl
      refine Eq.trans this ?_
      simp only [makeEnum, if_neg h0, enum_node hl hdistinct]
      rfl
    · intro k hk
      simp only [keysOf, List.map_cons, List.map_nil, List.append_nil, List.mem_singleton] at hk
      subst hk
      exact ⟨rfl, .inl rfl⟩
    · intro e1 he1
      rcases List.mem_append.1 he1 with h | h
      · exact hk.tidy.enums e1 h
      · rw [List.mem_singleton] at h
        subst h
        show (vs.map fun v => (enumSafeName cfg.word v, Scalar.str v)).Pairwise (fun a b => a.2.pyEq b.2 = false)
        rw [List.pairwise_map]
        refine hdistinct.imp ?_
        intro a b h
        simpa [Scalar.pyEq] using h
    · refine ⟨.enum he hget hj rfl ?_ ?_, ⟨rfl, rfl, rfl⟩, rfl, fun _ => .inr ⟨_, ed', rfl, hget, rfl⟩⟩
      · rw [hv]; simp [ed']
      · intro m hm
        have : m.2 ∈ ed.members.map (·.2) := List.mem_map.2 ⟨m, hm, rfl⟩
        rw [hv] at this
        obtain ⟨v, _, hv⟩ := List.mem_map.1 this
        exact ⟨v, hv.symm⟩

/-! ### Lists -/

theorem list_makes {cfg : BuildCfg} {A : Env} {cat : SchemaCatalog} {s : Sch} {n : TNode} {t : Ty}
    (hr : ReadAs (.obj s) n) :
    ReadAs (.obj [(c!"type", js c!"array"), (c!"items", .obj s)]) (.arr n) ∧
      ∀ S, MakesFor cfg A cat S n t → MakesFor cfg A cat S (.arr n) (.list t) := by
  refine ⟨arr_readAs (x := .obj s) ?_ rfl rfl hr, ?_⟩
  · intro k x hx hk
    simp only [List.mem_cons, List.not_mem_nil, or_false, not_or] at hk
    simp [lookupKey, Ne.symm hk.1, Ne.symm hk.2] at hx
  · intro S hm ctx st hf h0 hk
    obtain ⟨u, st', h1, h2, h3, h4⟩ := hm ctx st hf h0 hk
    refine ⟨.list u, st', ?_, h2, h3, .list h4.mirror, ⟨rfl, rfl, rfl⟩, rfl, fun h => by cases h⟩
    simp only [nodeToTypedef, h1]
    rfl

/-! ### Classes -/

theorem propSchemas_list {cfg : SchemaCfg} {env : Env} {cat : SchemaCatalog} {cls : Nat → SchRes Sch} {kind : ClassKind} :
    ∀ (fs : List FieldDef) (acc ps : List (Str × Json)) (us : List TypeUse), (fs.map (schemaProp kind)).Nodup →
      (∀ f ∈ fs, schemaProp kind f ∉ acc.map (·.1)) → propSchemas cfg env cat cls kind fs acc = .ok (ps, us) →
      ∃ ss, ps = acc ++ ss ∧ All2 (fun f x => ∃ s us', x = (schemaProp kind f, Json.obj s) ∧
          propSchema cfg env cat cls kind f = .ok (s, us') ∧ ∀ u ∈ us', u ∈ us) fs ss ∧
        ∀ u ∈ us, ∃ f ∈ fs, ∃ s us', propSchema cfg env cat cls kind f = .ok (s, us') ∧ u ∈ us' := by
  intro fs
  induction fs with
  | nil =>
    intro acc ps us _ _ h
    cases h
    exact ⟨[], by simp, .nil, by simp⟩
  | cons f fs ih =>
    intro acc ps us hn ha h
    simp only [propSchemas] at h
    split at h
    · cases h
    rename_i s us1 h1
    split at h
    · cases h
    rename_i ps2 us2 h2
    cases h
    simp only [List.map_cons, List.nodup_cons] at hn
    rw [upsert_of_not_mem (ha f (by simp))] at h2
    obtain ⟨ss, rfl, h3, h4⟩ := ih _ _ _ hn.2 (fun g hg hm => by
      simp only [List.map_append, List.map_cons, List.map_nil, List.mem_append, List.mem_singleton] at hm
      rcases hm with hm | hm
      · exact ha g (by simp [hg]) hm
      · exact hn.1 (List.mem_map.2 ⟨g, hg, hm⟩)) h2
    refine ⟨(schemaProp kind f, .obj s) :: ss, by simp, .cons ⟨s, us1, rfl, h1, fun u hu => by simp [hu]⟩
      (h3.imp fun f x ⟨s, us', a, b, c⟩ => ⟨s, us', a, b, fun u hu => by simp [c u hu]⟩), ?_⟩
    intro u hu
    rcases List.mem_append.1 hu with hu | hu
    · exact ⟨f, by simp, s, us1, h1, hu⟩
    · obtain ⟨g, hg, s, us', a, b⟩ := h4 u hu
      exact ⟨g, by simp [hg], s, us', a, b⟩

theorem identifier_nul {cfg : BuildCfg} {p : Str} (h : isIdentifier cfg p = true) : '\x00' ∉ p := by
  cases p with
  | nil => simp
  | cons c r =>
    simp only [isIdentifier, Bool.and_eq_true, List.all_eq_true] at h
    intro hm
    rcases List.mem_cons.1 hm with rfl | hm
    · have := h.1
      rw [if_pos (by decide)] at this
      simp only [Bool.and_eq_true] at this
      exact absurd this.1 (by simp [isWordChar, isDig])
    · exact absurd (h.2 _ hm) (by simp [isWordChar, isDig])

theorem tidy_self {p : Str} (h : TidyName p) : fieldToProperty p Option.none = p := by
  have : endsWith ['_'] p = false := by
    have h1 := h.1
    rw [Bool.eq_false_iff]
    intro he
    obtain ⟨r, rfl⟩ : ∃ r, p = r ++ ['_'] := by
      obtain ⟨r, hr⟩ := List.isSuffixOf_iff_suffix.1 he
      exact ⟨r, hr.symm⟩
    simp at h1
  simp [fieldToProperty, this]

/-- What is true of a field that is made for a field. -/
structure FieldFor (cfg : BuildCfg) (A B : Env) (f f' : FieldDef) : Prop where
  name : f'.name = f.jsonName
  dflt : f'.dflt = .missing
  evaluated : f'.strAnn = false ∧ f'.fwd = false
  unaliased : f'.ty.alias = Option.none
  ty : f'.ty = if f.ty.isOptional then .union [.none, f'.ty.required] else f'.ty.required
  made : MadeFor cfg A B f.ty.required f'.ty.required

theorem propField_for {cfg : BuildCfg} {A B : Env} {f : FieldDef} {req : List Str} {u : Ty}
    (hr : f.jsonName ∈ req ↔ f.ty.isOptional = false) (hu : MadeFor cfg A B f.ty.required u) :
    ∃ f', propField req f.jsonName ⟨u, Option.none⟩ = .ok f' ∧ FieldFor cfg A B f f' := by
  have hp := hu.piece
  unfold propField
  cases ho : f.ty.isOptional with
  | false =>
    rw [if_pos (hr.2 ho)]
    have e : u.required = u := by simp [Ty.required, hp.2.1]
    exact ⟨_, rfl, rfl, rfl, ⟨rfl, rfl⟩, hu.unaliased, by simp [ho, e], by rw [e]; exact hu⟩
  | true =>
    rw [if_neg (fun h => by rw [hr.1 h] at ho; cases ho)]
    have hne : Ty.same .none u = false := by
      have := hp.2.2
      cases u <;> first | with_unfolding_all rfl | exact absurd this (by simp [Ty.isNone])
    have hpy : pyUnion [.none, u] = .ok (.union [.none, u]) := by
      simp only [pyUnion, flattenUnions_eq, List.flatMap_cons, hp.1, List.flatMap_nil]
      simp [pieces, dedupTys, hne]
    have e : (Ty.union [.none, u]).required = u := by
      have hdn := hp.2.2
      simp only [Ty.required, Ty.isOptional, Ty.unwrapOptional, Ty.unwrapAnn, Ty.unionArgs]
      have hnn : Ty.none.isNone = true := rfl
      simp [Ty.unwrapOpt, hdn, hnn]
    rw [hpy]
    exact ⟨_, rfl, rfl, rfl, ⟨rfl, rfl⟩, rfl, by simp [ho, e], by rw [e]; exact hu⟩

theorem FieldFor.mono {cfg : BuildCfg} {A B B' : Env} {f f' : FieldDef} (h : FieldFor cfg A B f f') (hx : Extends B B') :
    FieldFor cfg A B' f f' := ⟨h.name, h.dflt, h.evaluated, h.unaliased, h.ty, h.made.mono hx⟩

theorem props_makes {cfg : BuildCfg} {A : Env} {cat : SchemaCatalog} {S : Str → Prop} {ctx : Str} {req : List Str}
    (hf : FreshIn S ctx) (h0 : '\x00' ∉ ctx) :
    ∀ (fs : List FieldDef) (ns : List (Str × TNode)) (st : BuildSt), (∀ f ∈ fs, FieldFits cfg f) →
      (fs.map FieldDef.jsonName).Nodup → (∀ f ∈ fs, (f.jsonName ∈ req ↔ f.ty.isOptional = false)) →
      All2 (fun f n => n.1 = f.jsonName ∧ MakesFor cfg A cat S n.2 f.ty.required) fs ns → KnownDefs cfg A cat S st →
      ∃ fs' st', propTypedefs cfg ns ctx req st = .ok (fs', st') ∧
        Adds st st' (fun k => ∃ f ∈ fs, KeyIn cfg (propContext ctx f.jsonName) k) ∧ KnownDefs cfg A cat S st' ∧
        All2 (FieldFor cfg A st'.env) fs fs' := by
  intro fs
  induction fs with
  | nil =>
    intro ns st _ _ _ h hk
    cases h
    exact ⟨[], st, rfl, .refl, hk, .nil⟩
  | cons f fs ih =>
    intro ns st hfit hn hr h hk
    cases h with
    | @cons _ n _ ns h h' =>
      obtain ⟨p, n⟩ := n
      obtain ⟨rfl, hm⟩ := h
      simp only [List.map_cons, List.nodup_cons] at hn
      have hfit1 := hfit f (by simp)
      obtain ⟨u, st1, h1, h2, h3, h4⟩ := hm (propContext ctx f.jsonName) st hf.prop (by
        have := identifier_nul hfit1.identifier.1
        simp [propContext, h0, this]) hk
      obtain ⟨f', h5, h6⟩ := propField_for (hr f (by simp)) h4
      obtain ⟨fs', st2, h7, h8, h9, h10⟩ := ih ns st1 (fun g hg => hfit g (by simp [hg])) hn.2
        (fun g hg => hr g (by simp [hg])) h' h3
      refine ⟨f' :: fs', st2, ?_, (h2.trans h8 ?_).imp ?_, h9, .cons (h6.mono h8.extends) h10⟩
      · simp only [propTypedefs, h1, h5, h7]
      · rintro k hk1 ⟨g, hg, hk2⟩
        have := prop_apart hk1 hk2 hfit1.tidy (hfit g (by simp [hg])).tidy
        exact hn.1 (List.mem_map.2 ⟨g, hg, this.symm⟩)
      · rintro k (hk | ⟨g, hg, hk⟩)
        · exact ⟨f, by simp, hk⟩
        · exact ⟨g, by simp [hg], hk⟩

theorem checkFieldNames_ok {cfg : BuildCfg} : ∀ (ns seen : List Str), ns.Nodup → (∀ n ∈ ns, n ∉ seen) →
    (∀ n ∈ ns, isIdentifier cfg n = true ∧ isKeyword n = false ∧ isDunderName n = false) → checkFieldNames cfg seen ns = .ok () := by
  intro ns
  induction ns with
  | nil => intros; rfl
  | cons n ns ih =>
    intro seen hn hs h
    obtain ⟨h1, h2, h3⟩ := h n (by simp)
    simp only [List.nodup_cons] at hn
    unfold checkFieldNames
    simp only [h1, h2, h3, Bool.not_true, Bool.false_eq_true, if_false, if_neg (hs n (by simp))]
    refine ih _ hn.2 (fun m hm hm' => ?_) fun m hm => h m (by simp [hm])
    rcases List.mem_cons.1 hm' with rfl | hm'
    · exact hn.1 hm
    · exact hs m (by simp [hm]) hm'

theorem all2_get {α β : Type} {R : α → β → Prop} {xs : List α} {ys : List β} (h : All2 R xs ys) {i : Nat} {x : α} {y : β}
    (hx : xs[i]? = some x) (hy : ys[i]? = some y) : R x y := by
  induction h generalizing i with
  | nil => cases hx
  | cons h _ ih =>
    cases i with
    | zero => cases hx; cases hy; exact h
    | succ i => exact ih hx hy

theorem writeProp_jsonName {cfg : BuildCfg} {q : Bool} {f : FieldDef} (h : FieldFits cfg f) :
    writeProp (.dataclass q) f = f.jsonName := by
  have ht := h.tidy
  simp only [writeProp, h.evaluated.1, FieldDef.jsonName] at ht ⊢
  cases ha : f.ty.alias with
  | none => rw [ha] at ht; exact tidy_self ht
  | some a => rfl

/-- The node of a class. -/
theorem cls_makes {cfg : BuildCfg} {A : Env} {cat : SchemaCatalog} {S : Str → Prop} {c : Nat} {cd : ClassDef} {q : Bool}
    {ns : List (Str × TNode)} {req : List Str} (hc : A.classes[c]? = some cd) (hk : cd.kind = .dataclass q)
    (hj : cd.toJson = Option.none) (hfit : ∀ f ∈ cd.fields, FieldFits cfg f) (hn : (cd.fields.map FieldDef.jsonName).Nodup)
    (hreq : ∀ f ∈ cd.fields, (f.jsonName ∈ req ↔ f.ty.isOptional = false))
    (h : All2 (fun f n => n.1 = f.jsonName ∧ MakesFor cfg A cat S n.2 f.ty.required) cd.fields ns) {r : Option (List Str)}
    (hr : r.getD [] = req) : MakesFor cfg A cat S (.obj (some ns) (some false) r) (.cls c) := by
  intro ctx st hf h0 hst
  obtain ⟨fs', st1, h1, h2, h3, h4⟩ := props_makes (req := req) hf h0 cd.fields ns st hfit hn hreq h hst
  have hlast : defaultsLast fs' = fs' := by
    have : ∀ f' ∈ fs', f'.hasDefault = false := by
      intro f' hm
      obtain ⟨f, _, hff⟩ := h4.mem_right hm
      simp [FieldDef.hasDefault, hff.dflt]
    unfold defaultsLast
    rw [List.filter_eq_self.2 (fun f hm => by simp [this f hm]), List.filter_eq_nil_iff.2 (fun f hm => by simp [this f hm])]
    simp
  have hord : defaultsOrdered false fs' = true := by rw [← hlast]; exact defaultsLast_ordered fs'
  have hnames : fs'.map (·.name) = cd.fields.map FieldDef.jsonName := by
    clear h hord hlast h1 hreq hn hfit hk hj hc
    generalize cd.fields = fs at h4
    induction h4 with
    | nil => rfl
    | cons h _ ih => simp [h.name, ih]
  have hcheck : checkFieldNames cfg [] (fs'.map (·.name)) = .ok () := by
    rw [hnames]
    refine checkFieldNames_ok _ _ hn (by simp) fun n hm => ?_
    obtain ⟨f, hg, rfl⟩ := List.mem_map.1 hm
    exact ⟨(hfit f hg).identifier.1, (hfit f hg).identifier.2, (hfit f hg).ordinary⟩
  let cd' : ClassDef := { module := cfg.modName, name := ctx, kind := .dataclass false, fields := fs' }
  have hget : (st1.env.classes ++ [cd'])[st1.env.classes.length]? = some cd' := by simp
  have hx : Extends st1.env { st1.env with classes := st1.env.classes ++ [cd'] } := ⟨[], [cd'], by simp, rfl⟩
  have hadd : Adds st1 ⟨{ st1.env with classes := st1.env.classes ++ [cd'] },
      upsert ctx (.cls st1.env.classes.length) st1.attrs, st1.patched⟩ (fun k => k = (cfg.modName, ctx)) := by
    refine ⟨[], [cd'], by simp, rfl, by simp [keysOf], ?_⟩
    intro k hk
    simpa [keysOf, ClassDef.key] using hk
  refine ⟨.cls st1.env.classes.length, _, ?_, (h2.trans hadd ?_).imp ?_, h3.set hf hx ⟨h3.tidy.enums, ?_, h3.tidy.setOrder⟩, ?_⟩
  · simp only [nodeToTypedef, ne_eq, not_true_eq_false, if_false, hr, h1, makeDataclass, hlast, hcheck, if_neg h0, hord, Bool.not_true, Bool.false_eq_true]
    rfl
  · rintro k ⟨f, _, hk⟩ rfl
    have hlen : ctx.length < (propContext ctx f.jsonName).length := by simp [propContext]
    rcases hk.2 with hk | ⟨r, hk⟩
    · simp only at hk; rw [← hk] at hlen; omega
    · simp only at hk
      have := congrArg List.length hk
      simp at this
      omega
  · rintro k (⟨x, _, hk⟩ | rfl)
    · exact hk.prop
    · exact ⟨rfl, .inl rfl⟩
  · intro d hd
    rcases List.mem_append.1 hd with h | h
    · exact h3.tidy.fields d h
    · rw [List.mem_singleton] at h
      subst h
      show (fs'.map (·.name)).Nodup
      rw [hnames]; exact hn
  · refine ⟨.cls hc hget hk rfl hj rfl rfl h4.length ?_ ?_ ?_, ⟨rfl, rfl, rfl⟩, rfl, fun _ => .inl ⟨_, cd', rfl, hget, rfl⟩⟩
    · rw [hk, List.map_congr_left fun f hf => writeProp_jsonName (hfit f hf)]; exact hn
    · intro i f f' hi hi'
      have hff := all2_get h4 hi hi'
      have hfm := hfit f (List.mem_of_getElem? hi)
      have hself : fieldToProperty f'.name Option.none = f'.name := by rw [hff.name]; exact tidy_self hfm.tidy
      refine ⟨?_, ?_, ?_, hff.dflt, hff.ty, hfm.evaluated.2, hff.evaluated.2⟩
      · rw [hk, writeProp_jsonName hfm, hff.name]
      · show fieldToProperty f'.name (if f'.strAnn then Option.none else f'.ty.alias) = f'.name
        rw [hff.unaliased]; simp [hself]
      · show fieldToProperty f'.name f'.ty.alias = f'.name
        rw [hff.unaliased]; exact hself
    · intro i f f' hi hi'
      exact (all2_get h4 hi hi').made.mirror.mono hx

end Verif
