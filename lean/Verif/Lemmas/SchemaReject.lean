import Verif.Lemmas.SchemaMeaning
import Verif.Props.C11_RoundTrip
import Verif.Props.C50_Annotations
import Verif.Props.C27_SameName
/-!
# Values that schemas do not admit
-/
namespace Verif

variable {vc : ValidatorCfg} {cfg : SchemaCfg} {env : Env} {cat : SchemaCatalog} {root : Json} {names : Str → Prop}

/-- `s` is made for type `t`, with references to `names`. -/
def TySch (cfg : SchemaCfg) (env : Env) (cat : SchemaCatalog) (names : Str → Prop) (fwd skip : Bool) (t : Ty) (s : Sch) : Prop :=
  ∃ n us, tySchema cfg env cat (clsSchema cfg env cat n) fwd skip t = .ok (s, us) ∧ UsesIn names us

/-- Names of classes and enumerations in the type are known. -/
def FwdOk (env : Env) (cat : SchemaCatalog) (fwd skip : Bool) (t : Ty) : Prop :=
  fwd = true → ∀ k b, Occurs skip t k b → b = false ∧ KnownByName env cat k

theorem TySch.gen (hp : ProgramChecks cfg env cat) {fwd skip : Bool} {t : Ty} {s : Sch} (h : TySch cfg env cat names fwd skip t s)
    (hf : FwdOk env cat fwd skip t) : GenSch cfg names (.obj s) := by
  obtain ⟨n, us, h1, h2⟩ := h
  have hP := gen_closed (cfg := cfg) hp.schemaNames.namesOk names
  exact tySchema_rec hP.toSchClosed (clsSchema_rec hP n) hP.name t skip s us hf h1 h2

theorem TySch.decided (hp : ProgramChecks cfg env cat) (hg : GoodDoc cfg env cat root names) {fwd skip : Bool} {t : Ty} {s : Sch}
    (h : TySch cfg env cat names fwd skip t s) (hf : FwdOk env cat fwd skip t) (v : Json) : Decided vc root (.obj s) v :=
  gen_decided (hg.refsGood hp.schemaNames.namesOk) _ v (Nat.lt_succ_self _) _ (h.gen hp hf)

theorem unann_annotated_simple {t : Ty} {k : RegKey} (h : t.unann.regKey = some k) : simpleSchema t = none := by
  cases t <;> simp_all [Ty.unann, Ty.regKey, simpleSchema]

/-- The schema of a class or an enumeration, or a reference to it, means what the definition says. -/
theorem reg_meaning (hp : SchemaNames cfg env cat) (hg : GoodDoc cfg env cat root names) {k : RegKey} {fwd : Bool} :
    ∀ (t : Ty) (skip : Bool) (s : Sch), t.unann.regKey = some k → TySch cfg env cat names fwd skip t s → FwdOk env cat fwd skip t →
      ∃ s0, DefOf cfg env cat names k s0 ∧ ∀ v, Validates vc root (.obj s) v ↔ Validates vc root (.obj s0) v := by
  have href : ∀ e s, lookupKey k cat.byType = some e → s = refSch cfg e.identifier → names e.identifier →
      ∃ s0, DefOf cfg env cat names k s0 ∧ ∀ v, Validates vc root (.obj s) v ↔ Validates vc root (.obj s0) v := by
    rintro e s he rfl hn
    obtain ⟨k', e', d, s0, h1, h2, h3, h4, h5⟩ := hg _ hn
    have := hp.unique _ _ _ _ h1 he h2
    subst this
    exact ⟨s0, h5, fun v => (valid_ref h3).trans h4.validates_iff⟩
  intro t
  generalize hsz : sizeOf t = sz
  induction sz using Nat.strongRecOn generalizing t with | _ sz ih0 =>
  cases t with
  | annotated t ms =>
    have ih := ih0 (sizeOf t) (by rw [← hsz]; simp; omega) t rfl
    intro skip s hk ⟨n, us, h1, h2⟩ hf
    have hk' : t.unann.regKey = some k := hk
    simp only [tySchema, unann_annotated_simple hk'] at h1
    exact ih true s hk' ⟨n, us, h1, h2⟩ (fun hfw k b ho => hf hfw k b (.annotated ho))
  | enum e =>
    intro skip s hk ⟨n, us, h1, h2⟩ hf
    cases (Option.some.inj hk : RegKey.enum e = k)
    simp only [tySchema] at h1
    split at h1
    · rename_i hfw
      obtain ⟨_, _, e', _, _, h3, _, rfl, rfl⟩ := nameSchema_known (hf hfw _ _ .enum) h1
      exact href e' _ h3 rfl (h2 _ (List.mem_singleton.2 rfl))
    · split at h1
      · rename_i entry hl
        cases h1
        split at hl
        · cases hl
        · exact href entry _ hl rfl (h2 _ (List.mem_singleton.2 rfl))
      · split at h1
        · cases h1
        · rename_i s1 hs; cases h1; exact ⟨_, hs, fun v => Iff.rfl⟩
  | cls c =>
    intro skip s hk ⟨n, us, h1, h2⟩ hf
    cases (Option.some.inj hk : RegKey.cls c = k)
    simp only [tySchema] at h1
    split at h1
    · rename_i hfw
      obtain ⟨_, _, e', _, _, h3, _, rfl, rfl⟩ := nameSchema_known (hf hfw _ _ .cls) h1
      exact href e' _ h3 rfl (h2 _ (List.mem_singleton.2 rfl))
    · split at h1
      · rename_i entry hl
        cases h1
        split at hl
        · cases hl
        · exact href entry _ hl rfl (h2 _ (List.mem_singleton.2 rfl))
      · exact ⟨_, ⟨n, us, h1, h2⟩, fun v => Iff.rfl⟩
  | _ => intro skip s hk; cases hk

/-! ### Enumerations and literals -/

theorem type_scalar {s : Scalar} {j : Json} (h : isJsonType (scalarTypeName s) j = some true) : j.kind ∈ s.kind.widen := by
  cases s <;> cases j <;> revert h <;> simp [isJsonType, scalarTypeName, Scalar.kind, Scalar.toJson, Json.kind, Kind.widen]

theorem scalar_type (s : Scalar) : isJsonType (scalarTypeName s) s.toJson = some true := by
  cases s <;> simp [isJsonType, scalarTypeName, Scalar.toJson]

theorem scalars_uniform {l : List Scalar} {s : Scalar} (h : scalarsUniform l = true) (hs : s ∈ l) :
    ∀ s' ∈ l, scalarTypeName s' = scalarTypeName s := by
  cases l with
  | nil => cases hs
  | cons a l =>
    simp only [scalarsUniform, List.all_eq_true, decide_eq_true_eq] at h
    have h' : ∀ x ∈ a :: l, scalarTypeName x = scalarTypeName a := by
      intro x hx
      rcases List.mem_cons.1 hx with rfl | hx
      · rfl
      · exact h x hx
    intro s' hs'
    rw [h' s' hs', h' s hs]

/-- A schema of an enumeration: the type of all its values, and the list of values unless that is `None`. -/
theorem enumSchema_cases {e : Nat} {s : Sch} (h : enumSchema env e = .ok s) :
    ∃ ed m, env.enums[e]? = some ed ∧ m ∈ ed.members ∧ (∀ m' ∈ ed.members, scalarTypeName m'.2 = scalarTypeName m.2) ∧
      ((m.2 = .none ∧ s = [(c!"type", js c!"null")]) ∨
        (m.2 ≠ .none ∧ s = [(c!"type", js (scalarTypeName m.2)), (c!"enum", .arr (ed.members.map fun m => m.2.toJson))])) := by
  unfold enumSchema at h
  split at h
  · cases h
  · rename_i ed hed
    split at h
    · rename_i hu
      have huni : ∀ m ∈ ed.members, ∀ m' ∈ ed.members, scalarTypeName m'.2 = scalarTypeName m.2 := by
        intro m hm m' hm'
        exact scalars_uniform hu (List.mem_map.2 ⟨m, hm, rfl⟩) _ (List.mem_map.2 ⟨m', hm', rfl⟩)
      split at h
      · rename_i nm r hm
        cases h
        have hmem : (nm, Scalar.none) ∈ ed.members := by rw [hm]; simp
        exact ⟨ed, _, hed, hmem, huni _ hmem, Or.inl ⟨rfl, rfl⟩⟩
      · rename_i nm sc r hne hm
        cases h
        have hmem : (nm, sc) ∈ ed.members := by rw [hm]; simp
        exact ⟨ed, _, hed, hmem, huni _ hmem, Or.inr ⟨hne, rfl⟩⟩
      · cases h
    · cases h

theorem enum_only {e : Nat} {s : Sch} {j : Json} (h : enumSchema env e = .ok s) (hv : Validates vc root (.obj s) j) :
    ∃ ed, env.enums[e]? = some ed ∧ (∃ m ∈ ed.members, Json.same j m.2.toJson = true) ∧
      ∃ m ∈ ed.members, j.kind ∈ m.2.kind.widen := by
  obtain ⟨ed, m, h1, h2, _, ⟨h4, rfl⟩ | ⟨h4, rfl⟩⟩ := enumSchema_cases h
  · have ht := validates_type (n := c!"null") (by simp) hv
    have hj : j = .null := by cases j <;> simp [isJsonType] at ht; rfl
    subst hj
    exact ⟨ed, h1, ⟨m, h2, by rw [h4]; rfl⟩, m, h2, by rw [h4]; simp [Json.kind, Scalar.kind, Scalar.toJson, Kind.widen]⟩
  · have ht := validates_type (n := scalarTypeName m.2) (by simp) hv
    refine ⟨ed, h1, ?_, m, h2, type_scalar ht⟩
    rw [validates_obj_iff] at hv
    obtain ⟨_, he⟩ := hv (c!"enum", .arr (ed.members.map fun m => m.2.toJson)) (by simp)
    have he : ((ed.members.map fun m => m.2.toJson).any fun x => Json.same j x) = true := Option.some.inj he
    simp only [List.any_eq_true, List.mem_map] at he
    obtain ⟨_, ⟨m', hm', rfl⟩, hs⟩ := he
    exact ⟨m', hm', hs⟩

theorem lit_only {l : Lit} {s : Sch} {j : Json} (h : litSchema l = .ok s) (hv : Validates vc root (.obj s) j) :
    ∃ x, l.scalar = some x ∧ Json.same j x.toJson = true ∧ j.kind ∈ x.kind.widen := by
  unfold litSchema at h
  split at h
  · cases h
  · rename_i x hx
    cases h
    have ht := validates_type (n := scalarTypeName x) (by simp) hv
    rw [validates_obj_iff] at hv
    obtain ⟨_, he⟩ := hv (c!"const", x.toJson) (by simp)
    exact ⟨x, hx, Option.some.inj he, type_scalar ht⟩

/-! ### Kinds -/

theorem simple_kinds {t : Ty} {base s : Sch} {j : Json} (hb : simpleSchema t = some base)
    (hs : ∀ n, (c!"type", js n) ∈ base → (c!"type", js n) ∈ s) (hv : Validates vc root (.obj s) j) :
    j.kind ∈ schemaKinds env t := by
  cases t <;> simp only [simpleSchema, Option.some.injEq, reduceCtorEq] at hb <;> subst hb <;>
    (have ht := validates_type (hs _ (by simp; rfl)) hv
     revert ht
     cases j <;> simp [isJsonType, schemaKinds, Ty.unann, Json.kind])

theorem mem_allKinds (k : Kind) : k ∈ allKinds := by cases k <;> decide

theorem type_withMeta {base : Sch} {t : Ty} {ms : List Meta} (hb : simpleSchema t = some base) {n : Str}
    (hm : (c!"type", js n) ∈ base) : (c!"type", js n) ∈ withMeta cfg base ms := by
  have hnd := (plain_simple hb).1
  refine lookupKey_some_mem ?_
  rw [lookupKey_withMeta, lookupKey_of_mem hnd hm]
  have : ∀ m, lookupKey c!"type" (metaSchema cfg m) = none := by intro m; cases m <;> rfl
  rw [lastSome_congr this, lastSome_none]

theorem schema_kinds (hp : ProgramChecks cfg env cat) (hg : GoodDoc cfg env cat root names) {fwd : Bool} {j : Json} :
    ∀ (t : Ty) (skip : Bool) (s : Sch), TySch cfg env cat names fwd skip t s → FwdOk env cat fwd skip t →
      Validates vc root (.obj s) j → j.kind ∈ schemaKinds env t := by
  have harr : ∀ s : Sch, (c!"type", js c!"array") ∈ s → Validates vc root (.obj s) j → j.kind = .arr := by
    intro s hs hv
    obtain ⟨xs, rfl⟩ := isJsonType_array.1 (validates_type hs hv)
    rfl
  have hobj : ∀ s : Sch, (c!"type", js c!"object") ∈ s → Validates vc root (.obj s) j → j.kind = .obj := by
    intro s hs hv
    obtain ⟨xs, rfl⟩ := isJsonType_object.1 (validates_type hs hv)
    rfl
  intro t
  generalize hsz : sizeOf t = sz
  induction sz using Nat.strongRecOn generalizing t with | _ sz ih0 =>
  cases t with
  | annotated t ms =>
    have ih := ih0 (sizeOf t) (by rw [← hsz]; simp; omega) t rfl
    intro skip s ⟨n, us, h1, h2⟩ hf hv
    show j.kind ∈ schemaKinds env t
    simp only [tySchema] at h1
    split at h1
    · rename_i base hb
      split at h1
      · cases h1
        exact simple_kinds hb (fun n hn => (mem_upsert_other (by decide)).2 hn) hv
      · cases h1
        exact simple_kinds hb (fun n hn => type_withMeta hb hn) hv
    · exact ih true s ⟨n, us, h1, h2⟩ (fun hfw k b ho => hf hfw k b (.annotated ho)) hv
  | none | bool | int | float | str | bytes | datetime | date | time | timedelta | uuid =>
    intro skip s ⟨n, us, h1, h2⟩ hf hv
    simp only [tySchema, simpleSchema] at h1
    cases h1
    exact simple_kinds rfl (fun _ h => h) hv
  | ipv4 | ipv6 | bareList | bareSet | bareTuple | union ts => intro _ _ _ _ _; exact mem_allKinds _
  | bareDict =>
    intro skip s ⟨n, us, h1, h2⟩ hf hv
    simp only [tySchema, simpleSchema] at h1
    cases h1
    simp [schemaKinds, Ty.unann, hobj emptyClassSchema (by simp [emptyClassSchema]) hv]
  | list t | set t =>
    intro skip s ⟨n, us, h1, h2⟩ hf hv
    simp only [tySchema] at h1
    rw [SchRes.map_ok] at h1
    obtain ⟨s1, _, h3⟩ := h1
    cases h3
    simp [schemaKinds, Ty.unann, harr _ (by simp) hv]
  | tuple ts =>
    intro skip s ⟨n, us, h1, h2⟩ hf hv
    simp only [tySchema] at h1
    rw [SchRes.map_ok] at h1
    obtain ⟨s1, _, h3⟩ := h1
    cases h3
    simp [schemaKinds, Ty.unann, harr _ (by simp) hv]
  | dict k t =>
    intro skip s ⟨n, us, h1, h2⟩ hf hv
    simp only [tySchema] at h1
    replace h1 := (ite_error_ok.1 h1).2
    rw [SchRes.map_ok] at h1
    obtain ⟨s1, _, h3⟩ := h1
    have : j.kind = .obj := by
      rcases dictSchema_cases h3 with rfl | ⟨_, rfl⟩ | ⟨_, _, _, _, _, _, rfl⟩ <;> exact hobj _ (by simp) hv
    simp [schemaKinds, Ty.unann, this]
  | literal ls =>
    intro skip s ⟨n, us, h1, h2⟩ hf hv
    simp only [tySchema] at h1
    split at h1
    · rename_i l
      split at h1
      · cases h1
      · rename_i s1 hs
        cases h1
        obtain ⟨x, h3, _, h4⟩ := lit_only hs hv
        simpa [schemaKinds, Ty.unann, h3] using h4
    · cases h1
  | enum e =>
    intro skip s h hf hv
    obtain ⟨s0, h1, h2⟩ := reg_meaning (vc := vc) hp.schemaNames hg (k := .enum e) _ _ _ rfl h hf
    obtain ⟨ed, h3, _, m, hm, h4⟩ := enum_only h1 ((h2 j).1 hv)
    simp only [schemaKinds, Ty.unann, enumKinds, h3, List.mem_flatMap]
    rw [(hp.enums ed (List.mem_of_getElem? h3)).1]
    exact ⟨_, List.mem_map.2 ⟨m, hm, rfl⟩, h4⟩
  | cls c =>
    intro skip s h hf hv
    obtain ⟨s0, ⟨n, us, h1, _⟩, h2⟩ := reg_meaning (vc := vc) hp.schemaNames hg (k := .cls c) _ _ _ rfl h hf
    cases n with
    | zero => cases h1
    | succ n =>
      cases hc : env.classes[c]? with
      | none => simp only [clsSchema, hc] at h1; cases h1
      | some cd =>
        obtain ⟨ps, _, rfl⟩ := clsSchema_ok hc h1
        obtain ⟨kvs, rfl, _⟩ := valid_class.1 ((h2 j).1 hv)
        simp [schemaKinds, Ty.unann, Json.kind]

/-! ### Classes -/

theorem jsonName_schema {cd : ClassDef} (hc : ClassNames env cat cd) {f : FieldDef} (hf : f ∈ cd.hints) :
    schemaProp cd.kind f = jsonName f := by
  simp [schemaProp, hc.strings f hf, jsonName]

theorem jsonName_write {cd : ClassDef} (hc : ClassChecks env cat cd) {f : FieldDef} (hf : f ∈ cd.hints) :
    writeProp cd.kind f = jsonName f := by
  have hs := hc.strings f hf
  have hn := hc.names f hf
  have : fieldToProperty f.name f.ty.alias = jsonName f := by
    unfold jsonName
    cases ha : f.ty.alias with
    | some a => rfl
    | none => exact (C26_underscore_iff_keyword _ _).2 (Or.inr ⟨rfl, fun k hk he => hn ha k hk he⟩)
  cases hk : cd.kind with
  | dataclass fr =>
    rw [hk] at hs
    have hs : f.strAnn = false := hs
    simp only [writeProp, hs]
    exact this
  | _ => exact this

/-- The schema of a class, property by property. -/
theorem def_class (hp : SchemaNames cfg env cat) {d : Nat} {dd : ClassDef} (hc : env.classes[d]? = some dd) {s0 : Sch}
    (hd : DefOf cfg env cat names (.cls d) s0) :
    ∃ ps, s0 = classSchema ps ((dd.hints.filter fun f => !f.ty.isOptional).map jsonName) ∧
      (∀ g ∈ dd.hints, ∃ s2 s1, lookupKey (jsonName g) ps = some (.obj s2) ∧ SameKw s2 s1 ∧
        TySch cfg env cat names (fwdField dd.kind g) false g.ty.required s1) ∧
      (∀ p ∈ ps, ∃ g ∈ dd.hints, jsonName g = p.1) ∧ (ps.map Prod.fst).Nodup := by
  obtain ⟨m, us, h1, h2⟩ := hd
  have hcc := hp.classes dd (List.mem_of_getElem? hc)
  cases m with
  | zero => cases h1
  | succ m =>
    obtain ⟨ps, h3, rfl⟩ := clsSchema_ok hc h1
    obtain ⟨a1, a2, a3, a4, a5⟩ := propSchemas_ok h3
    have hnd : (dd.hints.map (schemaProp dd.kind)).Nodup := by
      rw [List.map_congr_left fun f hf => jsonName_schema hcc hf]; exact hcc.distinct
    obtain ⟨_, b2⟩ := a5 (fun _ _ => rfl) hnd
    refine ⟨ps, ?_, ?_, ?_, a3 (by simp)⟩
    · congr 1
      have : dd.hints.filter (schemaRequired dd.kind) = dd.hints.filter fun f => !f.ty.isOptional := by
        apply List.filter_congr
        intro f hf
        simp [schemaRequired, hcc.strings f hf]
      rw [this]
      apply List.map_congr_left
      intro f hf
      exact jsonName_schema hcc (List.mem_filter.1 hf).1
    · intro g hg
      obtain ⟨s, us', c1, c2, c3⟩ := b2 g hg
      rw [jsonName_schema hcc hg] at c2
      unfold propSchema at c1
      rw [hcc.strings g hg, if_neg (by decide), SchRes.map_ok] at c1
      obtain ⟨s1, d1, d2⟩ := c1
      refine ⟨s, s1, c2, ?_, ⟨m, us', d1, fun u hu => h2 u (c3 u hu)⟩⟩
      unfold withDefault at d2
      split at d2
      · cases d2; exact SameKw.refl _
      · split at d2
        · split at d2
          · cases d2
          · cases d2; exact SameKw.upsert _ (by decide)
        · cases d2; exact SameKw.refl _
    · intro p hpm
      have := (a2 p.1).1 (by rw [lookupKey_of_mem (a3 (by simp)) hpm]; rfl)
      rcases this with h | ⟨g, hg, h⟩
      · cases h
      · exact ⟨g, hg, by rw [← jsonName_schema hcc hg]; exact h⟩

/-- What is written for an instance of a class, property by property. -/
theorem obj_written (hp : ProgramChecks cfg env cat) {c : Nat} {cd : ClassDef} (hc : env.classes[c]? = some cd)
    (hne : cd.hints ≠ []) {fs : List (Str × Val)} (hty : HasTy env (.obj c fs) (.cls c)) {j : Json}
    (h : objectToJson env (.obj c fs) = .ok j) :
    ∃ kvs, j = .obj kvs ∧
      (∀ (i : Nat) f, cd.hints[i]? = some f → ∃ w, fs[i]? = some w ∧ HasTy env w.2 f.ty ∧
        ((w.2 = .none ∧ lookupKey (jsonName f) kvs = none) ∨
         (w.2 ≠ .none ∧ ∃ x, objectToJson env w.2 = .ok x ∧ lookupKey (jsonName f) kvs = some x))) ∧
      ∀ p ∈ kvs, ∃ f ∈ cd.hints, jsonName f = p.1 := by
  have hcm := List.mem_of_getElem? hc
  have hcc := hp.classes cd hcm
  have hkind : cd.kind ≠ .namedTuple false := by
    intro hk; apply hne; unfold ClassDef.hints; rw [hk]
  have hh := hints_eq_fields hkind
  have hnf : cd.fields ≠ [] := by rwa [hh] at hne
  have hw : ∀ f ∈ cd.fields, writeProp cd.kind f = jsonName f := fun f hf => jsonName_write hcc (by rw [hh]; exact hf)
  have hnd : (cd.fields.map (writeProp cd.kind)).Nodup := by
    rw [List.map_congr_left hw, ← hh]; exact hcc.distinct
  obtain ⟨kvs, rfl, h1, h2⟩ := C13_complete env hp.ok c cd fs j hc hcc.toJson hkind hnf hnd hty h
  obtain ⟨fs', he, h3, h4⟩ := hasTy_cls_inv hc hkind (fun _ => hnf) hty
  cases he
  refine ⟨kvs, rfl, ?_, ?_⟩
  · intro i f hi
    rw [hh] at hi
    obtain ⟨w, h5, h6⟩ := attr_of_name h3 (hp.ok.fields cd hcm) hi
    have := h1 f (List.mem_of_getElem? hi) w h6
    rw [hw f (List.mem_of_getElem? hi)] at this
    exact ⟨_, h5, h4 i f _ hi h5, this⟩
  · intro p hpm
    obtain ⟨f, hf, he⟩ := h2 p hpm
    exact ⟨f, by rw [hh]; exact hf, by rw [← hw f hf]; exact he⟩

theorem HasTy.unann : ∀ {v : Val} {t : Ty}, HasTy env v t → HasTy env v t.unann := by
  intro v t h
  induction h with
  | annotated _ ih => exact ih
  | list h _ => exact .list h
  | set h h2 h3 _ => exact .set h h2 h3
  | tuple h h2 _ => exact .tuple h h2
  | dict h h2 h3 _ => exact .dict h h2 h3
  | union h h2 _ => exact .union h h2
  | literal h h2 => exact .literal h h2
  | enum h h2 => exact .enum h h2
  | cls h h2 h3 _ => exact .cls h h2 h3
  | untyped h h2 h3 => exact .untyped h h2 h3
  | datetime h => exact .datetime h
  | date h => exact .date h
  | time h => exact .time h
  | timedelta h => exact .timedelta h
  | uuid h => exact .uuid h
  | ipv4 h => exact .ipv4 h
  | ipv6 h h2 => exact .ipv6 h h2
  | _ => constructor

theorem hasTy_cls_obj {v : Val} {c : Nat} (h : HasTy env v (.cls c)) : ∃ fs, v = .obj c fs := by
  cases h <;> exact ⟨_, rfl⟩

theorem lit_written {l : Lit} {x : Scalar} (hx : l.scalar = some x) {j : Json} (h : objectToJson env l.toVal = .ok j) :
    j = x.toJson := by
  cases l <;> simp only [Lit.scalar, Option.some.injEq, reduceCtorEq] at hx <;> subst hx <;> cases h <;> rfl

theorem enum_written (hp : ProgramChecks cfg env cat) {e m : Nat} {ed : EnumDef} (he : env.enums[e]? = some ed) {j : Json}
    (h : objectToJson env (.enum e m) = .ok j) : ∃ p, ed.members[m]? = some p ∧ j = p.2.toJson := by
  have h := dumps_enum h
  have ht := (hp.enums ed (List.mem_of_getElem? he)).1
  simp only [genEnum, he, ht, enumValue] at h
  cases hm : ed.members[m]? with
  | none => rw [hm] at h; cases h
  | some p => rw [hm] at h; cases h; exact ⟨p, rfl, rfl⟩

/-- What is written for a value of type `t` is one of its values. -/
theorem written_value (hp : ProgramChecks cfg env cat) {t : Ty} {xs : List Json} (hx : jsonValues env t = some xs) {v : Val}
    (hv : HasTy env v t) {j : Json} (h : objectToJson env v = .ok j) : j ∈ xs := by
  have hv := hv.unann
  unfold jsonValues at hx
  split at hx
  · rename_i e he
    rw [he] at hv
    cases hv with
    | enum h1 h2 =>
      rw [h1] at hx
      cases hx
      obtain ⟨p, h3, rfl⟩ := enum_written hp h1 h
      exact List.mem_map.2 ⟨p, List.mem_of_getElem? h3, rfl⟩
  · rename_i l hl
    rw [hl] at hv
    cases hv with
    | literal h1 h2 =>
      rcases List.mem_singleton.1 h1 with rfl
      subst h2
      split at hx
      · rename_i s hs
        cases hx
        exact List.mem_singleton.2 (lit_written hs h)
      · cases hx
  · cases hx

/-- Values admitted by the schema of a type with finitely many values. -/
theorem admitted_value (hp : ProgramChecks cfg env cat) (hg : GoodDoc cfg env cat root names) {fwd : Bool} {j : Json} :
    ∀ (t : Ty) (ys : List Json) (skip : Bool) (s : Sch), jsonValues env t = some ys → TySch cfg env cat names fwd skip t s →
      FwdOk env cat fwd skip t → Validates vc root (.obj s) j → ∃ y ∈ ys, Json.same j y = true := by
  intro t
  generalize hsz : sizeOf t = sz
  induction sz using Nat.strongRecOn generalizing t with | _ sz ih0 =>
  intro ys skip s hy h hf hv
  cases t with
  | annotated t ms =>
    have hs : simpleSchema t = none := by
      cases t <;> simp_all [simpleSchema, jsonValues, Ty.unann]
    obtain ⟨n, us, h1, h2⟩ := h
    simp only [tySchema, hs] at h1
    exact ih0 (sizeOf t) (by rw [← hsz]; simp; omega) t rfl ys true s hy ⟨n, us, h1, h2⟩
      (fun hfw k b ho => hf hfw k b (.annotated ho)) hv
  | enum e =>
    obtain ⟨s0, h1, h2⟩ := reg_meaning (vc := vc) hp.schemaNames hg (k := .enum e) _ _ _ rfl h hf
    obtain ⟨ed, h3, ⟨m, hm, h4⟩, _⟩ := enum_only h1 ((h2 j).1 hv)
    simp only [jsonValues, Ty.unann, h3, Option.some.injEq] at hy
    subst hy
    exact ⟨_, List.mem_map.2 ⟨m, hm, rfl⟩, h4⟩
  | literal ls =>
    obtain ⟨n, us, h1, h2⟩ := h
    simp only [tySchema] at h1
    split at h1
    · rename_i l
      split at h1
      · cases h1
      · rename_i s1 hs
        cases h1
        obtain ⟨x, h3, h4, _⟩ := lit_only hs hv
        simp only [jsonValues, Ty.unann, h3, Option.some.injEq] at hy
        subst hy
        exact ⟨_, List.mem_singleton.2 rfl, h4⟩
    · cases h1
  | _ => simp [jsonValues, Ty.unann] at hy

/-- What is written for a value of one type is not valid for the schema of a type apart from it. -/
theorem apart_rejects (hp : ProgramChecks cfg env cat) (hg : GoodDoc cfg env cat root names) {t u : Ty}
    (ha : SchemaApart env t u) : ∀ {v : Val} {j : Json} {fwd skip : Bool} {s : Sch}, HasTy env v t → objectToJson env v = .ok j →
      TySch cfg env cat names fwd skip u s → FwdOk env cat fwd skip u → ¬ Validates vc root (.obj s) j := by
  induction ha with
  | kinds hk =>
    intro v j fwd skip s hv h hs hf hval
    exact hk _ (written_kind hv h) (schema_kinds hp hg _ _ _ hs hf hval)
  | values hx hy hd =>
    intro v j fwd skip s hv h hs hf hval
    obtain ⟨y, hym, hsame⟩ := admitted_value hp hg _ _ _ _ hy hs hf hval
    rw [hd _ (written_value hp hx hv h) y hym] at hsame
    cases hsame
  | extra ht hu hc hd hf hopt hne hno =>
    intro v j fwd skip s hv h hs hfw hval
    have hv := hv.unann; rw [ht] at hv
    obtain ⟨fs, rfl⟩ := hasTy_cls_obj hv
    obtain ⟨i, hi⟩ := List.mem_iff_getElem?.1 hf
    obtain ⟨kvs, rfl, h1, h2⟩ := obj_written hp hc (List.ne_nil_of_mem hf) hv h
    obtain ⟨w, _, h3, h4⟩ := h1 i _ hi
    rcases h4 with ⟨h4, _⟩ | ⟨_, x, _, h4⟩
    · exact (hp.classes _ (List.mem_of_getElem? hc)).present _ hf hopt _ h3 h4
    · obtain ⟨s0, h5, h6⟩ := reg_meaning (vc := vc) hp.schemaNames hg (k := .cls _) _ _ _ (by rw [hu]; rfl) hs hfw
      obtain ⟨ps, rfl, b1, b2, b3⟩ := def_class hp.schemaNames hd h5
      obtain ⟨kvs', he, h7, _⟩ := valid_class.1 ((h6 _).1 hval)
      cases he
      have hps : ps ≠ [] := by
        rintro rfl
        obtain ⟨g, hg⟩ := List.exists_mem_of_ne_nil _ hne
        obtain ⟨_, _, hl, _⟩ := b1 g hg
        cases hl
      obtain ⟨_, h8⟩ := h7 hps
      have := h8 _ (lookupKey_some_mem h4)
      obtain ⟨y, hy⟩ := Option.isSome_iff_exists.1 this
      obtain ⟨g, hg, he⟩ := b2 _ (lookupKey_some_mem hy)
      exact hno g hg he
  | missing ht hu hc hd hne hgm hopt hno =>
    intro v j fwd skip s hv h hs hfw hval
    have hv := hv.unann; rw [ht] at hv
    obtain ⟨fs, rfl⟩ := hasTy_cls_obj hv
    obtain ⟨kvs, rfl, h1, h2⟩ := obj_written hp hc hne hv h
    obtain ⟨s0, h5, h6⟩ := reg_meaning (vc := vc) hp.schemaNames hg (k := .cls _) _ _ _ (by rw [hu]; rfl) hs hfw
    obtain ⟨ps, rfl, b1, b2, b3⟩ := def_class hp.schemaNames hd h5
    obtain ⟨kvs', he, _, h7⟩ := valid_class.1 ((h6 _).1 hval)
    cases he
    have := h7 _ (List.mem_map.2 ⟨_, List.mem_filter.2 ⟨hgm, by simp [hopt]⟩, rfl⟩)
    obtain ⟨y, hy⟩ := Option.isSome_iff_exists.1 this
    obtain ⟨f, hf, he⟩ := h2 _ (lookupKey_some_mem hy)
    exact hno f hf he
  | @differ t u c d cd dd f g ht hu hc hd hf hopt hgm hn _ ih =>
    intro v j fwd skip s hv h hs hfw hval
    have hv := hv.unann; rw [ht] at hv
    obtain ⟨fs, rfl⟩ := hasTy_cls_obj hv
    obtain ⟨i, hi⟩ := List.mem_iff_getElem?.1 hf
    obtain ⟨kvs, rfl, h1, h2⟩ := obj_written hp hc (List.ne_nil_of_mem hf) hv h
    obtain ⟨w, _, h3, h4⟩ := h1 i _ hi
    rcases h4 with ⟨h4, _⟩ | ⟨_, x, hx, h4⟩
    · exact (hp.classes _ (List.mem_of_getElem? hc)).present _ hf hopt _ h3 h4
    · obtain ⟨s0, h5, h6⟩ := reg_meaning (vc := vc) hp.schemaNames hg (k := .cls _) _ _ _ (by rw [hu]; rfl) hs hfw
      obtain ⟨ps, rfl, b1, b2, b3⟩ := def_class hp.schemaNames hd h5
      obtain ⟨kvs', he, h7, _⟩ := valid_class.1 ((h6 _).1 hval)
      cases he
      obtain ⟨s2, s1, hl, hsame, hs1⟩ := b1 g hgm
      have hm := lookupKey_some_mem hl
      have := (h7 (List.ne_nil_of_mem hm)).1 _ hm x (by rw [hn]; exact h4)
      exact ih h3 hx hs1 (fun hfw k b ho => (hp.classes _ (List.mem_of_getElem? hd)).forward g hgm hfw k b ho) (hsame.validates this)

end Verif
