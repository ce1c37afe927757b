import Verif.Lemmas.SchemaExists
/-!
# For which types there is a document, and what it defines
-/
namespace Verif

variable {cfg : SchemaCfg} {env : Env} {cat : SchemaCatalog} {cls : Nat → SchRes Sch}

/-- A use that is recorded for a reference in the schema of a type. -/
def IsUse (env : Env) (cat : SchemaCatalog) (a : Bool) (t : Ty) (u : TypeUse) : Prop :=
  ∃ k e, RefersIn env cat a t k ∧ lookupKey k cat.byType = some e ∧ u = ⟨e.identifier, .ty k.toTy, false⟩

theorem refers_cls {a : Bool} {c : Nat} {k : RegKey} (h : RefersIn env cat a (.cls c) k) :
    (a = false ∧ k = .cls c ∧ ∃ e, lookupKey k cat.byType = some e) ∨
    ((a = false → lookupKey (.cls c) cat.byType = none) ∧
      ∃ cd, env.classes[c]? = some cd ∧ ∃ f ∈ cd.hints, RefersIn env cat false f.ty.required k) := by
  generalize ht : Ty.cls c = t at h
  cases h with
  | @here k e h =>
    cases k with
    | enum => cases ht
    | cls c' => cases ht; exact Or.inl ⟨rfl, rfl, e, h⟩
  | field h1 h2 h3 h4 => cases ht; exact Or.inr ⟨h1, _, h2, _, h3, h4⟩
  | _ => cases ht

theorem refers_enum {a : Bool} {e : Nat} {k : RegKey} (h : RefersIn env cat a (.enum e) k) :
    a = false ∧ k = .enum e ∧ ∃ en, lookupKey k cat.byType = some en := by
  generalize ht : Ty.enum e = t at h
  cases h with
  | @here k e h =>
    cases k with
    | cls => cases ht
    | enum e' => cases ht; exact ⟨rfl, rfl, _, h⟩
  | _ => cases ht

/-- Uses of the types of a list. -/
theorem isUse_flat {a : Bool} {t t' : Ty} (h : ∀ k, RefersIn env cat a t k ↔ RefersIn env cat false t' k) {u : TypeUse} :
    IsUse env cat a t u ↔ IsUse env cat false t' u := by
  unfold IsUse; simp only [h]

theorem isUse_none {a : Bool} {t : Ty} (h : ∀ k, ¬ RefersIn env cat a t k) {u : TypeUse} : ¬ IsUse env cat a t u :=
  fun ⟨k, _, h1, _⟩ => h k h1

theorem refers_simple {t : Ty} {s : Sch} (h : simpleSchema t = some s) {a : Bool} {k : RegKey} : ¬ RefersIn env cat a t k := by
  intro hr
  cases hr with
  | @here k e => cases k <;> cases h
  | _ => cases h

theorem refers_annotated {a : Bool} {t : Ty} {ms : List Meta} {k : RegKey} :
    RefersIn env cat a (.annotated t ms) k ↔ RefersIn env cat true t k := by
  refine ⟨fun h => ?_, .annotated⟩
  generalize ht : Ty.annotated t ms = t' at h
  cases h with
  | @here k _ _ => cases k <;> cases ht
  | annotated h => cases ht; exact h
  | _ => cases ht

theorem refers_leaf {t : Ty} (h : t ∈ scalarTys ∨ t ∈ [Ty.bareList, .bareSet, .bareTuple, .bareDict]) {a : Bool} {k : RegKey} :
    ¬ RefersIn env cat a t k := by
  intro hr
  cases hr with
  | @here k e => cases k <;> simp [scalarTys, RegKey.toTy] at h
  | _ => simp [scalarTys] at h

mutual
theorem uses_exact (hcls : ∀ c s us, cls c = .ok (s, us) → ∀ u, u ∈ us ↔
      ∃ cd, env.classes[c]? = some cd ∧ ∃ f ∈ cd.hints, IsUse env cat false f.ty.required u) :
    ∀ (t : Ty) (a : Bool) (s : Sch) (us : List TypeUse), tySchema cfg env cat cls false a t = .ok (s, us) →
      ∀ u, u ∈ us ↔ IsUse env cat a t u
  | .annotated t ms, a, s, us, h, u => by
    simp only [tySchema] at h
    have e : IsUse env cat a (.annotated t ms) u ↔ IsUse env cat true t u := by
      unfold IsUse
      simp only [refers_annotated]
    rw [e]
    cases hs : simpleSchema t with
    | some s' =>
      rw [hs] at h
      have hu : us = [] := by
        dsimp only at h
        split at h <;> (cases h; rfl)
      rw [hu]
      exact ⟨fun h => (by cases h), fun h => absurd h (isUse_none fun k => refers_simple hs)⟩
    | none => rw [hs] at h; exact uses_exact hcls t true s us h u
  | .enum e, a, s, us, h, u => by
    simp only [tySchema] at h
    rw [if_neg (by decide)] at h
    split at h
    · rename_i entry he
      cases a with
      | true => cases he
      | false =>
        cases h
        have he : lookupKey (RegKey.enum e) cat.byType = some entry := he
        constructor
        · intro hu
          exact ⟨.enum e, entry, .here (k := .enum e) he, he, List.mem_singleton.1 hu⟩
        · rintro ⟨k, en, hr, hl, rfl⟩
          obtain ⟨-, rfl, -⟩ := refers_enum hr
          rw [he] at hl; cases hl
          exact List.mem_singleton.2 rfl
    · rename_i he
      have hu : us = [] := by split at h <;> cases h; rfl
      rw [hu]
      refine ⟨fun h => (by cases h), ?_⟩
      rintro ⟨k, en, hr, hl, -⟩
      obtain ⟨rfl, rfl, -⟩ := refers_enum hr
      rw [if_neg (by decide)] at he
      rw [he] at hl; cases hl
  | .cls c, a, s, us, h, u => by
    simp only [tySchema] at h
    rw [if_neg (by decide)] at h
    split at h
    · rename_i entry he
      cases a with
      | true => cases he
      | false =>
        cases h
        have he : lookupKey (RegKey.cls c) cat.byType = some entry := he
        constructor
        · intro hu
          exact ⟨.cls c, entry, .here (k := .cls c) he, he, List.mem_singleton.1 hu⟩
        · rintro ⟨k, en, hr, hl, rfl⟩
          rcases refers_cls hr with ⟨-, rfl, -⟩ | ⟨h1, -⟩
          · rw [he] at hl; cases hl
            exact List.mem_singleton.2 rfl
          · rw [h1 rfl] at he; cases he
    · rename_i he
      rw [hcls c s us h u]
      have hn : a = false → lookupKey (RegKey.cls c) cat.byType = none := by
        intro ha; subst ha; exact he
      constructor
      · rintro ⟨cd, h1, f, h2, k, en, hr, hl, rfl⟩
        exact ⟨k, en, .field hn h1 h2 hr, hl, rfl⟩
      · rintro ⟨k, en, hr, hl, rfl⟩
        rcases refers_cls hr with ⟨ha, rfl, en', hl'⟩ | ⟨-, cd, h1, f, h2, h3⟩
        · rw [hn ha] at hl'; cases hl'
        · exact ⟨cd, h1, f, h2, k, en, h3, hl, rfl⟩
  | .union ts, a, s, us, h, u => by
    simp only [tySchema] at h
    split at h
    · obtain ⟨ss, h1, -⟩ := SchRes.map_ok.1 h
      rw [uses_all_exact hcls ts ss us h1 u]
      constructor
      · rintro ⟨t, ht, k, e, hr, hl, rfl⟩
        exact ⟨k, e, .union ht hr, hl, rfl⟩
      · rintro ⟨k, e, hr, hl, rfl⟩
        generalize ht : Ty.union ts = t' at hr
        cases hr with
        | @here k _ _ => cases k <;> cases ht
        | union h1 h2 => cases ht; exact ⟨_, h1, k, e, h2, hl, rfl⟩
        | _ => cases ht
    · cases h
  | .tuple ts, a, s, us, h, u => by
    simp only [tySchema] at h
    obtain ⟨ss, h1, -⟩ := SchRes.map_ok.1 h
    rw [uses_all_exact hcls ts ss us h1 u]
    constructor
    · rintro ⟨t, ht, k, e, hr, hl, rfl⟩
      exact ⟨k, e, .tuple ht hr, hl, rfl⟩
    · rintro ⟨k, e, hr, hl, rfl⟩
      generalize ht : Ty.tuple ts = t' at hr
      cases hr with
      | @here k _ _ => cases k <;> cases ht
      | tuple h1 h2 => cases ht; exact ⟨_, h1, k, e, h2, hl, rfl⟩
      | _ => cases ht
  | .list t, a, s, us, h, u => by
    simp only [tySchema] at h
    obtain ⟨s', h1, -⟩ := SchRes.map_ok.1 h
    rw [uses_exact hcls t false s' us h1 u]
    refine (isUse_flat fun k => ⟨fun h => ?_, .list⟩).symm
    generalize ht : Ty.list t = t' at h
    cases h with
    | @here k _ _ => cases k <;> cases ht
    | list h => cases ht; exact h
    | _ => cases ht
  | .set t, a, s, us, h, u => by
    simp only [tySchema] at h
    obtain ⟨s', h1, -⟩ := SchRes.map_ok.1 h
    rw [uses_exact hcls t false s' us h1 u]
    refine (isUse_flat fun k => ⟨fun h => ?_, .set⟩).symm
    generalize ht : Ty.set t = t' at h
    cases h with
    | @here k _ _ => cases k <;> cases ht
    | set h => cases ht; exact h
    | _ => cases ht
  | .dict d t, a, s, us, h, u => by
    simp only [tySchema] at h
    split at h
    · cases h
    · obtain ⟨s', h1, -⟩ := SchRes.map_ok.1 h
      rw [uses_exact hcls t false s' us h1 u]
      refine (isUse_flat fun k => ⟨fun h => ?_, .dict⟩).symm
      generalize ht : Ty.dict d t = t' at h
      cases h with
      | @here k _ _ => cases k <;> cases ht
      | dict h => cases ht; exact h
      | _ => cases ht
  | .literal ls, a, s, us, h, u => by
    simp only [tySchema] at h
    have hu : us = [] := by
      split at h
      · split at h <;> cases h; rfl
      · cases h
    rw [hu]
    refine ⟨fun h => (by cases h), fun h => absurd h (isUse_none fun k h => ?_)⟩
    generalize ht : Ty.literal ls = t' at h
    cases h with
    | @here k _ _ => cases k <;> cases ht
    | _ => cases ht
  | .none, a, _, us, h, u | .bool, a, _, us, h, u | .int, a, _, us, h, u | .float, a, _, us, h, u | .str, a, _, us, h, u
  | .bytes, a, _, us, h, u | .datetime, a, _, us, h, u | .date, a, _, us, h, u | .time, a, _, us, h, u
  | .timedelta, a, _, us, h, u | .uuid, a, _, us, h, u | .ipv4, a, _, us, h, u | .ipv6, a, _, us, h, u
  | .bareList, a, _, us, h, u | .bareSet, a, _, us, h, u | .bareTuple, a, _, us, h, u | .bareDict, a, _, us, h, u => by
    have hu : us = [] := by simp only [tySchema, simpleSchema] at h; cases h; rfl
    rw [hu]
    refine ⟨fun h => (by cases h), fun h => absurd h (isUse_none fun k h => ?_)⟩
    exact refers_leaf (by simp [scalarTys]) h
theorem uses_all_exact (hcls : ∀ c s us, cls c = .ok (s, us) → ∀ u, u ∈ us ↔
      ∃ cd, env.classes[c]? = some cd ∧ ∃ f ∈ cd.hints, IsUse env cat false f.ty.required u) :
    ∀ (ts : List Ty) (ss : List Sch) (us : List TypeUse), tySchemas cfg env cat cls false false ts = .ok (ss, us) →
      ∀ u, u ∈ us ↔ ∃ t ∈ ts, IsUse env cat false t u
  | [], _, us, h, u => by simp only [tySchemas] at h; cases h; simp
  | t :: ts, ss, us, h, u => by
    simp only [tySchemas] at h
    cases h1 : tySchema cfg env cat cls false false t with
    | error e => rw [h1] at h; cases h
    | ok q =>
      obtain ⟨s1, us1⟩ := q
      rw [h1] at h
      cases h2 : tySchemas cfg env cat cls false false ts with
      | error e => simp only [h2] at h; cases h
      | ok qs =>
        obtain ⟨ss2, us2⟩ := qs
        simp only [h2] at h
        cases h
        rw [List.mem_append, uses_exact hcls t false s1 us1 h1 u, uses_all_exact hcls ts ss2 us2 h2 u]
        simp only [List.mem_cons, exists_eq_or_imp]
end

/-- All annotations are evaluated. -/
def AllEvaluated (env : Env) : Prop := ∀ cd ∈ env.classes, ∀ f ∈ cd.hints, f.Evaluated cd.kind

theorem AllEvaluated.fields (h : AllEvaluated env) {cd : ClassDef} (hc : cd ∈ env.classes) {f : FieldDef}
    (hf : f ∈ cd.hints) : strField cd.kind f = false ∧ fwdField cd.kind f = false := by
  have := h cd hc f hf
  unfold strField fwdField
  split
  · rename_i fr hk; exact this fr hk
  · exact ⟨rfl, rfl⟩

theorem props_uses_exact {kind : ClassKind} (hcls : ∀ c s us, cls c = .ok (s, us) → ∀ u, u ∈ us ↔
      ∃ cd, env.classes[c]? = some cd ∧ ∃ f ∈ cd.hints, IsUse env cat false f.ty.required u) :
    ∀ (fs : List FieldDef) (acc ps : List (Str × Json)) (us : List TypeUse),
      (∀ f ∈ fs, strField kind f = false ∧ fwdField kind f = false) →
      propSchemas cfg env cat cls kind fs acc = .ok (ps, us) → ∀ u, u ∈ us ↔ ∃ f ∈ fs, IsUse env cat false f.ty.required u := by
  intro fs
  induction fs with
  | nil => intro acc ps us _ h u; simp only [propSchemas] at h; cases h; simp
  | cons f fs ih =>
    intro acc ps us hf h u
    simp only [propSchemas] at h
    cases h1 : propSchema cfg env cat cls kind f with
    | error e => rw [h1] at h; cases h
    | ok q =>
      obtain ⟨s1, us1⟩ := q
      rw [h1] at h
      dsimp only at h
      cases h2 : propSchemas cfg env cat cls kind fs (upsert (schemaProp kind f) (.obj s1) acc) with
      | error e => rw [h2] at h; cases h
      | ok qs =>
        obtain ⟨ps2, us2⟩ := qs
        rw [h2] at h
        cases h
        obtain ⟨ha, hb⟩ := hf f (by simp)
        unfold propSchema at h1
        rw [ha, if_neg (by decide), hb] at h1
        obtain ⟨s, h3, -⟩ := SchRes.map_ok.1 h1
        rw [List.mem_append, uses_exact hcls _ false s us1 h3 u, ih _ _ us2 (fun f h => hf f (by simp [h])) h2 u]
        simp only [List.mem_cons, exists_eq_or_imp]

theorem class_uses_exact (he : AllEvaluated env) : ∀ (n c : Nat) (s : Sch) (us : List TypeUse),
    clsSchema cfg env cat n c = .ok (s, us) → ∀ u, u ∈ us ↔
      ∃ cd, env.classes[c]? = some cd ∧ ∃ f ∈ cd.hints, IsUse env cat false f.ty.required u := by
  intro n
  induction n with
  | zero => intro c s us h; simp only [clsSchema] at h; cases h
  | succ n ih =>
    intro c s us h u
    simp only [clsSchema] at h
    cases hc : env.classes[c]? with
    | none => rw [hc] at h; cases h
    | some cd =>
      rw [hc] at h
      dsimp only at h
      obtain ⟨ps, h1, -⟩ := SchRes.map_ok.1 h
      rw [props_uses_exact ih cd.hints [] ps us (fun f hf => he.fields (List.mem_of_getElem? hc) hf) h1 u]
      simp

theorem type_uses_exact (he : AllEvaluated env) {a : Bool} {t : Ty} {s : Sch} {us : List TypeUse}
    (h : typeToSchema cfg env cat a t = .ok (s, us)) (u : TypeUse) : u ∈ us ↔ IsUse env cat a t u :=
  uses_exact (class_uses_exact he _) t a s us h u

/-! ### Definitions -/

theorem lookup_exact (he : AllEvaluated env) {k : RegKey} {e : CatEntry Sch (List Json)} (hl : lookupKey k cat.byType = some e) {s : Sch}
    {us : List TypeUse} (h : schemaWithLookup cfg env cat (.ty k.toTy) = .ok (s, us)) :
    (e.schema = none → HasSchema env cat false true k.toTy ∧ ∀ u, u ∈ us ↔ IsUse env cat true k.toTy u) ∧
    (e.schema ≠ none → us = []) := by
  have hr : UseTy.ref (.ty k.toTy) = some (.ty k) := by cases k <;> rfl
  have hget : cat.get (.ty k) = .ok e := by simp only [Catalog.get, hl]
  unfold schemaWithLookup at h
  rw [hr] at h
  dsimp only at h
  rw [hget] at h
  dsimp only at h
  unfold entrySchema at h
  cases hs : e.schema with
  | none =>
    rw [hs] at h
    obtain ⟨s', h1, -⟩ := SchRes.map_ok.1 h
    refine ⟨fun _ => ⟨(typeToSchema_exists cfg env cat true _).1 ⟨_, h1⟩, type_uses_exact he h1⟩, fun h => absurd rfl h⟩
  | some s' =>
    rw [hs] at h
    refine ⟨fun h => (by cases h), fun _ => ?_⟩
    obtain ⟨s'', h1, -⟩ := SchRes.map_ok.1 h
    cases h1; rfl

theorem lookup_exists {k : RegKey} {e : CatEntry Sch (List Json)} (hl : lookupKey k cat.byType = some e)
    (h : e.schema = none → HasSchema env cat false true k.toTy) : ∃ p, schemaWithLookup cfg env cat (.ty k.toTy) = .ok p := by
  have hr : UseTy.ref (.ty k.toTy) = some (.ty k) := by cases k <;> rfl
  have hget : cat.get (.ty k) = .ok e := by simp only [Catalog.get, hl]
  unfold schemaWithLookup
  rw [hr]
  dsimp only
  rw [hget]
  dsimp only
  unfold entrySchema
  cases hs : e.schema with
  | none =>
    obtain ⟨p, hp⟩ := (typeToSchema_exists cfg env cat true _).2 (h hs)
    simp only [useSchema]
    exact SchRes.map_of_ok ⟨p, hp⟩ fun _ => ⟨_, rfl⟩
  | some s' => exact ⟨_, rfl⟩

/-- A type that is needed, under its identifier. -/
def NeededUse (env : Env) (cat : SchemaCatalog) (a : Bool) (t : Ty) (p : Str × UseTy) : Prop :=
  ∃ k e, p.2 = .ty k.toTy ∧ lookupKey k cat.byType = some e ∧ e.identifier = p.1 ∧ NeedsDef env cat a t k

theorem refers_registered {a : Bool} {t : Ty} {k : RegKey} (h : RefersIn env cat a t k) : ∃ e, lookupKey k cat.byType = some e := by
  induction h with
  | here h => exact ⟨_, h⟩
  | list _ ih | set _ ih | dict _ ih | annotated _ ih => exact ih
  | tuple _ _ ih | union _ _ ih => exact ih
  | field _ _ _ _ ih => exact ih

theorem addUses_needed {a : Bool} {t : Ty} {used : List (Str × UseTy)} {us : List TypeUse}
    (h1 : ∀ p ∈ used, NeededUse env cat a t p) (h2 : ∀ u ∈ us, NeededUse env cat a t (u.name, u.ty)) :
    ∀ p ∈ addUses used us, NeededUse env cat a t p := by
  rintro ⟨n, ty⟩ hp
  rcases (addUses_spec us used).2.2 n ty hp with h | ⟨u, hu, rfl, rfl⟩
  · exact h1 _ h
  · exact h2 u hu

theorem step_needed (he : AllEvaluated env) {a : Bool} {t : Ty} {p : Str × UseTy} (hp : NeededUse env cat a t p) {s : Sch}
    {us : List TypeUse} (h : schemaWithLookup cfg env cat p.2 = .ok (s, us)) : ∀ u ∈ us, NeededUse env cat a t (u.name, u.ty) := by
  obtain ⟨k, e, h1, h2, h3, h4⟩ := hp
  rw [h1] at h
  obtain ⟨h5, h6⟩ := lookup_exact he h2 h
  intro u hu
  cases hs : e.schema with
  | none =>
    obtain ⟨k', e', hr, hl, rfl⟩ := ((h5 hs).2 u).1 hu
    exact ⟨k', e', rfl, hl, rfl, .step h4 h2 hs hr⟩
  | some s' => rw [h6 (by rw [hs]; intro h; cases h)] at hu; cases hu

theorem defineAll_exists (he : AllEvaluated env) {a : Bool} {t : Ty} (hd : HasDocument env cat a t) :
    ∀ (l used : List (Str × UseTy)) (defined : List (Str × Sch)),
    (∀ p ∈ l, NeededUse env cat a t p) → (∀ p ∈ used, NeededUse env cat a t p) →
    ∃ used' defined', defineAll cfg env cat l used defined = .ok (used', defined') ∧ ∀ p ∈ used', NeededUse env cat a t p := by
  intro l
  induction l with
  | nil => intro used defined _ hu; exact ⟨used, defined, rfl, hu⟩
  | cons p l ih =>
    intro used defined hl hu
    have hp := hl p (by simp)
    obtain ⟨k, e, h1, h2, -, h4⟩ := id hp
    obtain ⟨⟨s, us⟩, h5⟩ := lookup_exists (cfg := cfg) h2 (hd.definitions k e h4 h2)
    rw [← h1] at h5
    obtain ⟨used', defined', h6, h7⟩ := ih (addUses used us) (upsert p.1 s defined) (fun p hp => hl p (by simp [hp]))
      (addUses_needed hu (step_needed he hp h5))
    exact ⟨used', defined', by obtain ⟨n, ty⟩ := p; simp only [defineAll, h5, h6], h7⟩

theorem loop_exists (he : AllEvaluated env) {a : Bool} {t : Ty} (hd : HasDocument env cat a t) {used : List (Str × UseTy)}
    {defined : List (Str × Sch)} {r : Res (List (Str × Sch))} (hl : LoopEnds cfg env cat used defined r)
    (hu : ∀ p ∈ used, NeededUse env cat a t p) : ∃ d, r = .ok d := by
  induction hl with
  | stop => exact ⟨_, rfl⟩
  | @round used defined used' defined' r _ h1 _ ih =>
    obtain ⟨u, d, h2, h3⟩ := defineAll_exists (cfg := cfg) he hd (used.filter fun u => (lookupKey u.1 defined).isNone) used defined
      (fun p hp => hu p (List.mem_filter.1 hp).1) hu
    rw [h1] at h2
    cases h2
    exact ih h3
  | @raise used defined e _ h1 =>
    obtain ⟨u, d, h2, h3⟩ := defineAll_exists (cfg := cfg) he hd (used.filter fun u => (lookupKey u.1 defined).isNone) used defined
      (fun p hp => hu p (List.mem_filter.1 hp).1) hu
    rw [h1] at h2
    cases h2

theorem root_needed (he : AllEvaluated env) {a : Bool} {t : Ty} {s : Sch} {us : List TypeUse}
    (h : typeToSchema cfg env cat a t = .ok (s, us)) : ∀ u ∈ us, NeededUse env cat a t (u.name, u.ty) := by
  intro u hu
  obtain ⟨k, e, hr, hl, rfl⟩ := (type_uses_exact he h u).1 hu
  exact ⟨k, e, rfl, hl, rfl, .root hr⟩

theorem document_exists (he : AllEvaluated env) (hcat : MadeByRegistering cat) {a : Bool} {t : Ty} (hd : HasDocument env cat a t) :
    ∃ p, classdefSchemas cfg env cat a t = .ok p := by
  obtain ⟨⟨s, us⟩, h1⟩ := (typeToSchema_exists cfg env cat a t).2 hd.root
  obtain ⟨r, h2, h3⟩ := C35_loop_ends hcat a t s us h1
  obtain ⟨d, rfl⟩ := loop_exists he hd h2 (addUses_needed (by simp) (root_needed he h1))
  exact ⟨_, h3⟩

/-- What holds after each step. -/
structure NeedsState (env : Env) (cat : SchemaCatalog) (a : Bool) (t : Ty) (used : List (Str × UseTy))
    (defined : List (Str × Sch)) : Prop where
  needed : ∀ p ∈ used, NeededUse env cat a t p
  root : ∀ k e, RefersIn env cat a t k → lookupKey k cat.byType = some e → e.identifier ∈ used.map Prod.fst
  made : ∀ n ∈ defined.map Prod.fst, ∀ k e, lookupKey k cat.byType = some e → e.identifier = n → e.schema = none →
    HasSchema env cat false true k.toTy ∧
    ∀ k' e', RefersIn env cat true k.toTy k' → lookupKey k' cat.byType = some e' → e'.identifier ∈ used.map Prod.fst

theorem document_of_made (he : AllEvaluated env)
    (huniq : ∀ k e k' e', lookupKey k cat.byType = some e → lookupKey k' cat.byType = some e' → e.identifier = e'.identifier → k = k')
    {a : Bool} {t : Ty} {s : Sch} {defs : List (Str × Sch)} (h : classdefSchemas cfg env cat a t = .ok (s, defs)) :
    HasDocument env cat a t ∧ ∀ n, n ∈ defs.map Prod.fst ↔
      ∃ k e, NeedsDef env cat a t k ∧ lookupKey k cat.byType = some e ∧ e.identifier = n := by
  unfold classdefSchemas at h
  cases h1 : typeToSchema cfg env cat a t with
  | error e => rw [h1] at h; cases h
  | ok p =>
    obtain ⟨s0, us0⟩ := p
    rw [h1] at h
    dsimp only at h
    cases h2 : defineLoop cfg env cat (cat.byType.length + 1) (addUses [] us0) [] with
    | error e => rw [h2] at h; cases h
    | ok r =>
      rw [h2] at h
      cases h
      obtain ⟨used, hs, hp, hall⟩ := defineLoop_rec (P := NeedsState env cat a t) (by
        rintro n ty used defined s us ⟨used0, defined0, hp0, hm⟩ hp _ _ hn hl
        have hnu := hp0.needed _ hm
        have hst := step_needed he hnu hl
        obtain ⟨k, e, e1, e2, e3, -⟩ := hnu
        dsimp only at e1 e3
        rw [e1] at hl
        obtain ⟨h5, h6⟩ := lookup_exact he e2 hl
        have hkeys := (addUses_spec us used).1
        refine ⟨addUses_needed hp.needed hst, fun k e hr hl => (hkeys _).2 (Or.inl (hp.root k e hr hl)), ?_⟩
        intro n' hn' k2 e2' hl2 hi hs2
        rcases mem_upsert_keys.1 hn' with rfl | hn'
        · have : k2 = k := huniq _ _ _ _ hl2 e2 (hi.trans e3.symm)
          subst this
          rw [e2] at hl2; cases hl2
          refine ⟨(h5 hs2).1, fun k' e' hr hl' => (hkeys _).2 (Or.inr ⟨_, ((h5 hs2).2 _).2 ⟨k', e', hr, hl', rfl⟩, rfl⟩)⟩
        · obtain ⟨ha, hb⟩ := hp.made n' hn' k2 e2' hl2 hi hs2
          exact ⟨ha, fun k' e' hr hl' => (hkeys _).2 (Or.inl (hb k' e' hr hl'))⟩)
        _ _ _ _ (loop_start us0) ⟨addUses_needed (by simp) (root_needed he h1),
          fun k e hr hl => ((addUses_spec us0 []).1 _).2 (Or.inr ⟨_, (type_uses_exact he h1 _).2 ⟨k, e, hr, hl, rfl⟩, rfl⟩),
          fun n hn => by cases hn⟩ h2
      have hneeds : ∀ k, NeedsDef env cat a t k → ∀ e, lookupKey k cat.byType = some e → e.identifier ∈ r.map Prod.fst := by
        intro k hk
        induction hk with
        | root hr => intro e hl; exact hall _ (hp.root _ e hr hl)
        | @step k e k' _ hl hs hr ih => intro e' hl'; exact hall _ ((hp.made _ (ih e hl) k e hl rfl hs).2 k' e' hr hl')
      refine ⟨⟨(typeToSchema_exists cfg env cat a t).1 ⟨_, h1⟩, fun k e hk hl hs => (hp.made _ (hneeds k hk e hl) k e hl rfl hs).1⟩, ?_⟩
      intro n
      have hsort : n ∈ (sortByName r).map Prod.fst ↔ n ∈ r.map Prod.fst := by
        simp only [List.mem_map, mem_sortByName]
      rw [hsort]
      constructor
      · intro hn
        obtain ⟨⟨n', ty⟩, hm, rfl⟩ := List.mem_map.1 (hs.sub n hn)
        obtain ⟨k, e, -, e2, e3, e4⟩ := hp.needed _ hm
        exact ⟨k, e, e4, e2, e3⟩
      · rintro ⟨k, e, hk, hl, rfl⟩
        exact hneeds k hk e hl

end Verif
