import Verif.Lemmas.SchemaDoc
import Verif.Lemmas.SchemaDepth
import Verif.Lemmas.MetaCheck
import Verif.Props.C13_PlainJson
/-!
# C35: generated schemas have no dangling references

Every `$ref` names an entry of `definitions` and can be resolved, every entry is referenced from the type, directly or by
way of other entries, and the generation ends.  All of this has exceptions in the code, shown at the end.
-/
namespace Verif

variable {fmt : Str → Str → Bool} {cfg : SchemaCfg} {env : Env} {cat : SchemaCatalog}

/-! ### References -/

/-- C35: every reference in the schema of a type and in its definitions names a definition, if all references are recorded
when they are made.  Missing: names of classes in strings (`C35_string_fails`, `C35_container_fails`) and references in
schemas that the user has given. -/
theorem C35_refs_partial (hrec : RefsRecorded env cat) (t : Ty) (root : Sch) (h : classdefToSchema cfg env cat t = .ok root)
    (r : Str) (hr : HasRef (.obj root) r ∨ ∃ d ∈ definitionsOf root, HasRef d.2 r) :
    ∃ n ∈ (definitionsOf root).map Prod.fst, r = cfg.definitionsPath ++ n := by
  obtain ⟨s, us, defs, h1, h2, rfl⟩ := document_ok h
  obtain ⟨d1, _, d3⟩ := document_spec (x := js metaSchemaId) (typeToSchema_rec keys_closed h1) (sortByName defs)
  rw [d1] at hr ⊢
  rw [d3] at hr
  obtain ⟨used, _, h4, h5⟩ := defineLoop_rec (cfg := cfg) (env := env) (cat := cat)
    (P := fun used defined => ∀ r, (HasRef (.obj s) r ∨ ∃ n d, (n, d) ∈ defined ∧ HasRef (.obj d) r) →
      ∃ n ∈ used.map Prod.fst, r = cfg.definitionsPath ++ n)
    (by
      intro n t used defined s' us' _ hp hs hn hu hl r hr
      have hkeys := (addUses_spec us' used).1
      have hin : RefsIn cfg s' us' := (schemaWithLookup_rec (refsIn_closed hrec)
        (fun r e s h1 h2 x hx => absurd hx (hrec.explicit r e s h1 h2 x))
        (fun j s us _ h r hr => h r ((hasRef_upsert (by decide) r).1 hr)) hl).2
      have old : (∃ n ∈ used.map Prod.fst, r = cfg.definitionsPath ++ n) →
          ∃ n ∈ (addUses used us').map Prod.fst, r = cfg.definitionsPath ++ n := by
        rintro ⟨m, hm, he⟩; exact ⟨m, (hkeys m).2 (Or.inl hm), he⟩
      rcases hr with hr | ⟨m, d, hm, hr⟩
      · exact old (hp r (Or.inl hr))
      · rcases upsert_mem hm with hm | hm
        · cases hm
          obtain ⟨u, hu, he⟩ := hin r hr
          exact ⟨u.name, (hkeys _).2 (Or.inr ⟨u, hu, rfl⟩), he⟩
        · exact old (hp r (Or.inr ⟨m, d, hm, hr⟩)))
    _ _ _ _ (loop_start us)
    (by
      rintro r (hr | ⟨n, d, hm, _⟩)
      · obtain ⟨u, hu, he⟩ := typeToSchema_rec (refsIn_closed hrec) h1 r hr
        exact ⟨u.name, ((addUses_spec us []).1 _).2 (Or.inr ⟨u, hu, rfl⟩), he⟩
      · cases hm) h2
  obtain ⟨n, hn, he⟩ := h4 r (by
    rcases hr with hr | ⟨d, hd, hr⟩
    · exact Or.inl hr
    · obtain ⟨d', hd', rfl⟩ := List.mem_map.1 hd
      exact Or.inr ⟨d'.1, d'.2, mem_sortByName.1 hd', hr⟩)
  exact ⟨n, keys_definitions.2 (h5 n hn), he⟩

private theorem reaches_mono {ds ds' : List (Str × Json)} {s : Json} {path : Str}
    (h : ∀ m d, lookupKey m ds = some d → lookupKey m ds' = some d) {n : Str} (hr : RefReaches ds s path n) :
    RefReaches ds' s path n := by
  induction hr with
  | direct h1 => exact .direct h1
  | step _ h1 h2 ih => exact .step ih (h _ _ h1) h2

/-- C35: every definition is referenced from the type, directly or by way of other definitions, if the properties of each
class have distinct names and there are no enumerations without members. -/
theorem C35_reachable (hnames : ∀ cd ∈ env.classes, (cd.hints.map (schemaProp cd.kind)).Nodup)
    (henums : ∀ ed ∈ env.enums, ed.members ≠ []) (t : Ty) (root : Sch) (h : classdefToSchema cfg env cat t = .ok root) :
    ∀ n ∈ (definitionsOf root).map Prod.fst, RefReaches (definitionsOf root) (.obj root) cfg.definitionsPath n := by
  obtain ⟨s, us, defs, h1, h2, rfl⟩ := document_ok h
  obtain ⟨d1, _, d3⟩ := document_spec (x := js metaSchemaId) (typeToSchema_rec keys_closed h1) (sortByName defs)
  have hout := refsOut_closed (cfg := cfg) (cat := cat) hnames henums
  obtain ⟨used, h3, h4, _⟩ := defineLoop_rec (cfg := cfg) (env := env) (cat := cat)
    (P := fun used defined => ∀ n ∈ used.map Prod.fst,
      RefReaches (defined.map fun d => (d.1, Json.obj d.2)) (.obj s) cfg.definitionsPath n)
    (by
      intro n t used defined s' us' _ hp hs hn hu hl m hm
      have hin : RefsOut cfg s' us' := (schemaWithLookup_rec hout (fun r e s _ _ u hu => by cases hu)
        (fun j s us _ h u hu => (hasRef_upsert (by decide) _).2 (h u hu)) hl).2
      have hmono : ∀ m, RefReaches (defined.map fun d => (d.1, Json.obj d.2)) (.obj s) cfg.definitionsPath m →
          RefReaches ((upsert n s' defined).map fun d => (d.1, Json.obj d.2)) (.obj s) cfg.definitionsPath m := by
        intro m hm
        refine reaches_mono ?_ hm
        intro k d hk
        rw [lookupKey_map] at hk ⊢
        rw [lookupKey_upsert]
        split
        · rename_i he
          subst he
          rw [lookupKey_none_iff'.2 hn] at hk
          cases hk
        · exact hk
      rcases ((addUses_spec us' used).1 m).1 hm with hm | ⟨u, hu', rfl⟩
      · exact hmono m (hp m hm)
      · refine .step (hmono n (hp n hu)) ?_ (hin u hu')
        rw [lookupKey_map, lookupKey_upsert, if_pos rfl]
        rfl)
    _ _ _ _ (loop_start us)
    (by
      intro n hn
      rcases ((addUses_spec us []).1 n).1 hn with hn | ⟨u, hu, rfl⟩
      · cases hn
      · exact .direct (typeToSchema_rec hout h1 u hu)) h2
  intro n hn
  rw [d1] at hn ⊢
  have h5 := h4 n (h3.sub n (keys_definitions.1 hn))
  have hperm : ∀ k, lookupKey k ((sortByName defs).map fun d => (d.1, Json.obj d.2)) =
      lookupKey k (defs.map fun d => (d.1, Json.obj d.2)) := by
    intro k
    rw [lookupKey_map, lookupKey_map]
    congr 1
    cases hl : lookupKey k defs with
    | none =>
      rw [lookupKey_none_iff] at hl ⊢
      exact fun v hv => hl v (mem_sortByName.1 hv)
    | some x =>
      cases hl' : lookupKey k (sortByName defs) with
      | none => rw [lookupKey_none_iff] at hl'; exact absurd (mem_sortByName.2 (lookupKey_some_mem hl)) (hl' x)
      | some y =>
        have := lookupKey_of_mem h3.definedNodup (mem_sortByName.1 (lookupKey_some_mem hl'))
        rw [hl] at this
        exact this.symm
  have h6 := reaches_mono (fun m d hm => (hperm m).trans hm) h5
  clear h5 h4 hn
  induction h6 with
  | direct hr => exact .direct ((d3 _).2 hr)
  | step _ hm hd ih => exact .step ih hm hd

private theorem pointerParts_plain : ∀ {n : Str}, '/' ∉ n → pointerParts n = [n] := by
  intro n
  induction n with
  | nil => intro _; rfl
  | cons c n ih =>
    intro h
    have hc : c ≠ '/' := by rintro rfl; exact h (by simp)
    simp only [pointerParts, if_neg hc, ih (fun hm => h (by simp [hm]))]

private theorem unescape_plain : ∀ {n : Str}, '~' ∉ n → unescapeRef n = n := by
  intro n
  induction n with
  | nil => intro _; rfl
  | cons c n ih =>
    intro h
    have hc : c ≠ '~' := by rintro rfl; exact h (by simp)
    have ih := ih (fun hm => h (by simp [hm]))
    unfold unescapeRef
    split
    · rename_i he; cases he; exact absurd rfl hc
    · rename_i he; cases he; exact absurd rfl hc
    · rename_i he; cases he; rw [ih]
    · rename_i he; cases he

/-- C35: with the default path, a reference to a definition leads a validator to it, if the identifier is free of the
characters that have a meaning in references. -/
theorem C35_resolves (root : Sch) (n : Str) (d : Json) (hd : lookupKey n (definitionsOf root) = some d)
    (hn : ∀ x ∈ n, x ≠ '/' ∧ x ≠ '~' ∧ x ≠ '%') :
    resolveRef (.obj root) (c!"#/definitions/" ++ n) = some d := by
  have hroot : lookupKey c!"definitions" root = some (.obj (definitionsOf root)) := by
    unfold definitionsOf at hd ⊢
    split at hd
    · rename_i h; rw [h]
    · cases hd
  have hparts : pointerParts (c!"definitions/" ++ n) = [c!"definitions", n] := by
    simp [pointerParts, pointerParts_plain (fun h => (hn _ h).1 rfl)]
  show (if '%' ∈ c!"definitions/" ++ n then none
    else walkJson (.obj root) ((pointerParts (c!"definitions/" ++ n)).map unescapeRef)) = some d
  rw [if_neg, hparts]
  · simp only [List.map_cons, List.map_nil, walkJson, unescape_plain (fun h => (hn _ h).2.1 rfl)]
    rw [show unescapeRef c!"definitions" = c!"definitions" from rfl, hroot]
    simp only [walkJson, hd]
  · simp only [List.mem_append, not_or]
    exact ⟨by decide, fun h => (hn _ h).2.2 rfl⟩

/-! ### Termination -/

/-- A catalog made by calls of `register_schema`. -/
def MadeByRegistering (cat : SchemaCatalog) : Prop := ∃ nameOf calls, cat = registerAll nameOf calls Catalog.empty

private theorem register_names (nameOf : TypeRef RegKey → Res Str) : ∀ (calls : List (RegCall RegKey Sch (List Json)))
    (cat : SchemaCatalog), (∀ n e, lookupKey n cat.byName = some e → ∃ k, lookupKey k cat.byType = some e) →
    ∀ n e, lookupKey n (registerAll nameOf calls cat).byName = some e →
      ∃ k, lookupKey k (registerAll nameOf calls cat).byType = some e := by
  intro calls
  induction calls with
  | nil => intro cat h; exact h
  | cons c calls ih =>
    intro cat h
    refine ih _ ?_
    have hadd : ∀ i, ∀ n e, lookupKey n (cat.add c.ty c.schema i c.examples).2.byName = some e →
        ∃ k, lookupKey k (cat.add c.ty c.schema i c.examples).2.byType = some e := by
      intro i n e hl
      unfold Catalog.add at hl ⊢
      cases hc : c.ty with
      | fwd m => rw [hc] at hl; exact h n e hl
      | ty t =>
        rw [hc] at hl
        dsimp only at hl ⊢
        split at hl
        · rename_i hs; rw [if_pos hs]; exact h n e hl
        · rename_i hs
          rw [if_neg hs]
          simp only [lookupKey_upsert] at hl ⊢
          split at hl
          · cases hl; exact ⟨t, by simp⟩
          · obtain ⟨k, hk⟩ := h n e hl
            refine ⟨k, ?_⟩
            rw [if_neg, hk]
            rintro rfl
            rw [hk] at hs
            exact hs rfl
    unfold register
    split
    · exact hadd _
    · split
      · exact h
      · exact hadd _

private theorem made_names (h : MadeByRegistering cat) : ∀ n e, lookupKey n cat.byName = some e →
    ∃ k e', lookupKey k cat.byType = some e' ∧ e'.identifier = e.identifier := by
  obtain ⟨nameOf, calls, rfl⟩ := h
  intro n e hl
  obtain ⟨k, hk⟩ := register_names nameOf calls Catalog.empty (fun n e h => by cases h) n e hl
  exact ⟨k, e, hk, rfl⟩

private theorem loop_ends (hcat : MadeByRegistering cat) : ∀ (m : Nat) (used : List (Str × UseTy)) (defined : List (Str × Sch)),
    LoopShape used defined →
    (∀ n t, (n, t) ∈ used → t.ref = none ∨ ∃ k e, lookupKey k cat.byType = some e ∧ e.identifier = n) →
    (∀ n ∈ defined.map Prod.fst, n ∈ cat.byType.map (·.2.identifier)) →
    cat.byType.length < m + defined.length →
    LoopEnds cfg env cat used defined (defineLoop cfg env cat m used defined) := by
  intro m
  induction m with
  | zero =>
    intro used defined hs hk hd hm
    exfalso
    have := nodup_length_le hs.definedNodup hd
    simp only [List.length_map] at this
    omega
  | succ m ih =>
    intro used defined hs hk hd hm
    unfold defineLoop
    split
    · rename_i hl
      dsimp only
      cases hr : defineAll cfg env cat (used.filter fun u => (lookupKey u.1 defined).isNone) used defined with
      | error e => exact .raise hl hr
      | ok p =>
        obtain ⟨used', defined'⟩ := p
        dsimp only
        obtain ⟨h1, ⟨h2, h2'⟩, h3, h4⟩ := hs.round (cfg := cfg) (env := env) (cat := cat)
          (P := fun used defined =>
            (∀ n t, (n, t) ∈ used → t.ref = none ∨ ∃ k e, lookupKey k cat.byType = some e ∧ e.identifier = n) ∧
            ∀ n ∈ defined.map Prod.fst, n ∈ cat.byType.map (·.2.identifier))
          (by
            intro n t used2 defined2 s us hm ⟨hp1, hp2⟩ _ hn hu hlk
            have hkn := schemaWithLookup_rec (known_closed (made_names hcat)) (fun r e s _ _ u hu => by cases hu)
              (fun j s us _ h => h) hlk
            refine ⟨?_, ?_⟩
            · intro m t' hmt
              rcases (addUses_spec us used2).2.2 m t' hmt with h | ⟨u, hu, rfl, rfl⟩
              · exact hp1 m t' h
              · exact hkn.2 u hu
            · intro m hm'
              rcases mem_upsert_keys.1 hm' with rfl | hm'
              · rcases hk m t hm with h | ⟨k, e, h1, h2⟩
                · exact absurd h hkn.1
                · exact List.mem_map.2 ⟨(k, e), lookupKey_some_mem h1, h2⟩
              · exact hp2 m hm') ⟨hk, hd⟩ hr
        refine .round hl hr (ih used' defined' h1 h2 h2' ?_)
        have hlt : defined.length < defined'.length := by
          have := nodup_length_le hs.usedNodup h3
          simp only [List.length_map] at this
          omega
        omega
    · rename_i hl; exact .stop hl

/-- C35: the loop that defines the types used always ends, whatever the classes and their references to each other, and
what the model computes with a bounded number of rounds is its result. -/
theorem C35_loop_ends (hcat : MadeByRegistering cat) (force : Bool) (t : Ty) (s : Sch) (us : List TypeUse)
    (h : typeToSchema cfg env cat force t = .ok (s, us)) :
    ∃ r, LoopEnds cfg env cat (addUses [] us) [] r ∧
      classdefSchemas cfg env cat force t = match r with
        | .ok defs => .ok (s, sortByName defs)
        | .error e => .error e := by
  refine ⟨_, loop_ends hcat (cat.byType.length + 1) _ [] (loop_start us) ?_ (by simp) (by simp), ?_⟩
  · intro n t' hm
    rcases (addUses_spec us []).2.2 n t' hm with hm | ⟨u, hu, rfl, rfl⟩
    · cases hm
    · exact typeToSchema_rec (known_closed (made_names hcat)) h u hu
  · unfold classdefSchemas
    rw [h]
    dsimp only
    cases defineLoop cfg env cat (cat.byType.length + 1) (addUses [] us) [] <;> rfl

private theorem loop_no_recursion {used : List (Str × UseTy)} {defined : List (Str × Sch)} {r : Res (List (Str × Sch))}
    (hr : ∀ force t, typeToSchema cfg env cat force t ≠ .error .recursion) (h : LoopEnds cfg env cat used defined r) :
    r ≠ .error .recursion := by
  induction h with
  | stop => simp
  | round _ _ _ ih => exact ih
  | @raise used defined e _ hd =>
    have hlk : ∀ t, schemaWithLookup cfg env cat t ≠ .error .recursion := by
      intro t h
      unfold schemaWithLookup at h
      split at h
      · cases h
      · rename_i r _
        split at h
        · rename_i he
          cases h
          cases r <;> simp only [Catalog.get] at he <;> split at he <;> cases he
        · rcases SchRes.map_error h with h | ⟨_, _, _, h⟩
          · unfold entrySchema at h
            split at h
            · cases t with
              | ty t => exact hr _ _ h
              | fwd n => cases h
            · cases h
          · cases h
    have : ∀ (l used : List (Str × UseTy)) (defined : List (Str × Sch)), defineAll cfg env cat l used defined ≠ .error .recursion := by
      intro l
      induction l with
      | nil => intro _ _ h; cases h
      | cons x l ih =>
        intro used defined h
        simp only [defineAll] at h
        cases hs : schemaWithLookup cfg env cat x.2 with
        | error e => rw [hs] at h; cases h; exact hlk _ hs
        | ok p => rw [hs] at h; exact ih _ _ h
    intro he
    cases he
    exact this _ _ _ hd

/-- C35: generation does not end in `RecursionError`, unless some class is expanded within itself: classes that are
registered may refer to themselves and each other in any way, as long as they are not wrapped in an annotation. -/
theorem C35_no_recursion (hcat : MadeByRegistering cat) (hd : DefaultsEnd env)
    (hacyc : ∀ c, ¬ Relation.TransGen (Inlines env cat) c c) (t : Ty) :
    classdefToSchema cfg env cat t ≠ .error .recursion := by
  intro h
  unfold classdefToSchema at h
  cases hc : classdefSchemas cfg env cat false t with
  | error e =>
    rw [hc] at h
    cases h
    cases ht : typeToSchema cfg env cat false t with
    | error e =>
      unfold classdefSchemas at hc
      rw [ht] at hc
      cases hc
      exact typeToSchema_no_recursion hd hacyc _ _ ht
    | ok p =>
      obtain ⟨s, us⟩ := p
      obtain ⟨r, h1, h2⟩ := C35_loop_ends hcat false t s us ht
      rw [hc] at h2
      have := loop_no_recursion (typeToSchema_no_recursion hd hacyc) h1
      cases r with
      | ok d => cases h2
      | error e => cases h2; exact this rfl
  | ok p =>
    rw [hc] at h
    dsimp only at h
    generalize (if p.2.isEmpty then []
      else [(c!"definitions", Json.obj (p.2.map fun d => (d.1, .obj d.2)))]) = b at h
    split at h <;> cases h

/-- The converse: there is no schema for a class that is expanded within itself. -/
theorem C35_inline_cycle_fails (force : Bool) (t : Ty) (c : Nat) (he : Expands cat force t c)
    (hc : Relation.TransGen (Inlines env cat) c c) (p : Sch × List TypeUse) : typeToSchema cfg env cat force t ≠ .ok p := by
  intro h
  obtain ⟨s, us⟩ := p
  obtain ⟨q, hq⟩ := tySchema_ok_expands he h
  exact clsSchema_cycle _ c q hc hq

/-! ### Disagreements -/

/-- A catalog in which the classes are registered under the names given. -/
def catalogOf (names : List (Nat × Str)) : SchemaCatalog :=
  registerAll (fun _ => .error .typeError) (names.map fun p => { ty := .ty (.cls p.1), name := some p.2 }) Catalog.empty

/-- A data class with one field. -/
def oneField (name : Str) (f : FieldDef) : ClassDef := { module := c!"m", name, kind := .dataclass false, fields := [f] }

/-- C35 does not hold for annotations that are strings: `class A: b: "B"` makes a reference to `B` without a definition,
even if both classes are registered. -/
theorem C35_string_fails (cfg : SchemaCfg) (hp : cfg.definitionsPath = c!"#/definitions/") (hm : AcceptsValid fmt cfg)
    (ha : fmt c!"uri-reference" c!"#/definitions/A" = true) (hb : fmt c!"uri-reference" c!"#/definitions/B" = true) :
    let env : Env := ⟨[], [oneField c!"A" { name := c!"b", ty := .cls 1, strAnn := true },
      oneField c!"B" { name := c!"x", ty := .int }], id⟩
    ∃ root d, classdefToSchema cfg env (catalogOf [(0, c!"A"), (1, c!"B")]) (.cls 0) = .ok root ∧
      definitionsOf root = [(c!"A", d)] ∧ HasRef d c!"#/definitions/B" := by
  intro env
  have h : classdefSchemas cfg env (catalogOf [(0, c!"A"), (1, c!"B")]) false (.cls 0) =
      .ok (refSch cfg c!"A", [(c!"A", [(c!"type", js c!"object"), (c!"properties", .obj [(c!"b", .obj (refSch cfg c!"B"))]),
        (c!"additionalProperties", .bool false), (c!"required", .arr [.str c!"b"])])]) := rfl
  rw [document_checked [(c!"uri-reference", c!"#/definitions/A"), (c!"uri-reference", c!"#/definitions/B")] (by simp [ha, hb]) hm h
    (by obtain ⟨path, ex, pow, mok⟩ := cfg; cases hp; rfl)]
  refine ⟨_, _, rfl, rfl, ?_⟩
  refine .property (n := c!"b") (s := .obj (refSch cfg c!"B")) (List.mem_cons_of_mem _ List.mem_cons_self) List.mem_cons_self ?_
  rw [refSch, hp]
  exact .here (by simp)

/-- C35 does not hold for strings in containers: `list["B"]` makes a reference to `B` without a definition, even if both
classes are registered. -/
theorem C35_container_fails (cfg : SchemaCfg) (hp : cfg.definitionsPath = c!"#/definitions/") (hm : AcceptsValid fmt cfg)
    (ha : fmt c!"uri-reference" c!"#/definitions/A" = true) (hb : fmt c!"uri-reference" c!"#/definitions/B" = true) :
    let env : Env := ⟨[], [oneField c!"A" { name := c!"b", ty := .list (.cls 1), fwd := true },
      oneField c!"B" { name := c!"x", ty := .int }], id⟩
    ∃ root d, classdefToSchema cfg env (catalogOf [(0, c!"A"), (1, c!"B")]) (.cls 0) = .ok root ∧
      definitionsOf root = [(c!"A", d)] ∧ HasRef d c!"#/definitions/B" := by
  intro env
  have h : classdefSchemas cfg env (catalogOf [(0, c!"A"), (1, c!"B")]) false (.cls 0) =
      .ok (refSch cfg c!"A", [(c!"A", [(c!"type", js c!"object"), (c!"properties", .obj [(c!"b",
          .obj [(c!"type", js c!"array"), (c!"items", .obj (refSch cfg c!"B"))])]),
        (c!"additionalProperties", .bool false), (c!"required", .arr [.str c!"b"])])]) := rfl
  rw [document_checked [(c!"uri-reference", c!"#/definitions/A"), (c!"uri-reference", c!"#/definitions/B")] (by simp [ha, hb]) hm h
    (by obtain ⟨path, ex, pow, mok⟩ := cfg; cases hp; rfl)]
  refine ⟨_, _, rfl, rfl, ?_⟩
  refine .property (n := c!"b") (List.mem_cons_of_mem _ List.mem_cons_self) List.mem_cons_self ((hasRef_list _ _).2 ?_)
  rw [refSch, hp]
  exact .here (by simp)

/-- Generation fails for `class A: b: Optional["B"]`, even if both classes are registered: the name is evaluated in the
namespace of schema.py (`NameError`). -/
theorem C35_forward_fails (cfg : SchemaCfg) :
    let env : Env := ⟨[], [oneField c!"A" { name := c!"b", ty := .union [.cls 1, .none], fwd := true },
      oneField c!"B" { name := c!"x", ty := .int }], id⟩
    classdefToSchema cfg env (catalogOf [(0, c!"A"), (1, c!"B")]) (.cls 0) = .error .name := rfl

/-- Generation does not end for a registered class that refers to itself inside an annotation. -/
theorem C35_annotated_fails (cfg : SchemaCfg) :
    let env : Env := ⟨[], [oneField c!"A" { name := c!"a", ty := .annotated (.union [.cls 0, .none]) [.alias c!"b"] }], id⟩
    classdefToSchema cfg env (catalogOf [(0, c!"A")]) (.cls 0) = .error .recursion := rfl

/-- C35 does not hold for identifiers with a slash: the reference is there and so is the definition, but the reference does
not lead to it. -/
theorem C35_slash_fails (cfg : SchemaCfg) (hp : cfg.definitionsPath = c!"#/definitions/") (hm : AcceptsValid fmt cfg)
    (ha : fmt c!"uri-reference" c!"#/definitions/m/A" = true) :
    let env : Env := ⟨[], [oneField c!"A" { name := c!"x", ty := .int }], id⟩
    ∃ root d, classdefToSchema cfg env (catalogOf [(0, c!"m/A")]) (.cls 0) = .ok root ∧
      definitionsOf root = [(c!"m/A", d)] ∧ HasRef (.obj root) c!"#/definitions/m/A" ∧
      resolveRef (.obj root) c!"#/definitions/m/A" = none := by
  intro env
  have h : classdefSchemas cfg env (catalogOf [(0, c!"m/A")]) false (.cls 0) =
      .ok (refSch cfg c!"m/A", [(c!"m/A", [(c!"type", js c!"object"),
        (c!"properties", .obj [(c!"x", .obj [(c!"type", js c!"integer")])]),
        (c!"additionalProperties", .bool false), (c!"required", .arr [.str c!"x"])])]) := rfl
  rw [document_checked [(c!"uri-reference", c!"#/definitions/m/A")] (by simp [ha]) hm h
    (by obtain ⟨path, ex, pow, mok⟩ := cfg; cases hp; rfl)]
  refine ⟨_, _, rfl, rfl, ?_, rfl⟩
  refine .here ?_
  rw [refSch, hp]
  exact List.mem_cons_of_mem _ (List.mem_cons_of_mem _ List.mem_cons_self)

/-! ### The hypotheses are met -/

/-- A registered class with two optional fields of its own type, `Optional["Tree"]`. -/
def treeEnv : Env :=
  ⟨[], [{ module := c!"m", name := c!"Tree", kind := .dataclass false, fields :=
    [{ name := c!"left", ty := .union [.cls 0, .none], fwd := true },
     { name := c!"right", ty := .union [.cls 0, .none], fwd := true }] }], id⟩

example : RefsRecorded treeEnv (catalogOf [(0, c!"Tree")]) where
  strings cd hcd f hf h := by
    simp only [treeEnv, List.mem_singleton] at hcd
    subst hcd
    simp only [ClassDef.hints, List.mem_cons, List.not_mem_nil, or_false] at hf
    rcases hf with rfl | rfl <;> cases h
  names cd hcd f hf _ k b ho := by
    simp only [treeEnv, List.mem_singleton] at hcd
    subst hcd
    simp only [ClassDef.hints, List.mem_cons, List.not_mem_nil, or_false] at hf
    have ho : Occurs false (.cls 0) k b := by rcases hf with rfl | rfl <;> exact ho
    cases ho
    exact ⟨rfl, c!"Tree", rfl, rfl⟩
  explicit r e s h hs := by
    cases r with
    | ty k =>
      by_cases hk : RegKey.cls 0 = k
      · subst hk; cases h; cases hs
      · simp [catalogOf, registerAll, register, Catalog.add, Catalog.get, Catalog.empty, lookupKey, upsert, hk] at h
    | fwd n =>
      by_cases hk : c!"Tree" = n
      · subst hk; cases h; cases hs
      · simp [catalogOf, registerAll, register, Catalog.add, Catalog.get, Catalog.empty, lookupKey, upsert, hk] at h

example : (∀ cd ∈ treeEnv.classes, (cd.hints.map (schemaProp cd.kind)).Nodup) ∧ (∀ ed ∈ treeEnv.enums, ed.members ≠ []) ∧
    MadeByRegistering (catalogOf [(0, c!"Tree")]) ∧ DefaultsEnd treeEnv := by
  refine ⟨?_, by simp [treeEnv], ⟨_, _, rfl⟩, ?_⟩
  · intro cd hcd
    simp only [treeEnv, List.mem_singleton] at hcd
    subst hcd
    decide
  · intro cd hcd f hf v hv
    simp only [treeEnv, List.mem_singleton] at hcd
    subst hcd
    simp only [ClassDef.hints, List.mem_cons, List.not_mem_nil, or_false] at hf
    rcases hf with rfl | rfl <;> cases hv

/-- Two registered classes that refer to each other by evaluated annotations. -/
def mutualEnv : Env :=
  ⟨[], [{ module := c!"m", name := c!"A", kind := .plain, fields := [{ name := c!"b", ty := .union [.cls 1, .none] }] },
        { module := c!"m", name := c!"B", kind := .plain, fields := [{ name := c!"a", ty := .list (.cls 0) }] }], id⟩

example : ∀ c, ¬ Relation.TransGen (Inlines mutualEnv (catalogOf [(0, c!"A"), (1, c!"B")])) c c := by
  have h : ∀ c d, ¬ Inlines mutualEnv (catalogOf [(0, c!"A"), (1, c!"B")]) c d := by
    rintro c d ⟨cd, hc, f, hf, _, he⟩
    have hcd := List.mem_of_getElem? hc
    simp only [mutualEnv, List.mem_cons, List.not_mem_nil, or_false] at hcd
    rcases hcd with rfl | rfl <;> simp only [ClassDef.hints, List.mem_singleton] at hf <;> subst hf
    · have he : Expands _ false (.cls 1) d := he
      cases he with
      | cls h => rcases h with h | h <;> cases h
    · have he : Expands _ false (.list (.cls 0)) d := he
      cases he with
      | list h => cases h with | cls h => rcases h with h | h <;> cases h
  intro c hc
  rcases Relation.TransGen.head'_iff.1 hc with ⟨d, hd, _⟩
  exact h _ _ hd

example (cfg : SchemaCfg) (hp : cfg.definitionsPath = c!"#/definitions/") (hm : AcceptsValid fmt cfg)
    (ha : fmt c!"uri-reference" c!"#/definitions/A" = true) (hb : fmt c!"uri-reference" c!"#/definitions/B" = true) :
    ∃ root, classdefToSchema cfg mutualEnv (catalogOf [(0, c!"A"), (1, c!"B")]) (.cls 0) = .ok root ∧
      (definitionsOf root).map Prod.fst = [c!"A", c!"B"] := by
  obtain ⟨path, ex, pow, mok⟩ := cfg
  cases hp
  exact ⟨_, document_checked [(c!"uri-reference", c!"#/definitions/A"), (c!"uri-reference", c!"#/definitions/B")] (by simp [ha, hb]) hm
    rfl rfl, rfl⟩

end Verif
