import Verif.Lemmas.SchemaMeaning
/-!
# Types for which there is a schema
-/
namespace Verif

variable {cfg : SchemaCfg} {env : Env} {cat : SchemaCatalog} {cls : Nat → SchRes Sch}

/-- There is a result, or a nesting without end. -/
def OkOrRec (r : Res α) : Prop := (∃ p, r = .ok p) ∨ r = .error .recursion

theorem OkOrRec.map {r : SchRes α} (h : OkOrRec r) {f : α → Res β} (hf : ∀ a us, r = .ok (a, us) → OkOrRec (f a)) :
    OkOrRec (r.map f) := by
  rcases h with ⟨⟨a, us⟩, rfl⟩ | rfl
  · rcases hf a us rfl with ⟨b, hb⟩ | hb
    · exact Or.inl ⟨(b, us), by simp only [SchRes.map, hb]⟩
    · exact Or.inr (by simp only [SchRes.map, hb])
  · exact Or.inr rfl

theorem tySchemas_made {skip : Bool} : ∀ {ts : List Ty}, (∀ t ∈ ts, OkOrRec (tySchema cfg env cat cls false skip t)) →
    OkOrRec (tySchemas cfg env cat cls false skip ts) := by
  intro ts
  induction ts with
  | nil => intro _; exact Or.inl ⟨_, rfl⟩
  | cons t ts ih =>
    intro h
    rcases h t (by simp) with ⟨⟨s, us⟩, h1⟩ | h1
    · rcases ih (fun t ht => h t (by simp [ht])) with ⟨⟨ss, us'⟩, h2⟩ | h2
      · exact Or.inl ⟨(s :: ss, us ++ us'), by simp only [tySchemas, h1, h2]⟩
      · exact Or.inr (by simp only [tySchemas, h1, h2])
    · exact Or.inr (by simp only [tySchemas, h1])

theorem pyStr_made : ∀ {ms : List (Str × Scalar)}, (∀ m ∈ ms, ∀ f, m.2 ≠ .float f) →
    ∃ names, mapRes (fun m => m.2.pyStr) ms = .ok names := by
  intro ms
  induction ms with
  | nil => intro _; exact ⟨[], rfl⟩
  | cons m ms ih =>
    intro h
    obtain ⟨ns, hns⟩ := ih fun m hm => h m (by simp [hm])
    obtain ⟨n, hn⟩ : ∃ n, m.2.pyStr = .ok n := by
      have := h m (by simp)
      cases hm : m.2 with
      | float f => exact absurd hm (this f)
      | _ => exact ⟨_, rfl⟩
    exact ⟨n :: ns, by simp only [mapRes, hn, hns]⟩

theorem enum_made {e : Nat} {ed : EnumDef} (h1 : env.enums[e]? = some ed) (h2 : ed.members ≠ [])
    (h3 : ∀ m ∈ ed.members, ∀ m' ∈ ed.members, scalarTypeName m.2 = scalarTypeName m'.2) : ∃ s, enumSchema env e = .ok s := by
  unfold enumSchema
  rw [h1]
  dsimp only
  cases hm : ed.members with
  | nil => exact absurd hm h2
  | cons m ms =>
    rw [hm] at h3
    have : scalarsUniform ((m :: ms).map Prod.snd) = true := by
      simp only [List.map_cons, scalarsUniform, List.all_eq_true, decide_eq_true_eq, List.mem_map]
      rintro _ ⟨m', hm', rfl⟩
      exact h3 m' (by simp [hm']) m (by simp)
    rw [if_pos this]
    obtain ⟨n, sc⟩ := m
    cases sc <;> exact ⟨_, rfl⟩

theorem tySchema_made (hcls : ∀ c cd, env.classes[c]? = some cd → OkOrRec (cls c)) {t : Ty} (h : Schemable env t) :
    ∀ skip, OkOrRec (tySchema cfg env cat cls false skip t) := by
  induction h with
  | @leaf t h =>
    intro skip
    simp only [scalarTys, List.mem_cons, List.not_mem_nil, or_false] at h
    rcases h with (rfl | rfl | rfl | rfl | rfl | rfl | rfl | rfl | rfl | rfl | rfl | rfl | rfl) | rfl | rfl | rfl | rfl <;>
      exact Or.inl ⟨_, by simp only [tySchema, simpleSchema]; rfl⟩
  | list _ ih => intro skip; simp only [tySchema]; exact (ih false).map fun _ _ _ => Or.inl ⟨_, rfl⟩
  | set _ ih => intro skip; simp only [tySchema]; exact (ih false).map fun _ _ _ => Or.inl ⟨_, rfl⟩
  | tuple _ ih =>
    intro skip; simp only [tySchema]
    exact (tySchemas_made fun t ht => ih t ht false).map fun _ _ _ => Or.inl ⟨_, rfl⟩
  | @dict k t ho hk _ ih =>
    intro skip; simp only [tySchema, if_neg ho]
    refine (ih false).map fun s _ _ => ?_
    unfold dictSchema
    split
    · rename_i e
      obtain ⟨ed, he, hf⟩ := hk e rfl
      obtain ⟨ns, hns⟩ := pyStr_made hf
      rw [he]
      dsimp only
      rw [hns]
      dsimp only
      split <;> exact Or.inl ⟨_, rfl⟩
    · exact Or.inl ⟨_, rfl⟩
  | @union ts h _ ih =>
    intro skip
    simp only [tySchema]
    rw [if_pos]
    · exact (tySchemas_made fun t ht => ih t ht false).map fun _ _ _ => Or.inl ⟨_, rfl⟩
    · simp only [Bool.or_eq_true, decide_eq_true_eq, Bool.not_eq_true', List.any_eq_false]
      rcases h with h | h
      · exact Or.inl h
      · refine Or.inr fun t ht hn => h ?_
        cases t <;> simp [Ty.isNone] at hn
        exact ht
  | @annotated t ms _ ih =>
    intro skip
    simp only [tySchema]
    split
    · split <;> exact Or.inl ⟨_, rfl⟩
    · exact ih true
  | @literal l h =>
    intro skip
    simp only [tySchema, litSchema]
    cases l with
    | enum e m => exact absurd rfl (h e m)
    | _ => exact Or.inl ⟨_, rfl⟩
  | enum h1 h2 h3 =>
    intro skip
    obtain ⟨s, hs⟩ := enum_made h1 h2 h3
    simp only [tySchema, hs]
    rw [if_neg (by decide)]
    split <;> exact Or.inl ⟨_, rfl⟩
  | @cls c cd h =>
    intro skip
    simp only [tySchema]
    rw [if_neg (by decide)]
    split
    · exact Or.inl ⟨_, rfl⟩
    · exact hcls c cd h

theorem propSchemas_made {kind : ClassKind} : ∀ {fs : List FieldDef} (acc : List (Str × Json)),
    (∀ f ∈ fs, OkOrRec (propSchema cfg env cat cls kind f)) → OkOrRec (propSchemas cfg env cat cls kind fs acc) := by
  intro fs
  induction fs with
  | nil => intro acc _; exact Or.inl ⟨_, rfl⟩
  | cons f fs ih =>
    intro acc h
    rcases h f (by simp) with ⟨⟨s, us⟩, h1⟩ | h1
    · rcases ih (upsert (schemaProp kind f) (.obj s) acc) (fun f hf => h f (by simp [hf])) with ⟨⟨ps, us'⟩, h2⟩ | h2
      · exact Or.inl ⟨(ps, us ++ us'), by simp only [propSchemas, h1, h2]⟩
      · exact Or.inr (by simp only [propSchemas, h1, h2])
    · exact Or.inr (by simp only [propSchemas, h1])

theorem SchemaProgram.fields (h : SchemaProgram env cat) {cd : ClassDef} (hc : cd ∈ env.classes) {f : FieldDef}
    (hf : f ∈ cd.hints) : strField cd.kind f = false ∧ fwdField cd.kind f = false := by
  have := h.evaluated cd hc f hf
  unfold strField fwdField
  split
  · rename_i fr hk; exact this fr hk
  · exact ⟨rfl, rfl⟩

theorem clsSchema_made (h : SchemaProgram env cat) : ∀ (n c : Nat) (cd : ClassDef), env.classes[c]? = some cd →
    OkOrRec (clsSchema cfg env cat n c) := by
  intro n
  induction n with
  | zero =>
    intro c cd hc
    refine Or.inr ?_
    simp only [clsSchema]
    rw [if_pos (List.getElem?_eq_some_iff.1 hc).1]
  | succ n ih =>
    intro c cd hc
    have hm := List.mem_of_getElem? hc
    simp only [clsSchema, hc]
    refine (propSchemas_made [] fun f hf => ?_).map fun _ _ _ => Or.inl ⟨_, rfl⟩
    obtain ⟨h1, h2⟩ := h.fields hm hf
    unfold propSchema
    rw [h1, if_neg (by decide), h2]
    refine (tySchema_made ih (h.types cd hm f hf) false).map fun s _ _ => ?_
    unfold withDefault
    split
    · exact Or.inl ⟨_, rfl⟩
    · rename_i v hv
      have hv : f.dflt = .value v := by
        unfold classAttr at hv
        split at hv
        · cases hv
        · split at hv
          · rename_i h; cases hv; exact h
          · cases hv
      split
      · rename_i hj
        obtain ⟨j, hj⟩ := h.defaults cd hm f hf v hv hj
        rw [hj]
        exact Or.inl ⟨_, rfl⟩
      · exact Or.inl ⟨_, rfl⟩

theorem SchemaProgram.defaultsEnd (h : SchemaProgram env cat) : DefaultsEnd env := by
  intro cd hcd f hf v hv hj
  obtain ⟨j, hj⟩ := h.defaults cd hcd f hf v hv hj
  rw [hj]; simp

theorem typeToSchema_made (h : SchemaProgram env cat) (force : Bool) {t : Ty} (ht : Schemable env t) :
    ∃ p, typeToSchema cfg env cat force t = .ok p := by
  rcases tySchema_made (clsSchema_made (cfg := cfg) h _) ht force with h1 | h1
  · exact h1
  · exact absurd h1 (typeToSchema_no_recursion h.defaultsEnd h.acyclic force t)

/-! ### Definitions -/

/-- Only registered types are recorded. -/
def UseReg (cat : SchemaCatalog) (t : UseTy) : Prop := ∃ k e, t = .ty k.toTy ∧ lookupKey k cat.byType = some e

theorem useReg_closed (h : SchemaProgram env cat) :
    ClsClosed cfg env cat (fun _ us => ∀ u ∈ us, UseReg cat u.ty) (fun _ _ => False) where
  plain _ _ := by simp
  ref k t e hk he := by
    intro u hu
    rcases List.mem_singleton.1 hu with rfl
    refine ⟨k, e, ?_, he⟩
    cases t <;> cases hk <;> rfl
  list _ _ h := h
  set _ _ h := h
  dict _ _ _ _ h _ := h
  union ps h u hu := by
    obtain ⟨us, hus, hu⟩ := List.mem_flatten.1 hu
    obtain ⟨p, hp, rfl⟩ := List.mem_map.1 hus
    exact h p hp u hu
  tuple n m ps h u hu := by
    obtain ⟨us, hus, hu⟩ := List.mem_flatten.1 hu
    obtain ⟨p, hp, rfl⟩ := List.mem_map.1 hus
    exact h p hp u hu
  name _ _ _ _ h _ := h.elim
  occurs cd hcd f hf hw := by rw [(h.fields hcd hf).2] at hw; cases hw
  str cd hcd f hf hw := by rw [(h.fields hcd hf).1] at hw; cases hw
  dflt _ _ _ _ h := h
  cls cd _ ps us req _ _ h2 u hu := by
    obtain ⟨s, us', h3, h4, _⟩ := h2 u hu
    exact h3 u h4

theorem lookup_made (h : SchemaProgram env cat) {t : UseTy} (ht : UseReg cat t) :
    ∃ s us, schemaWithLookup cfg env cat t = .ok (s, us) ∧ ∀ u ∈ us, UseReg cat u.ty := by
  obtain ⟨k, e, rfl, he⟩ := ht
  have hr : UseTy.ref (.ty k.toTy) = some (.ty k) := by cases k <;> rfl
  have hget : cat.get (.ty k) = .ok e := by simp only [Catalog.get, he]
  have hp : ∃ p, schemaWithLookup cfg env cat (.ty k.toTy) = .ok p := by
    unfold schemaWithLookup
    rw [hr]
    dsimp only
    rw [hget]
    dsimp only
    unfold entrySchema
    split
    · obtain ⟨⟨s, us⟩, hp⟩ := typeToSchema_made (cfg := cfg) h true (h.registered k e he)
      simp only [useSchema, hp, SchRes.map]
      exact ⟨_, rfl⟩
    · exact ⟨_, rfl⟩
  obtain ⟨⟨s, us⟩, hp⟩ := hp
  exact ⟨s, us, hp, (schemaWithLookup_rec (useReg_closed h) (fun _ _ _ _ _ u hu => by cases hu) (fun _ _ _ _ h => h) hp).2⟩

theorem addUses_reg {used : List (Str × UseTy)} {us : List TypeUse} (h1 : ∀ p ∈ used, UseReg cat p.2)
    (h2 : ∀ u ∈ us, UseReg cat u.ty) : ∀ p ∈ addUses used us, UseReg cat p.2 := by
  rintro ⟨n, t⟩ hp
  rcases (addUses_spec us used).2.2 n t hp with h | ⟨u, hu, _, rfl⟩
  · exact h1 _ h
  · exact h2 u hu

theorem defineAll_made (h : SchemaProgram env cat) : ∀ (l used : List (Str × UseTy)) (defined : List (Str × Sch)),
    (∀ p ∈ l, UseReg cat p.2) → (∀ p ∈ used, UseReg cat p.2) →
    ∃ used' defined', defineAll cfg env cat l used defined = .ok (used', defined') ∧ ∀ p ∈ used', UseReg cat p.2 := by
  intro l
  induction l with
  | nil => intro used defined _ hu; exact ⟨used, defined, rfl, hu⟩
  | cons p l ih =>
    intro used defined hl hu
    obtain ⟨n, t⟩ := p
    obtain ⟨s, us, h1, h2⟩ := lookup_made (cfg := cfg) h (hl (n, t) (by simp))
    obtain ⟨used', defined', h3, h4⟩ := ih (addUses used us) (upsert n s defined) (fun p hp => hl p (by simp [hp])) (addUses_reg hu h2)
    exact ⟨used', defined', by simp only [defineAll, h1, h3], h4⟩

theorem loopEnds_made (h : SchemaProgram env cat) {used : List (Str × UseTy)} {defined : List (Str × Sch)}
    {r : Res (List (Str × Sch))} (hl : LoopEnds cfg env cat used defined r) (hu : ∀ p ∈ used, UseReg cat p.2) :
    ∃ d, r = .ok d := by
  induction hl with
  | stop => exact ⟨_, rfl⟩
  | @round used defined used' defined' r _ h1 _ ih =>
    obtain ⟨u, d, h2, h3⟩ := defineAll_made (cfg := cfg) h (used.filter fun u => (lookupKey u.1 defined).isNone) used defined
      (fun p hp => hu p (List.mem_filter.1 hp).1) hu
    rw [h1] at h2
    cases h2
    exact ih h3
  | @raise used defined e _ h1 =>
    obtain ⟨u, d, h2, h3⟩ := defineAll_made (cfg := cfg) h (used.filter fun u => (lookupKey u.1 defined).isNone) used defined
      (fun p hp => hu p (List.mem_filter.1 hp).1) hu
    rw [h1] at h2
    cases h2

/-- There is a schema for a type. -/
theorem classdef_made (h : SchemaProgram env cat) (hcat : MadeByRegistering cat) {t : Ty} (ht : Schemable env t) :
    ∃ p, classdefSchemas cfg env cat false t = .ok p := by
  obtain ⟨⟨s, us⟩, h1⟩ := typeToSchema_made (cfg := cfg) h false ht
  obtain ⟨r, h2, h3⟩ := C35_loop_ends hcat false t s us h1
  obtain ⟨d, rfl⟩ := loopEnds_made h h2 (addUses_reg (by simp) (typeToSchema_rec (useReg_closed h) h1))
  exact ⟨_, h3⟩

/-- There is a document for a type, or its schema is in error. -/
theorem document_made (h : SchemaProgram env cat) (hcat : MadeByRegistering cat) {t : Ty} (ht : Schemable env t) :
    (∃ root, classdefToSchema cfg env cat t = .ok root) ∨ classdefToSchema cfg env cat t = .error .typeError := by
  obtain ⟨p, hp⟩ := classdef_made (cfg := cfg) h hcat ht
  unfold classdefToSchema
  rw [hp]
  dsimp only
  generalize (if p.2.isEmpty then []
    else [(c!"definitions", Json.obj (p.2.map fun d => (d.1, .obj d.2)))]) = b
  split
  · exact Or.inl ⟨_, rfl⟩
  · exact Or.inr rfl

end Verif
