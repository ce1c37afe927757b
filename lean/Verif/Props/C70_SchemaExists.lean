import Verif.Lemmas.SchemaNeeds
import Verif.Props.C34_Validate
/-!
# C70: for which types there is a schema
-/
namespace Verif

variable {cfg : SchemaCfg} {env : Env} {cat : SchemaCatalog}

/-- C70, the schema of a type: `type_to_schema` returns exactly for the types with `HasSchema`, whatever the options. -/
theorem C70_exists (cfg : SchemaCfg) (env : Env) (cat : SchemaCatalog) (force : Bool) (t : Ty) :
    (∃ p, typeToSchema cfg env cat force t = .ok p) ↔ HasSchema env cat false force t :=
  typeToSchema_exists cfg env cat force t

/-- C70, documents: `JsonSchemaGenerator.classdef_to_schema` returns exactly if there is a schema for the type and for each type that
is written to the definitions.  Missing: annotations that are strings or hold names of classes. -/
theorem C70_document_partial (he : ∀ cd ∈ env.classes, ∀ f ∈ cd.hints, f.Evaluated cd.kind) (hcat : MadeByRegistering cat)
    (huniq : ∀ k e k' e', lookupKey k cat.byType = some e → lookupKey k' cat.byType = some e' → e.identifier = e'.identifier → k = k')
    (force : Bool) (t : Ty) : (∃ p, classdefSchemas cfg env cat force t = .ok p) ↔ HasDocument env cat force t :=
  ⟨fun ⟨_, h⟩ => (document_of_made he huniq h).1, document_exists he hcat⟩

/-- C70, definitions: a document defines exactly the types to which references lead, by way of definitions that are not given.
Missing: annotations that are strings or hold names of classes. -/
theorem C70_definitions_partial (he : ∀ cd ∈ env.classes, ∀ f ∈ cd.hints, f.Evaluated cd.kind)
    (huniq : ∀ k e k' e', lookupKey k cat.byType = some e → lookupKey k' cat.byType = some e' → e.identifier = e'.identifier → k = k')
    (force : Bool) (t : Ty) (s : Sch) (defs : List (Str × Sch)) (h : classdefSchemas cfg env cat force t = .ok (s, defs)) (n : Str) :
    n ∈ defs.map Prod.fst ↔ ∃ k e, NeedsDef env cat force t k ∧ lookupKey k cat.byType = some e ∧ e.identifier = n :=
  (document_of_made he huniq h).2 n

private theorem acc_of_hasSchema {n a : Bool} {t : Ty} (h : HasSchema env cat n a t) : n = false → ∀ c, Expands cat a t c →
    Acc (fun d c => Inlines env cat c d) c := by
  induction h with
  | leaf h =>
    intro _ c hx
    cases hx <;> simp [scalarTys] at h
  | list _ ih => rintro rfl c hx; cases hx with | list hx => exact ih rfl c hx
  | set _ ih => rintro rfl c hx; cases hx with | set hx => exact ih rfl c hx
  | tuple _ ih => rintro rfl c hx; cases hx with | tuple ht hx => exact ih _ ht rfl c hx
  | dict _ _ _ ih => rintro rfl c hx; cases hx with | dict hx => exact ih rfl c hx
  | union _ _ ih => rintro rfl c hx; cases hx with | union ht hx => exact ih _ ht rfl c hx
  | annotated _ ih => rintro rfl c hx; cases hx with | annotated hx => exact ih rfl c hx
  | literal => intro _ c hx; cases hx
  | named => intro h; cases h
  | @reference k e h =>
    intro _ c hx
    cases k with
    | enum => cases hx
    | cls c' =>
      cases hx with
      | cls hx =>
        rcases hx with hx | hx
        · cases hx
        · rw [h] at hx; cases hx
  | enum => intro _ c hx; cases hx
  | @cls a c cd h0 _ _ _ _ _ ih =>
    intro _ c' hx
    cases hx with
    | cls =>
      refine ⟨_, fun d hd => ?_⟩
      obtain ⟨cd', h1, f, hf, hev, hx⟩ := hd
      rw [h0] at h1; cases h1
      refine ih f hf ?_ ?_ rfl d hx
      · rintro ⟨h, fr, hk⟩; rw [(hev fr hk).1] at h; cases h
      · rintro ⟨h, fr, hk⟩; rw [(hev fr hk).2] at h; cases h

/-- C70: there is no schema with a class that is written out within itself. -/
theorem C70_not_within_itself (force : Bool) (t : Ty) (c : Nat) (hx : Expands cat force t c)
    (hc : Relation.TransGen (Inlines env cat) c c) (cfg : SchemaCfg) : ∀ p, typeToSchema cfg env cat force t ≠ .ok p := by
  intro p hp
  have hacc := acc_of_hasSchema ((C70_exists cfg env cat force t).1 ⟨p, hp⟩) rfl c hx
  have key : ∀ c, Acc (Relation.TransGen fun d c => Inlines env cat c d) c → ¬ Relation.TransGen (fun d c => Inlines env cat c d) c c := by
    intro c hacc
    induction hacc with
    | intro c _ ih => exact fun h => ih c h h
  exact key c hacc.transGen (Relation.transGen_swap.1 hc)

/-- C70: schemas of types do not depend on registered types that are not needed to write out classes: what has a schema with a
catalog has one with any catalog that has the same types and more. -/
theorem C70_more_registered (cat' : SchemaCatalog)
    (h : ∀ k e, lookupKey k cat.byType = some e → ∃ e', lookupKey k cat'.byType = some e') (named alone : Bool) (t : Ty)
    (ht : HasSchema env cat named alone t) : HasSchema env cat' named alone t := by
  induction ht with
  | leaf h => exact .leaf h
  | list _ ih => exact .list ih
  | set _ ih => exact .set ih
  | tuple _ ih => exact .tuple ih
  | dict h1 h2 _ ih => exact .dict h1 h2 ih
  | union h _ ih => exact .union h ih
  | annotated _ ih => exact .annotated ih
  | literal h => exact .literal h
  | named h => exact .named h
  | reference he =>
    obtain ⟨e', he'⟩ := h _ _ he
    exact .reference he'
  | enum h1 h2 h3 => exact .enum h1 h2 h3
  | cls h0 h1 _ _ h4 ih2 ih3 => exact .cls h0 h1 ih2 ih3 h4

/-! ### Types that can be written and read, but have no schema -/

/-- `list[Optional[int]]`: the exception is an `AttributeError`. -/
theorem C70_optional_item_fails (cfg : SchemaCfg) (env : Env) (cat : SchemaCatalog) :
    (∀ p, typeToSchema cfg env cat false (.list (.union [.int, .none])) ≠ .ok p) ∧
    loads env false (.list (.union [.int, .none])) (.arr [.int 1, .null]) = .ok (.list [.int 1, .none]) := by
  refine ⟨fun p hp => ?_, rfl⟩
  have h := (C70_exists cfg env cat false _).1 ⟨p, hp⟩
  generalize ht : Ty.list (.union [.int, .none]) = t at h
  cases h with
  | leaf h => subst ht; simp [scalarTys] at h
  | list h =>
    cases ht
    generalize ht : Ty.union [.int, .none] = t at h
    cases h with
    | leaf h => subst ht; simp [scalarTys] at h
    | union h => cases ht; simp at h
    | @reference k => cases k <;> cases ht
    | _ => cases ht
  | @reference k => cases k <;> cases ht
  | _ => cases ht

/-- `Literal["a", "b"]`. -/
theorem C70_literals_fail (cfg : SchemaCfg) (env : Env) (cat : SchemaCatalog) :
    (∀ p, typeToSchema cfg env cat false (.literal [.str c!"a", .str c!"b"]) ≠ .ok p) ∧
    loads env false (.literal [.str c!"a", .str c!"b"]) (.str c!"b") = .ok (.str c!"b") := by
  refine ⟨fun p hp => ?_, rfl⟩
  have h := (C70_exists cfg env cat false _).1 ⟨p, hp⟩
  generalize ht : Ty.literal [.str c!"a", .str c!"b"] = t at h
  cases h with
  | leaf h => subst ht; simp [scalarTys] at h
  | @reference k => cases k <;> cases ht
  | _ => cases ht

/-- An enumeration with values of two types. -/
theorem C70_mixed_enum_fails (cfg : SchemaCfg) (cat : SchemaCatalog) :
    let env : Env := ⟨[{ module := c!"m", name := c!"E", members := [(c!"A", .int 1), (c!"B", .str c!"b")] }], [], id⟩
    (∀ p, typeToSchema cfg env cat true (.enum 0) ≠ .ok p) ∧ loads env false (.enum 0) (.str c!"b") = .ok (.enum 0 1) := by
  intro env
  refine ⟨fun p hp => ?_, rfl⟩
  have h := (C70_exists cfg env cat true _).1 ⟨p, hp⟩
  generalize ht : Ty.enum 0 = t at h
  cases h with
  | leaf h => subst ht; simp [scalarTys] at h
  | @enum a e ed h1 h2 h3 =>
    cases ht
    cases h1
    have := h3 (c!"A", .int 1) (by simp) (c!"B", .str c!"b") (by simp)
    simp [scalarTypeName] at this
  | _ => cases ht

/-! ### The hypotheses are met -/

/-- Nodes have a schema of their own, -/
example : HasSchema forestEnv forestCat false true (.cls 1) := by
  refine .cls (cd := forestEnv.classes[1]) rfl ?_ ?_ ?_ ?_
  · rintro f hf ⟨-, fr, hk⟩; cases hk
  · rintro f hf - ⟨-, fr, hk⟩; cases hk
  · intro f hf _ _
    simp only [forestEnv, ClassDef.hints, List.getElem_cons_succ, List.getElem_cons_zero, List.mem_cons, List.not_mem_nil,
      or_false] at hf
    rcases hf with rfl | rfl | rfl
    · exact .literal (by simp)
    · exact .annotated (.leaf (Or.inl (by simp [scalarTys])))
    · refine .list (.union (Or.inr (by simp)) ?_)
      intro t ht
      simp only [List.mem_cons, List.not_mem_nil, or_false] at ht
      rcases ht with rfl | rfl
      · exact .reference (k := .cls 1) (e := (forestCat.byType)[0].2) rfl
      · refine .cls (cd := forestEnv.classes[0]) rfl ?_ ?_ ?_ ?_
        all_goals
          intro f hf
          simp only [forestEnv, ClassDef.hints, List.getElem_cons_zero, List.mem_cons, List.not_mem_nil, or_false] at hf
          rcases hf with rfl | rfl | rfl
        any_goals (rintro ⟨h, _⟩; cases h)
        any_goals (rintro _ ⟨h, _⟩; cases h)
        · exact fun _ _ => .literal (by simp)
        · exact fun _ _ => .enum (ed := forestEnv.enums[0]) rfl (by simp [forestEnv]) (by decide)
        · exact fun _ _ => .leaf (t := .str) (Or.inl (by simp [scalarTys]))
  · intro f hf v hv
    simp only [forestEnv, ClassDef.hints, List.getElem_cons_succ, List.getElem_cons_zero, List.mem_cons, List.not_mem_nil,
      or_false] at hf
    rcases hf with rfl | rfl | rfl <;> cases hv.1

/-- and refer to themselves, -/
example : RefersIn forestEnv forestCat true (.cls 1) (.cls 1) :=
  .field (cd := forestEnv.classes[1]) (by intro h; cases h) rfl (f := forestEnv.classes[1].hints[2]) (by simp [forestEnv, ClassDef.hints])
    (.list (.union List.mem_cons_self (.here (k := .cls 1) (e := (forestCat.byType)[0].2) rfl)))

/-- so that there is a document for forests, with one definition. -/
example (cfg : SchemaCfg) : HasDocument forestEnv forestCat false (.list (.cls 1)) ∧
    ∃ s d, classdefSchemas cfg forestEnv forestCat false (.list (.cls 1)) = .ok (s, [(c!"Node", d)]) := by
  have h : ∃ s d, classdefSchemas cfg forestEnv forestCat false (.list (.cls 1)) = .ok (s, [(c!"Node", d)]) := ⟨_, _, rfl⟩
  refine ⟨(C70_document_partial (cfg := cfg) forest_schemas.evaluated ⟨_, _, rfl⟩ (fun k e k' e' hk hk' _ => ?_) false _).1 ?_, h⟩
  · have one : ∀ {k e}, lookupKey k forestCat.byType = some e → k = .cls 1 := by
      intro k e h
      by_cases hk : RegKey.cls 1 = k
      · exact hk.symm
      · simp [forestCat, catalogOf, registerAll, register, Catalog.add, Catalog.empty, lookupKey, upsert, hk] at h
    rw [one hk, one hk']
  · obtain ⟨s, d, h⟩ := h
    exact ⟨_, h⟩

/-- If nothing is registered, there is no schema for nodes. -/
example (cfg : SchemaCfg) : ∀ p, typeToSchema cfg forestEnv noneRegistered false (.list (.cls 1)) ≠ .ok p :=
  C70_not_within_itself false _ 1 (.list (.cls (Or.inr rfl)))
    (.single ⟨forestEnv.classes[1], rfl, forestEnv.classes[1].hints[2], by simp [forestEnv, ClassDef.hints],
      fun _ h => by simp [forestEnv] at h, .list (.union List.mem_cons_self (.cls (Or.inr rfl)))⟩) cfg

end Verif
