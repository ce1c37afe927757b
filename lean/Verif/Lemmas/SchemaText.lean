import Verif.Lemmas.StripText
import Verif.Model.SchemaText
import Verif.Spec.All2
/-!
# Schemas with and without descriptive text

The generator with descriptive text follows the one without it step by step.
-/
namespace Verif

/-- Reading one of the documentation strings fails. -/
def DocFault (tx : SchemaTexts) (e : Err) : Prop :=
  ∃ t, ∃ b ∈ (tx.ofType t).toDocBase :: (tx.ofType t).bases, b.parse = .error e

theorem propDocsFrom_fault {f : Str → Str → Str} : ∀ {bs : List DocBase} {acc : List (Str × Str)} {e : Err},
    propDocsFrom f bs acc = .error e → ∃ b ∈ bs, b.parse = .error e
  | b :: bs, acc, e, h => by
    rw [propDocsFrom] at h
    split at h
    · rename_i hb
      cases h
      exact ⟨b, by simp, hb⟩
    · obtain ⟨b', h1, h2⟩ := propDocsFrom_fault h
      exact ⟨b', by simp [h1], h2⟩

variable {tx : SchemaTexts}

theorem classPropDocs_fault {t : Ty} {e : Err} (h : classPropDocs tx t = .error e) : DocFault tx e :=
  ⟨t, propDocsFrom_fault h⟩

theorem docstringSchema_fault {b : DocBase} {e : Err} (h : docstringSchema b = .error e) : b.parse = .error e := by
  unfold docstringSchema at h
  split at h
  · rename_i h1
    cases h
    unfold classDocstrings at h1
    split at h1
    · rename_i h2; cases h1; exact h2
    · split at h1 <;> cases h1
  · cases h

theorem withText_fault {t : Ty} {s : Sch} {e : Err} (h : withText tx t s = .error e) : DocFault tx e := by
  unfold withText at h
  split at h
  · split at h
    · rename_i h1
      cases h
      exact ⟨t, _, by simp, docstringSchema_fault h1⟩
    · cases h
  · cases h

/-- Pairs of a name and a schema. -/
def NamedRel (R : Sch → Sch → Prop) (p p' : Str × Sch) : Prop := p.1 = p'.1 ∧ R p.2 p'.2

/-- Pairs of a name and a schema as JSON. -/
def PropRel (R : Sch → Sch → Prop) (p p' : Str × Json) : Prop :=
  p.1 = p'.1 ∧ ∃ s s', p.2 = .obj s ∧ p'.2 = .obj s' ∧ R s s'

/-- Keywords whose argument is a schema. -/
def schemaKeys : List Str := [c!"items", c!"additionalProperties"]

/-- Keywords whose argument is a list of schemas. -/
def schemasKeys : List Str := [c!"oneOf", c!"prefixItems"]

/-- A relation between schemas without and with text that is kept by the generator. -/
structure TextRel (tx : SchemaTexts) (cat : SchemaCatalog) (R : Sch → Sch → Prop) : Prop where
  nil : R [] []
  fixed : ∀ {k a s s'}, FixedArg k a → R s s' → R ((k, a) :: s) ((k, a) :: s')
  upsert : ∀ {k a s s'}, FixedArg k a → R s s' → R (upsert k a s) (upsert k a s')
  schema : ∀ {k u u' s s'}, k ∈ schemaKeys → R u u' → R s s' → R ((k, .obj u) :: s) ((k, .obj u') :: s')
  schemas : ∀ {k} {us us' : List Sch} {s s'}, k ∈ schemasKeys → All2 R us us' → R s s' →
    R ((k, .arr (us.map Json.obj)) :: s) ((k, .arr (us'.map Json.obj)) :: s')
  props : ∀ {ps ps' s s'}, All2 (PropRel R) ps ps' → R s s' →
    R ((c!"properties", .obj ps) :: s) ((c!"properties", .obj ps') :: s')
  text : ∀ {t s s' s''}, withText tx t s' = .ok s'' → R s s' → R s s''
  propDoc : ∀ {t docs n s s'}, classPropDocs tx t = .ok docs → R s s' → R s (withPropDoc docs n s')
  user : ∀ {r e u}, cat.get r = .ok e → e.schema = some u → R u u

/-- The result without text and the one with text. -/
def Follows (tx : SchemaTexts) (R : α → α → Prop) (r r' : SchRes α) : Prop :=
  match r' with
  | .ok (a', us) => ∃ a, r = .ok (a, us) ∧ R a a'
  | .error e => r = .error e ∨ DocFault tx e

theorem Follows.ok {R : α → α → Prop} {a a' : α} {us : List TypeUse} (h : R a a') : Follows tx R (.ok (a, us)) (.ok (a', us)) :=
  ⟨a, rfl, h⟩

theorem Follows.err {R : α → α → Prop} {e : Err} : Follows tx R (.error e) (.error e) := Or.inl rfl

/-- The same for results without a record of uses. -/
def FollowsRes (tx : SchemaTexts) (R : α → α → Prop) (r r' : Res α) : Prop :=
  match r' with
  | .ok a' => ∃ a, r = .ok a ∧ R a a'
  | .error e => r = .error e ∨ DocFault tx e

theorem Follows.map {R : α → α → Prop} {Q : β → β → Prop} {r r' : SchRes α} {f f' : α → Res β} (h : Follows tx R r r')
    (hf : ∀ a a', R a a' → FollowsRes tx Q (f a) (f' a')) :
    Follows tx Q (r.map f) (r'.map f') := by
  match r', h with
  | .error e, h =>
    rcases h with rfl | h
    · exact .err
    · exact Or.inr h
  | .ok (a', us), ⟨a, ha, hR⟩ =>
    subst ha
    have := hf a a' hR
    unfold SchRes.map
    dsimp only
    cases hb : f' a' with
    | ok b' =>
      rw [hb] at this
      obtain ⟨b, h1, h2⟩ := this
      rw [h1]
      exact .ok h2
    | error e =>
      rw [hb] at this
      rcases this with h1 | h1
      · rw [h1]; exact .err
      · exact Or.inr h1

section
variable {R : Sch → Sch → Prop} {cfg : SchemaCfg} {env : Env} {cat : SchemaCatalog} (hR : TextRel tx cat R)
include hR

theorem TextRel.list {s : Sch} (h : ∀ kv ∈ s, FixedArg kv.1 kv.2) : R s s := by
  induction s with
  | nil => exact hR.nil
  | cons kv s ih => exact hR.fixed (h kv (by simp)) (ih fun kv hkv => h kv (by simp [hkv]))

theorem TextRel.update {s s' : Sch} : ∀ {o : Sch}, (∀ kv ∈ o, FixedArg kv.1 kv.2) → R s s' → R (updateSch s o) (updateSch s' o) := by
  intro o
  induction o generalizing s s' with
  | nil => intro _ h; exact h
  | cons kv o ih => intro ho h; exact ih (fun kv hkv => ho kv (by simp [hkv])) (hR.upsert (ho kv (by simp)) h)

end

/-- Keywords without schemas in their arguments. -/
def flatKeys : List Str :=
  [c!"type", c!"contentEncoding", c!"format", c!"minimum", c!"maximum", c!"multipleOf", c!"exclusiveMinimum", c!"exclusiveMaximum",
   c!"minLength", c!"maxLength", c!"$ref", c!"enum", c!"const", c!"uniqueItems", c!"minItems", c!"maxItems", c!"required", c!"default",
   c!"examples", c!"$schema", c!"pattern"]

theorem flatKeys_spec : ∀ k ∈ flatKeys, k ∉ descriptiveKeywords ∧
    ((lookupKey k metaKeywords).map MetaKind.hasSchemas).getD false = false := by decide +kernel

theorem fixed_key {k : Str} (hk : k ∈ flatKeys) (a : Json) : FixedArg k a := by
  obtain ⟨h1, h2⟩ := flatKeys_spec k hk
  refine fixed_flat a h1 ?_
  intro K hK
  rw [hK] at h2
  exact h2

/-- All keywords of the schema are such. -/
theorem fixed_keys {s : Sch} (h : (s.all fun kv => decide (kv.1 ∈ flatKeys)) = true) : ∀ kv ∈ s, FixedArg kv.1 kv.2 := by
  intro kv hkv
  exact fixed_key (by simpa using List.all_eq_true.1 h kv hkv) _

theorem fixed_false : FixedArg c!"additionalProperties" (.bool false) := by
  refine ⟨by decide, rfl, fun h => absurd h (by decide), ?_⟩
  intro K j hK hj
  have hK' : lookupKey c!"additionalProperties" metaKeywords = some .schema := by decide +kernel
  rw [hK'] at hK
  cases hK
  cases hj
  exact .other (by intro _ h; cases h)

theorem fixed_names (a : Json) : FixedArg c!"propertyNames" (.obj [(c!"pattern", a)]) := by
  have hK' : lookupKey c!"propertyNames" metaKeywords = some .schema := by decide +kernel
  have hp := fixed_key (k := c!"pattern") (by decide +kernel) a
  refine ⟨by decide, ?_, fun h => absurd h (by decide), ?_⟩
  · rw [stripOf, hK', stripArg_schema, stripText_obj, stripKws_cons hp.1, stripKws_nil, hp.2.1]
  · intro K j hK hj
    rw [hK'] at hK
    cases hK
    cases hj
    refine TextArgs.text ?_
    intro kv hkv
    cases List.mem_singleton.1 hkv
    exact hp.2.2

theorem simpleSchema_fixed {t : Ty} {s : Sch} (h : simpleSchema t = some s) : ∀ kv ∈ s, FixedArg kv.1 kv.2 := by
  refine fixed_keys ?_
  cases t <;> simp only [simpleSchema, Option.some.injEq, reduceCtorEq] at h <;> subst h <;> decide +kernel

theorem all2_upsert {P : β → β → Prop} {n : Str} {b b' : β} {l l' : List (Str × β)}
    (h : All2 (fun p p' => p.1 = p'.1 ∧ P p.2 p'.2) l l') (hb : P b b') :
    All2 (fun p p' => p.1 = p'.1 ∧ P p.2 p'.2) (upsert n b l) (upsert n b' l') := by
  induction h with
  | nil => exact .cons ⟨rfl, hb⟩ .nil
  | @cons p p' l l' hp hl ih =>
    obtain ⟨k, a⟩ := p
    obtain ⟨k', a'⟩ := p'
    obtain ⟨h1, h2⟩ := hp
    dsimp only at h1 h2
    subst h1
    rw [upsert, upsert]
    split
    · exact .cons ⟨rfl, hb⟩ hl
    · exact .cons ⟨rfl, h2⟩ ih

theorem all2_props {R : Sch → Sch → Prop} {u u' : Sch} (h : R u u') : ∀ (names : List Str) {l l' : List (Str × Json)},
    All2 (PropRel R) l l' → All2 (PropRel R) (names.foldl (fun ps n => upsert n (.obj u) ps) l)
      (names.foldl (fun ps n => upsert n (.obj u') ps) l')
  | [], _, _, hl => hl
  | _ :: names, _, _, hl =>
    all2_props h names (all2_upsert (P := fun (j j' : Json) => ∃ s s', j = .obj s ∧ j' = .obj s' ∧ R s s') hl ⟨u, u', rfl, rfl, h⟩)

section
variable {R : Sch → Sch → Prop} {cfg : SchemaCfg} {env : Env} {cat : SchemaCatalog} (hR : TextRel tx cat R)
include hR

theorem nameSchema_follows (skip : Bool) (k : RegKey) :
    Follows tx R (nameSchema cfg env cat skip k) (nameSchema cfg env cat skip k) := by
  unfold nameSchema
  split
  · exact .err
  · split <;> exact .ok (hR.list (fixed_keys rfl))

theorem strSchema_follows (t : Ty) : Follows tx R (strSchema cfg env t) (strSchema cfg env t) := by
  unfold strSchema
  split
  · split
    · exact .err
    · exact .ok (hR.list (fixed_keys rfl))
  · split
    · exact .err
    · exact .ok (hR.list (fixed_keys rfl))
  all_goals first | exact .err | exact .ok (hR.list (fixed_keys rfl))

theorem withMeta_rel (ms : List Meta) {s s' : Sch} (h : R s s') : R (withMeta cfg s ms) (withMeta cfg s' ms) := by
  unfold withMeta
  induction ms generalizing s s' with
  | nil => exact h
  | cons m ms ih =>
    refine ih (hR.update ?_ h)
    cases m <;> exact fixed_keys rfl

theorem dictSchema_rel (k : KeyTy) {u u' : Sch} (h : R u u') :
    FollowsRes tx R (dictSchema env k u) (dictSchema env k u') := by
  have hty : ∀ a, FixedArg c!"type" a := fixed_key (by decide +kernel)
  have base : R [(c!"type", js c!"object"), (c!"additionalProperties", .obj u)]
      [(c!"type", js c!"object"), (c!"additionalProperties", .obj u')] :=
    hR.fixed (hty _) (hR.schema (by decide) h hR.nil)
  cases k with
  | enum e =>
    unfold dictSchema
    dsimp only
    cases env.enums[e]? with
    | none => exact Or.inl rfl
    | some ed =>
      dsimp only
      cases mapRes (fun m => m.2.pyStr) ed.members with
      | error err => exact Or.inl rfl
      | ok names =>
        dsimp only
        by_cases hn : enumExpansionLimit < names.length
        · rw [if_pos hn, if_pos hn]
          exact ⟨_, rfl, hR.fixed (hty _) (hR.fixed (fixed_names _) (hR.schema (by decide) h hR.nil))⟩
        · rw [if_neg hn, if_neg hn]
          exact ⟨_, rfl, hR.fixed (hty _) (hR.props (all2_props h names .nil) (hR.fixed fixed_false hR.nil))⟩
  | _ => exact ⟨_, rfl, base⟩

theorem withText_follows (t : Ty) {s s' : Sch} {us : List TypeUse} (h : R s s') :
    Follows tx R (.ok (s, us)) (match withText tx t s' with | .error e => .error e | .ok s => .ok (s, us)) := by
  cases hw : withText tx t s' with
  | error e => exact Or.inr (withText_fault hw)
  | ok s'' => exact .ok (hR.text hw h)

theorem emptyClass_follows (t : Ty) :
    Follows tx R (.ok (emptyClassSchema, [])) (match emptyClassText tx t with | .error e => .error e | .ok s => .ok (s, [])) := by
  unfold emptyClassText
  cases hd : classPropDocs tx t with
  | error e => exact Or.inr (classPropDocs_fault hd)
  | ok d => exact withText_follows hR t (hR.list (fixed_keys rfl))

theorem enumText_follows (e : Nat) : Follows tx R (match enumSchema env e with | .error err => .error err | .ok s => .ok (s, []))
    (match enumSchema env e with
      | .error err => .error err
      | .ok s => (match withText tx (.enum e) s with | .error err => .error err | .ok s' => .ok (s', []))) := by
  cases he : enumSchema env e with
  | error err => exact .err
  | ok s =>
    refine withText_follows hR _ (hR.list ?_)
    unfold enumSchema at he
    split at he
    · cases he
    · split at he
      · split at he <;> first | (cases he; exact fixed_keys rfl) | cases he
      · cases he

mutual
theorem tySchemaT_follows {cls cls' : Nat → SchRes Sch} (hc : ∀ c, Follows tx R (cls c) (cls' c)) (fwd : Bool) :
    ∀ (skip : Bool) (t : Ty), Follows tx R (tySchema cfg env cat cls fwd skip t) (tySchemaT cfg tx env cat cls' fwd skip t)
  | skip, .annotated t ms => by
    rw [tySchema, tySchemaT]
    cases hs : simpleSchema t with
    | none => exact tySchemaT_follows hc fwd true t
    | some s =>
      have hf := simpleSchema_fixed hs
      dsimp only
      cases auxFormat t ms with
      | none => exact .ok (withMeta_rel hR ms (hR.list hf))
      | some f => exact .ok (hR.upsert (fixed_key (by decide +kernel) _) (hR.list hf))
  | skip, .enum e => by
    rw [tySchema, tySchemaT]
    by_cases hf : fwd = true
    · rw [if_pos hf, if_pos hf]
      exact nameSchema_follows hR skip _
    · rw [if_neg hf, if_neg hf]
      generalize (if skip then none else lookupKey (RegKey.enum e) cat.byType) = o
      cases o with
      | some entry => exact .ok (hR.list (fixed_keys rfl))
      | none => exact enumText_follows hR e
  | skip, .cls c => by
    rw [tySchema, tySchemaT]
    by_cases hf : fwd = true
    · rw [if_pos hf, if_pos hf]
      exact nameSchema_follows hR skip _
    · rw [if_neg hf, if_neg hf]
      generalize (if skip then none else lookupKey (RegKey.cls c) cat.byType) = o
      cases o with
      | some entry => exact .ok (hR.list (fixed_keys rfl))
      | none => exact hc c
  | skip, .union ts => by
    rw [tySchema, tySchemaT]
    split
    · exact (tySchemasT_follows hc fwd false ts).map fun ss ss' h => ⟨_, rfl, hR.schemas (by decide) h hR.nil⟩
    · exact .err
  | skip, .list t => by
    rw [tySchema, tySchemaT]
    exact (tySchemaT_follows hc fwd fwd t).map fun s s' h =>
      ⟨_, rfl, hR.fixed (fixed_key (by decide +kernel) _) (hR.schema (by decide) h hR.nil)⟩
  | skip, .dict k t => by
    rw [tySchema, tySchemaT]
    by_cases hk : k = .other
    · rw [if_pos hk, if_pos hk]
      exact .err
    · rw [if_neg hk, if_neg hk]
      exact (tySchemaT_follows hc fwd fwd t).map fun s s' h => dictSchema_rel hR k h
  | skip, .set t => by
    rw [tySchema, tySchemaT]
    exact (tySchemaT_follows hc fwd fwd t).map fun s s' h =>
      ⟨_, rfl, hR.fixed (fixed_key (by decide +kernel) _) (hR.schema (by decide) h (hR.list (fixed_keys rfl)))⟩
  | skip, .tuple ts => by
    rw [tySchema, tySchemaT]
    exact (tySchemasT_follows hc fwd fwd ts).map fun ss ss' h =>
      ⟨_, rfl, hR.fixed (fixed_key (by decide +kernel) _) (hR.fixed (fixed_key (by decide +kernel) _)
        (hR.fixed (fixed_key (by decide +kernel) _) (hR.schemas (by decide) h hR.nil)))⟩
  | skip, .literal [] => .err
  | skip, .literal (_ :: _ :: _) => .err
  | skip, .literal [l] => by
    rw [tySchema, tySchemaT]
    cases hl : litSchema l with
    | error e => exact .err
    | ok s =>
      refine .ok (hR.list ?_)
      unfold litSchema at hl
      split at hl
      · cases hl
      · cases hl; exact fixed_keys rfl
  | skip, .none => .ok (hR.list (fixed_keys rfl))
  | skip, .bool => .ok (hR.list (fixed_keys rfl))
  | skip, .int => .ok (hR.list (fixed_keys rfl))
  | skip, .float => .ok (hR.list (fixed_keys rfl))
  | skip, .str => .ok (hR.list (fixed_keys rfl))
  | skip, .bytes => .ok (hR.list (fixed_keys rfl))
  | skip, .datetime => .ok (hR.list (fixed_keys rfl))
  | skip, .date => .ok (hR.list (fixed_keys rfl))
  | skip, .time => .ok (hR.list (fixed_keys rfl))
  | skip, .timedelta => .ok (hR.list (fixed_keys rfl))
  | skip, .uuid => .ok (hR.list (fixed_keys rfl))
  | skip, .ipv4 => emptyClass_follows hR _
  | skip, .ipv6 => emptyClass_follows hR _
  | skip, .bareList => emptyClass_follows hR _
  | skip, .bareDict => emptyClass_follows hR _
  | skip, .bareSet => emptyClass_follows hR _
  | skip, .bareTuple => emptyClass_follows hR _
theorem tySchemasT_follows {cls cls' : Nat → SchRes Sch} (hc : ∀ c, Follows tx R (cls c) (cls' c)) (fwd skip : Bool) :
    ∀ (ts : List Ty), Follows tx (All2 R) (tySchemas cfg env cat cls fwd skip ts) (tySchemasT cfg tx env cat cls' fwd skip ts)
  | [] => .ok .nil
  | t :: ts => by
    have h1 := tySchemaT_follows hc fwd skip t
    have h2 := tySchemasT_follows hc fwd skip ts
    rw [tySchemas, tySchemasT]
    match h : tySchemaT cfg tx env cat cls' fwd skip t with
    | .error e =>
      rw [h] at h1
      rcases h1 with h1 | h1
      · rw [h1]; exact .err
      · exact Or.inr h1
    | .ok (s', us) =>
      rw [h] at h1
      obtain ⟨s, h3, h4⟩ := h1
      rw [h3]
      dsimp only
      match h' : tySchemasT cfg tx env cat cls' fwd skip ts with
      | .error e =>
        rw [h'] at h2
        rcases h2 with h2 | h2
        · rw [h2]; exact .err
        · exact Or.inr h2
      | .ok (ss', us') =>
        rw [h'] at h2
        obtain ⟨ss, h5, h6⟩ := h2
        rw [h5]
        exact .ok (.cons h4 h6)
end

theorem withDefault_rel (kind : ClassKind) (f : FieldDef) {s s' : Sch} (h : R s s') :
    FollowsRes tx R (withDefault env kind f s) (withDefault env kind f s') := by
  unfold withDefault
  cases classAttr kind f with
  | none => exact ⟨s, rfl, h⟩
  | some v =>
    dsimp only
    split
    · cases objectToJson env v with
      | error e => exact Or.inl rfl
      | ok j => exact ⟨_, rfl, hR.upsert (fixed_key (by decide +kernel) _) h⟩
    · exact ⟨s, rfl, h⟩

theorem propSchemaT_follows {cls cls' : Nat → SchRes Sch} (hc : ∀ c, Follows tx R (cls c) (cls' c)) {t : Ty}
    {docs : List (Str × Str)} (hd : classPropDocs tx t = .ok docs) (kind : ClassKind) (f : FieldDef) :
    Follows tx R (propSchema cfg env cat cls kind f) (propSchemaT cfg tx env cat cls' docs kind f) := by
  unfold propSchema propSchemaT
  refine Follows.map (R := R) ?_ ?_
  · split
    · exact strSchema_follows hR _
    · exact tySchemaT_follows hR hc _ _ _
  · intro s s' h
    have h1 := withDefault_rel (env := env) hR kind f h
    cases h2 : withDefault env kind f s' with
    | error e =>
      rw [h2] at h1
      exact h1
    | ok s'' =>
      rw [h2] at h1
      obtain ⟨s0, h3, h4⟩ := h1
      exact ⟨s0, h3, hR.propDoc hd h4⟩

theorem propSchemasT_follows {cls cls' : Nat → SchRes Sch} (hc : ∀ c, Follows tx R (cls c) (cls' c)) {t : Ty}
    {docs : List (Str × Str)} (hd : classPropDocs tx t = .ok docs) (kind : ClassKind) :
    ∀ (fs : List FieldDef) (acc acc' : List (Str × Json)), All2 (PropRel R) acc acc' →
      Follows tx (All2 (PropRel R)) (propSchemas cfg env cat cls kind fs acc) (propSchemasT cfg tx env cat cls' docs kind fs acc')
  | [], _, _, h => .ok h
  | f :: fs, acc, acc', h => by
    have h1 := propSchemaT_follows (cfg := cfg) (env := env) hR hc hd kind f
    rw [propSchemas, propSchemasT]
    match h2 : propSchemaT cfg tx env cat cls' docs kind f with
    | .error e =>
      rw [h2] at h1
      rcases h1 with h1 | h1
      · rw [h1]; exact .err
      · exact Or.inr h1
    | .ok (s', us) =>
      rw [h2] at h1
      obtain ⟨s, h3, h4⟩ := h1
      rw [h3]
      dsimp only
      have h5 := propSchemasT_follows hc hd kind fs (upsert (schemaProp kind f) (.obj s) acc) (upsert (schemaProp kind f) (.obj s') acc')
        (all2_upsert (P := fun (j j' : Json) => ∃ s s', j = .obj s ∧ j' = .obj s' ∧ R s s') h ⟨s, s', rfl, rfl, h4⟩)
      match h6 : propSchemasT cfg tx env cat cls' docs kind fs (upsert (schemaProp kind f) (.obj s') acc') with
      | .error e =>
        rw [h6] at h5
        rcases h5 with h5 | h5
        · rw [h5]; exact .err
        · exact Or.inr h5
      | .ok (ps', us') =>
        rw [h6] at h5
        obtain ⟨ps, h7, h8⟩ := h5
        rw [h7]
        exact .ok h8

theorem classSchema_rel {ps ps' : List (Str × Json)} (h : All2 (PropRel R) ps ps') (req : List Str) :
    R (classSchema ps req) (classSchema ps' req) := by
  have hreq : R (if req.isEmpty then [] else [(c!"required", .arr (req.map Json.str))])
      (if req.isEmpty then [] else [(c!"required", .arr (req.map Json.str))]) := by
    split
    · exact hR.nil
    · exact hR.list (fixed_keys rfl)
  unfold classSchema
  refine hR.fixed (fixed_key (by decide +kernel) _) ?_
  cases h with
  | nil => exact hreq
  | cons hp hps => exact hR.props (.cons hp hps) (hR.fixed fixed_false hreq)

theorem clsSchemaT_follows : ∀ (n c : Nat), Follows tx R (clsSchema cfg env cat n c) (clsSchemaT cfg tx env cat n c)
  | 0, c => .err
  | n + 1, c => by
    rw [clsSchema, clsSchemaT]
    cases env.classes[c]? with
    | none => exact .err
    | some cd =>
      dsimp only
      cases hd : classPropDocs tx (.cls c) with
      | error e => exact Or.inr (classPropDocs_fault hd)
      | ok docs =>
        refine Follows.map (propSchemasT_follows hR (clsSchemaT_follows n) hd cd.kind cd.hints [] [] .nil) ?_
        intro ps ps' h
        have h1 := classSchema_rel hR h ((cd.hints.filter (schemaRequired cd.kind)).map (schemaProp cd.kind))
        cases hw : withText tx (.cls c) (classSchema ps' ((cd.hints.filter (schemaRequired cd.kind)).map (schemaProp cd.kind))) with
        | error e => exact Or.inr (withText_fault hw)
        | ok s'' => exact ⟨_, rfl, hR.text hw h1⟩

theorem typeToSchemaT_follows (force : Bool) (t : Ty) :
    Follows tx R (typeToSchema cfg env cat force t) (typeToSchemaT cfg tx env cat force t) :=
  tySchemaT_follows hR (clsSchemaT_follows hR _) false force t

theorem withExamples_rel (xs : Option (List Json)) {s s' : Sch} (h : R s s') : R (withExamples cfg xs s) (withExamples cfg xs s') := by
  unfold withExamples
  split
  · split
    · exact hR.upsert (fixed_key (by decide +kernel) _) h
    · exact h
  · exact h

theorem schemaWithLookupT_follows (t : UseTy) :
    Follows tx R (schemaWithLookup cfg env cat t) (schemaWithLookupT cfg tx env cat t) := by
  unfold schemaWithLookup schemaWithLookupT
  cases t.ref with
  | none => exact .err
  | some r =>
    dsimp only
    cases hr : cat.get r with
    | error e => exact .err
    | ok entry =>
      refine Follows.map (R := R) ?_ ?_
      · unfold entrySchema entrySchemaT
        cases hs : entry.schema with
        | some u => exact .ok (hR.user hr hs)
        | none =>
          cases t with
          | ty t => exact typeToSchemaT_follows hR true t
          | fwd n => exact .err
      · intro s s' h
        cases t with
        | fwd n => exact ⟨_, rfl, withExamples_rel hR _ h⟩
        | ty t =>
          dsimp only [entryText]
          cases hw : withText tx t s' with
          | error e => exact Or.inr (withText_fault hw)
          | ok s'' => exact ⟨_, rfl, withExamples_rel hR _ (hR.text hw h)⟩

omit hR in
theorem NamedRel.lookup {l l' : List (Str × Sch)} (h : All2 (NamedRel R) l l') (n : Str) :
    (lookupKey n l).isNone = (lookupKey n l').isNone := by
  induction h with
  | nil => rfl
  | @cons p p' l l' hp _ ih =>
    obtain ⟨k, a⟩ := p
    obtain ⟨k', a'⟩ := p'
    obtain ⟨h1, -⟩ := hp
    dsimp only at h1
    subst h1
    rw [lookupKey, lookupKey]
    split
    · rfl
    · exact ih

theorem defineAllT_follows : ∀ (us used : List (Str × UseTy)) (defs defs' : List (Str × Sch)), All2 (NamedRel R) defs defs' →
    FollowsRes tx (fun p p' => p.1 = p'.1 ∧ All2 (NamedRel R) p.2 p'.2) (defineAll cfg env cat us used defs)
      (defineAllT cfg tx env cat us used defs')
  | [], used, defs, defs', h => ⟨_, rfl, rfl, h⟩
  | (n, t) :: r, used, defs, defs', h => by
    have h1 := schemaWithLookupT_follows (cfg := cfg) (env := env) hR t
    rw [defineAll, defineAllT]
    match h2 : schemaWithLookupT cfg tx env cat t with
    | .error e =>
      rw [h2] at h1
      rcases h1 with h1 | h1
      · rw [h1]; exact Or.inl rfl
      · exact Or.inr h1
    | .ok (s', us) =>
      rw [h2] at h1
      obtain ⟨s, h3, h4⟩ := h1
      rw [h3]
      exact defineAllT_follows r _ _ _ (all2_upsert h h4)

theorem defineLoopT_follows : ∀ (n : Nat) (used : List (Str × UseTy)) (defs defs' : List (Str × Sch)),
    All2 (NamedRel R) defs defs' →
    FollowsRes tx (All2 (NamedRel R)) (defineLoop cfg env cat n used defs) (defineLoopT cfg tx env cat n used defs')
  | n, used, defs, defs', h => by
    rw [defineLoop.eq_def, defineLoopT.eq_def]
    dsimp only
    rw [h.length]
    split
    · match n with
      | 0 => exact Or.inl rfl
      | n + 1 =>
        dsimp only
        have hf : (used.filter fun u => (lookupKey u.1 defs).isNone) = used.filter fun u => (lookupKey u.1 defs').isNone :=
          List.filter_congr fun u _ => NamedRel.lookup h u.1
        rw [hf]
        have h1 := defineAllT_follows (cfg := cfg) (env := env) hR (used.filter fun u => (lookupKey u.1 defs').isNone) used defs defs' h
        match h2 : defineAllT cfg tx env cat (used.filter fun u => (lookupKey u.1 defs').isNone) used defs' with
        | .error e =>
          rw [h2] at h1
          rcases h1 with h1 | h1
          · rw [h1]; exact Or.inl rfl
          · exact Or.inr h1
        | .ok (used', defs2') =>
          rw [h2] at h1
          obtain ⟨⟨used2, defs2⟩, h3, h4, h5⟩ := h1
          dsimp only at h4 h5
          subst h4
          rw [h3]
          exact defineLoopT_follows n _ _ _ h5
    · exact ⟨_, rfl, h⟩

omit hR in
theorem insertByName_rel {p p' : Str × Sch} (hp : NamedRel R p p') {l l' : List (Str × Sch)} (h : All2 (NamedRel R) l l') :
    All2 (NamedRel R) (insertByName p l) (insertByName p' l') := by
  induction h with
  | nil => exact .cons hp .nil
  | @cons q q' l l' hq hl ih =>
    rw [insertByName, insertByName, hp.1, hq.1]
    split
    · exact .cons hp (.cons hq hl)
    · exact .cons hq ih

omit hR in
theorem sortByName_rel {l l' : List (Str × Sch)} (h : All2 (NamedRel R) l l') : All2 (NamedRel R) (sortByName l) (sortByName l') := by
  induction h with
  | nil => exact .nil
  | cons hp _ ih => exact insertByName_rel hp ih

/-- What is made with text follows what is made without it. -/
theorem classdefSchemasT_follows (force : Bool) (t : Ty) :
    FollowsRes tx (fun p p' => R p.1 p'.1 ∧ All2 (NamedRel R) p.2 p'.2) (classdefSchemas cfg env cat force t)
      (classdefSchemasT cfg tx env cat force t) := by
  have h1 := typeToSchemaT_follows (cfg := cfg) (env := env) hR force t
  unfold classdefSchemas classdefSchemasT
  match h2 : typeToSchemaT cfg tx env cat force t with
  | .error e =>
    rw [h2] at h1
    rcases h1 with h1 | h1
    · rw [h1]; exact Or.inl rfl
    · exact Or.inr h1
  | .ok (s', us) =>
    rw [h2] at h1
    obtain ⟨s, h3, h4⟩ := h1
    rw [h3]
    dsimp only
    have h5 := defineLoopT_follows (cfg := cfg) (env := env) hR (cat.byType.length + 1) (addUses [] us) [] [] .nil
    match h6 : defineLoopT cfg tx env cat (cat.byType.length + 1) (addUses [] us) [] with
    | .error e =>
      rw [h6] at h5
      rcases h5 with h5 | h5
      · rw [h5]; exact Or.inl rfl
      · exact Or.inr h5
    | .ok defs' =>
      rw [h6] at h5
      obtain ⟨defs, h7, h8⟩ := h5
      rw [h7]
      exact ⟨_, rfl, h4, sortByName_rel h8⟩

end

end Verif
