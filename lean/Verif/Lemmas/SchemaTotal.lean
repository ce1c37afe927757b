import Verif.Lemmas.SchemaShapes
import Verif.Spec.SchemaValid
/-!
# Validation against generated schemas ends
-/
namespace Verif

variable {vc : ValidatorCfg} {cfg : SchemaCfg} {env : Env} {cat : SchemaCatalog}

/-- Schemas as they are generated, with references to `names`. -/
inductive GenSch (cfg : SchemaCfg) (names : Str → Prop) : Json → Prop
  | plain {s} : PlainSch s → GenSch cfg names (.obj s)
  | ref {n} : names n → GenSch cfg names (.obj (refSch cfg n))
  | list {s} : GenSch cfg names s → GenSch cfg names (.obj [(c!"type", js c!"array"), (c!"items", s)])
  | set {s} : GenSch cfg names s →
      GenSch cfg names (.obj [(c!"type", js c!"array"), (c!"items", s), (c!"uniqueItems", .bool true)])
  | dict {s} : GenSch cfg names s → GenSch cfg names (.obj [(c!"type", js c!"object"), (c!"additionalProperties", s)])
  | dictPattern {s p} : GenSch cfg names s → GenSch cfg names (.obj [(c!"type", js c!"object"),
      (c!"propertyNames", .obj [(c!"pattern", js p)]), (c!"additionalProperties", s)])
  | union {ss} : (∀ s ∈ ss, GenSch cfg names s) → GenSch cfg names (.obj [(c!"oneOf", .arr ss)])
  | tuple {n m ss} : (∀ s ∈ ss, GenSch cfg names s) → GenSch cfg names (.obj [(c!"type", js c!"array"),
      (c!"minItems", .int n), (c!"maxItems", .int m), (c!"prefixItems", .arr ss)])
  | props {ps} : (∀ k x, (k, x) ∈ ps → GenSch cfg names x) → GenSch cfg names (.obj [(c!"type", js c!"object"),
      (c!"properties", .obj ps), (c!"additionalProperties", .bool false)])
  | cls {ps req} : (∀ k x, (k, x) ∈ ps → GenSch cfg names x) → GenSch cfg names (.obj (classSchema ps req))
  | dflt {s j} : GenSch cfg names (.obj s) → GenSch cfg names (.obj (upsert c!"default" j s))

/-- References lead to schemas of classes and enumerations. -/
def RefsGood (cfg : SchemaCfg) (root : Json) (names : Str → Prop) : Prop :=
  ∀ n, names n → ∃ d s, resolveRef root (cfg.definitionsPath ++ n) = some (.obj d) ∧ SameKw d s ∧
    (PlainSch s ∨ ∃ ps req, s = classSchema ps req ∧ ∀ k x, (k, x) ∈ ps → GenSch cfg names x)

theorem Json.sizeOf_mem_arr {xs : List Json} {x : Json} (h : x ∈ xs) : sizeOf x < sizeOf (Json.arr xs) := by
  have := List.sizeOf_lt_of_mem h; simp; omega
theorem Json.sizeOf_mem_obj {kvs : List (Str × Json)} {kv : Str × Json} (h : kv ∈ kvs) : sizeOf kv.2 < sizeOf (Json.obj kvs) := by
  have := List.sizeOf_lt_of_mem h
  obtain ⟨k, v⟩ := kv
  simp at this ⊢; omega

section
variable {root : Json} {v : Json} {s : Sch}

private theorem done_items {a : Json} (h : ∀ xs, v = .arr xs → ∀ x ∈ xs, Decided vc root a x) :
    KwDone vc root s c!"items" a v := by
  cases v with
  | arr xs => exact allO_done (f := fun _ => a) (g := fun x => x) (h xs rfl)
  | _ => exact ⟨0, true, rfl⟩

private theorem done_additional {a : Json} (h : ∀ kvs, v = .obj kvs → ∀ kv ∈ kvs, Decided vc root a kv.2) :
    KwDone vc root s c!"additionalProperties" a v := by
  cases v with
  | obj kvs =>
    exact allO_done (f := fun _ => a) (g := fun kv : Str × Json => kv.2) (fun x hx => h kvs rfl x (List.mem_filter.1 hx).1)
  | _ => exact ⟨0, true, rfl⟩

private theorem done_false : KwDone vc root s c!"additionalProperties" (.bool false) v :=
  done_additional fun _ _ _ _ => ⟨1, false, rfl⟩

private theorem done_properties {ps : List (Str × Json)}
    (h : ∀ kvs, v = .obj kvs → ∀ p ∈ ps, ∀ x, lookupKey p.1 kvs = some x → Decided vc root p.2 x) :
    KwDone vc root s c!"properties" (.obj ps) v := by
  cases v with
  | obj kvs =>
    obtain ⟨n, hn⟩ := eventually_all
      (P := fun (p : Str × Json) n => ∃ b, (match lookupKey p.1 kvs with | some x => validate vc root n p.2 x | none => some true) = some b)
      (fun p n m hnm ⟨b, h⟩ => ⟨b, by
        cases hl : lookupKey p.1 kvs with
        | none => rw [hl] at h; exact h
        | some x => rw [hl] at h; exact validate_mono hnm _ _ _ h⟩) ps (by
        intro p hp
        cases hl : lookupKey p.1 kvs with
        | none => exact ⟨0, true, rfl⟩
        | some x => exact h kvs rfl p hp x hl)
    obtain ⟨b, hb⟩ := allO_some (l := ps.map fun p => match lookupKey p.1 kvs with | some x => validate vc root n p.2 x | none => some true) (by
      intro o ho
      obtain ⟨x, hx, rfl⟩ := List.mem_map.1 ho
      exact hn x hx)
    exact ⟨n, b, hb⟩
  | _ => exact ⟨0, true, rfl⟩

private theorem done_required {rs : List Str} : KwDone vc root s c!"required" (.arr (rs.map Json.str)) v := by
  cases v with
  | obj kvs =>
    obtain ⟨b, hb⟩ := allO_some (l := (rs.map Json.str).map fun r => match r with | .str n => some (lookupKey n kvs).isSome | _ => none) (by
      intro o ho
      simp only [List.map_map, List.mem_map, Function.comp] at ho
      obtain ⟨r, _, rfl⟩ := ho
      exact ⟨_, rfl⟩)
    exact ⟨0, b, hb⟩
  | _ => exact ⟨0, true, rfl⟩

private theorem done_type {n : Str} (h : n ∈ jsonTypeNames) : KwDone vc root s c!"type" (js n) v := (argOk_type h).done s v

private theorem done_class {ps : List (Str × Json)} {req : List Str}
    (h : ∀ kvs, v = .obj kvs → ∀ p ∈ ps, ∀ x, lookupKey p.1 kvs = some x → Decided vc root p.2 x) :
    ∀ ka ∈ classSchema ps req, KwDone vc root (classSchema ps req) ka.1 ka.2 v := by
  intro ka hka
  generalize hs : classSchema ps req = s'
  simp only [classSchema, List.mem_append, List.mem_singleton] at hka
  rcases hka with (rfl | hka) | hka
  · exact done_type (by decide)
  · split at hka
    · cases hka
    · simp only [List.mem_cons, List.not_mem_nil, or_false] at hka
      rcases hka with rfl | rfl
      · exact done_properties h
      · exact done_false
  · split at hka
    · cases hka
    · rcases List.mem_singleton.1 hka with rfl
      exact done_required
end

/-- Validation against schemas that are generated ends. -/
theorem gen_decided {root : Json} {names : Str → Prop} (hroot : RefsGood cfg root names) :
    ∀ n v, sizeOf v < n → ∀ s, GenSch cfg names s → Decided vc root s v := by
  intro n
  induction n with
  | zero => intro v hv; omega
  | succ n ih =>
    intro v hv
    have hprops : ∀ (ps : List (Str × Json)), (∀ k x, (k, x) ∈ ps → GenSch cfg names x) →
        ∀ kvs, v = .obj kvs → ∀ p ∈ ps, ∀ x, lookupKey p.1 kvs = some x → Decided vc root p.2 x := by
      rintro ps hps kvs rfl p hp x hx
      have := Json.sizeOf_mem_obj (lookupKey_some_mem hx)
      exact ih x (by simp only at this; omega) _ (hps p.1 p.2 hp)
    have hitems : ∀ s, GenSch cfg names s → ∀ xs, v = .arr xs → ∀ x ∈ xs, Decided vc root s x := by
      rintro s hs xs rfl x hx
      have := Json.sizeOf_mem_arr hx
      exact ih x (by omega) _ hs
    have hvalues : ∀ s, GenSch cfg names s → ∀ kvs, v = .obj kvs → ∀ kv ∈ kvs, Decided vc root s kv.2 := by
      rintro s hs kvs rfl kv hkv
      have := Json.sizeOf_mem_obj hkv
      exact ih kv.2 (by omega) _ hs
    have hkws : ∀ s, GenSch cfg names s → ∃ s', s = .obj s' ∧ ∀ ka ∈ s', KwDone vc root s' ka.1 ka.2 v := by
      intro s hs
      induction hs with
      | plain hp => exact ⟨_, rfl, fun ka hka => (hp.args ka hka).done _ v⟩
      | @ref m hm =>
        refine ⟨_, rfl, ?_⟩
        intro ka hka
        rcases List.mem_singleton.1 hka with rfl
        obtain ⟨d, s0, hr, hsame, hd⟩ := hroot m hm
        have hdec : Decided vc root (.obj d) v := by
          refine decided_obj (hsame.symm.decided ?_)
          rcases hd with hp | ⟨ps, req, rfl, hps⟩
          · exact fun ka hka => (hp.args ka hka).done _ v
          · exact done_class (hprops ps hps)
        obtain ⟨k, b, hk⟩ := hdec
        refine ⟨k, b, ?_⟩
        show (match resolveRef root (cfg.definitionsPath ++ m) with | some s => validate vc root k s v | none => none) = _
        rw [hr]; exact hk
      | @list s hs' _ =>
        refine ⟨_, rfl, ?_⟩
        intro ka hka
        simp only [List.mem_cons, List.not_mem_nil, or_false] at hka
        rcases hka with rfl | rfl
        · exact done_type (by decide)
        · exact done_items (hitems s hs')
      | @set s hs' _ =>
        refine ⟨_, rfl, ?_⟩
        intro ka hka
        simp only [List.mem_cons, List.not_mem_nil, or_false] at hka
        rcases hka with rfl | rfl | rfl
        · exact done_type (by decide)
        · exact done_items (hitems s hs')
        · exact ArgOk.done ⟨.bool, by intro vc root f s v; cases v <;> rfl⟩ _ _
      | @dict s hs' _ =>
        refine ⟨_, rfl, ?_⟩
        intro ka hka
        simp only [List.mem_cons, List.not_mem_nil, or_false] at hka
        rcases hka with rfl | rfl
        · exact done_type (by decide)
        · exact done_additional (hvalues s hs')
      | @dictPattern s p hs' _ =>
        refine ⟨_, rfl, ?_⟩
        intro ka hka
        simp only [List.mem_cons, List.not_mem_nil, or_false] at hka
        rcases hka with rfl | rfl | rfl
        · exact done_type (by decide)
        · cases v with
          | obj kvs =>
            refine allO_done (f := fun _ => .obj [(c!"pattern", js p)]) (g := fun kv : Str × Json => .str kv.1) ?_
            intro kv _
            refine decided_obj fun ka hka => ?_
            rcases List.mem_singleton.1 hka with rfl
            exact (argOk_pattern p).done _ _
          | _ => exact ⟨0, true, rfl⟩
        · exact done_additional (hvalues s hs')
      | @union ss _ ih' =>
        refine ⟨_, rfl, ?_⟩
        intro ka hka
        rcases List.mem_singleton.1 hka with rfl
        obtain ⟨k, hk⟩ := eventually_done (vc := vc) (root := root) (l := ss) (f := fun s => s) (g := fun _ => v) (by
          intro s hs
          obtain ⟨s', rfl, h⟩ := ih' s hs
          exact decided_obj h)
        obtain ⟨c, hc⟩ := countO_some (l := ss.map fun s => validate vc root k s v) (by
          intro o ho
          obtain ⟨x, hx, rfl⟩ := List.mem_map.1 ho
          exact hk x hx)
        refine ⟨k, c == 1, ?_⟩
        show (match countO (ss.map fun s => validate vc root k s v) with | some n => some (n == 1) | none => none) = _
        rw [hc]
      | @tuple a b ss hss _ =>
        refine ⟨_, rfl, ?_⟩
        intro ka hka
        simp only [List.mem_cons, List.not_mem_nil, or_false] at hka
        rcases hka with rfl | rfl | rfl | rfl
        · exact done_type (by decide)
        · exact ArgOk.done ⟨.int, by intro vc root f s v; cases v <;> rfl⟩ _ _
        · exact ArgOk.done ⟨.int, by intro vc root f s v; cases v <;> rfl⟩ _ _
        · cases v with
          | arr xs =>
            refine allO_done (f := fun p : Json × Json => p.1) (g := fun p => p.2) ?_
            intro p hp
            obtain ⟨h1, h2⟩ := List.of_mem_zip hp
            exact hitems _ (hss _ h1) xs rfl _ h2
          | _ => exact ⟨0, true, rfl⟩
      | @props ps hps _ =>
        refine ⟨_, rfl, ?_⟩
        intro ka hka
        simp only [List.mem_cons, List.not_mem_nil, or_false] at hka
        rcases hka with rfl | rfl | rfl
        · exact done_type (by decide)
        · exact done_properties (hprops ps hps)
        · exact done_false
      | @cls ps req hps _ => exact ⟨_, rfl, done_class (hprops ps hps)⟩
      | @dflt s j _ ih' =>
        obtain ⟨s', he, h⟩ := ih'
        cases he
        exact ⟨_, rfl, (SameKw.upsert s (by decide)).symm.decided h⟩
    intro s hs
    obtain ⟨s', rfl, h⟩ := hkws s hs
    exact decided_obj h

/-- Names of classes and enumerations are references to what is known by that name. -/
theorem nameSchema_known {k : RegKey} {b : Bool} {s : Sch} {us : List TypeUse} (hk : b = false ∧ KnownByName env cat k)
    (h : nameSchema cfg env cat b k = .ok (s, us)) :
    ∃ n e e', k.typeName env = some n ∧ lookupKey n cat.byName = some e ∧ lookupKey k cat.byType = some e' ∧
      e.identifier = e'.identifier ∧ s = refSch cfg e'.identifier ∧ us = [⟨e'.identifier, .fwd n, false⟩] := by
  obtain ⟨rfl, n, e, e', h1, h2, h3, h4⟩ := hk
  unfold nameSchema at h
  rw [h1] at h
  simp only [Bool.false_eq_true, if_false, h2] at h
  cases h
  exact ⟨n, e, e', h1, h2, h3, h4, by rw [h4], by rw [h4]⟩

/-- All names recorded are known. -/
def UsesIn (names : Str → Prop) (us : List TypeUse) : Prop := ∀ u ∈ us, names u.name

/-- Conditions on classes by which generated schemas have references to registered types only. -/
structure NamesOk (env : Env) (cat : SchemaCatalog) : Prop where
  strings : ∀ cd ∈ env.classes, ∀ f ∈ cd.hints, strField cd.kind f = false
  forward : ∀ cd ∈ env.classes, ∀ f ∈ cd.hints, fwdField cd.kind f = true → ∀ k b, Occurs false f.ty.required k b →
    b = false ∧ KnownByName env cat k

theorem gen_closed (hn : NamesOk env cat) (names : Str → Prop) :
    ClsClosed cfg env cat (fun s us => UsesIn names us → GenSch cfg names (.obj s)) (fun k b => b = false ∧ KnownByName env cat k) where
  plain _ h _ := .plain h
  ref k t e _ _ h := .ref (h _ (List.mem_singleton.2 rfl))
  list s us h hu := .list (h hu)
  set s us h hu := .set (h hu)
  dict k s us s' h hd hu := by
    rcases dictSchema_cases hd with rfl | ⟨_, rfl⟩ | ⟨_, _, names', _, _, _, rfl⟩
    · exact .dict (h hu)
    · exact .dictPattern (h hu)
    · refine .props ?_
      intro k x hx
      rw [(mem_foldl_upsert.1 hx).2]
      exact h hu
  union ps h hu := by
    refine .union ?_
    intro s hs
    obtain ⟨p, hp, rfl⟩ := List.mem_map.1 hs
    exact h p hp fun u hu' => hu u (List.mem_flatten.2 ⟨p.2, List.mem_map.2 ⟨p, hp, rfl⟩, hu'⟩)
  tuple n m ps h hu := by
    refine .tuple ?_
    intro s hs
    obtain ⟨p, hp, rfl⟩ := List.mem_map.1 hs
    exact h p hp fun u hu' => hu u (List.mem_flatten.2 ⟨p.2, List.mem_map.2 ⟨p, hp, rfl⟩, hu'⟩)
  name k b s us hk h hu := by
    obtain ⟨n, e, e', _, _, _, _, rfl, rfl⟩ := nameSchema_known hk h
    exact .ref (hu _ (List.mem_singleton.2 rfl))
  occurs cd hcd f hf hfw k b ho := hn.forward cd hcd f hf hfw k b ho
  str cd hcd f hf hs := by rw [hn.strings cd hcd f hf] at hs; cases hs
  dflt j s us _ h hu := .dflt (h hu)
  cls cd _ ps us req _ h _ hu := by
    refine .cls ?_
    intro k x hx
    obtain ⟨s, us', rfl, h1, h2⟩ := h k x hx
    exact h1 fun u hu' => hu u (h2 u hu')

end Verif
