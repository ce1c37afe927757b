import Verif.Spec.Expressible
import Verif.Lemmas.SchemaWf
/-!
# Generated schemas are schemas
-/
namespace Verif

variable {fmt : Str → Str → Bool} {cfg : SchemaCfg} {env : Env} {cat : SchemaCatalog} {cls : Nat → SchRes Sch}

/-- The argument of the keyword is as the meta-schema says. -/
def MetaArg (fmt : Str → Str → Bool) (k : Str) (a : Json) : Prop :=
  ∀ K, (k, K) ∈ metaKeywords → K.Shape fmt a ∧ ∀ j, SubSchema K a j → MetaValid fmt j

/-- All arguments are as the meta-schema says. -/
def MetaArgs (fmt : Str → Str → Bool) (s : Sch) : Prop := ∀ kv ∈ s, MetaArg fmt kv.1 kv.2

theorem MetaArgs.valid {s : Sch} (h : MetaArgs fmt s) : MetaValid fmt (.obj s) :=
  .obj (fun k K a hk ha => (h (k, a) (lookupKey_some_mem ha) K hk).1)
    (fun k K a j hk ha hj => (h (k, a) (lookupKey_some_mem ha) K hk).2 j hj)

theorem MetaArgs.of_valid {s : Sch} (hn : (s.map Prod.fst).Nodup) (h : MetaValid fmt (.obj s)) : MetaArgs fmt s := by
  rintro ⟨k, a⟩ hka K hk
  cases h with
  | obj h1 h2 => exact ⟨h1 k K a hk (lookupKey_of_mem hn hka), fun j hj => h2 k K a j hk (lookupKey_of_mem hn hka) hj⟩

theorem metaKeywords_nodup : (metaKeywords.map Prod.fst).Nodup := by decide +kernel

theorem metaArg_of {k : Str} {K : MetaKind} {a : Json} (hk : lookupKey k metaKeywords = some K) (h : K.Shape fmt a)
    (h' : ∀ j, SubSchema K a j → MetaValid fmt j) : MetaArg fmt k a := by
  intro K' hK'
  rw [lookupKey_of_mem metaKeywords_nodup hK'] at hk
  cases hk
  exact ⟨h, h'⟩

theorem metaArg_none {k : Str} {a : Json} (hk : lookupKey k metaKeywords = none) : MetaArg fmt k a := by
  intro K hK
  rw [lookupKey_of_mem metaKeywords_nodup hK] at hk
  cases hk

theorem metaArg_type {n : Str} (h : n ∈ simpleTypeNames) : MetaArg fmt c!"type" (.str n) :=
  metaArg_of (K := .types) rfl (Or.inl ⟨n, h, rfl⟩) (fun _ h => by cases h)

theorem metaArg_string {k s : Str} (hk : lookupKey k metaKeywords = some .string) : MetaArg fmt k (.str s) :=
  metaArg_of hk ⟨s, rfl⟩ (fun _ h => by cases h)

theorem metaArg_formatted {k f s : Str} (hk : lookupKey k metaKeywords = some (.formatted f)) (h : fmt f s = true) :
    MetaArg fmt k (.str s) := metaArg_of hk ⟨s, rfl, h⟩ (fun _ h => by cases h)

theorem metaArg_any {k : Str} {a : Json} (hk : lookupKey k metaKeywords = some .any) : MetaArg fmt k a :=
  metaArg_of hk trivial (fun _ h => by cases h)

theorem metaArg_array {k : Str} {xs : List Json} (hk : lookupKey k metaKeywords = some .array) : MetaArg fmt k (.arr xs) :=
  metaArg_of hk ⟨xs, rfl⟩ (fun _ h => by cases h)

theorem metaArg_number {k : Str} {a : Json} (hk : lookupKey k metaKeywords = some .number)
    (h : isJsonType c!"number" a = some true) : MetaArg fmt k a := metaArg_of hk h (fun _ h => by cases h)

theorem metaArg_boolean {k : Str} {b : Bool} (hk : lookupKey k metaKeywords = some .boolean) : MetaArg fmt k (.bool b) :=
  metaArg_of hk rfl (fun _ h => by cases h)

theorem metaArg_count {k : Str} {n : Nat} (hk : lookupKey k metaKeywords = some .count) : MetaArg fmt k (.int n) :=
  metaArg_of hk ⟨rfl, by simp [Json.lt, Json.num]⟩ (fun _ h => by cases h)

theorem metaArg_schema {k : Str} {a : Json} (hk : lookupKey k metaKeywords = some .schema) (h : MetaValid fmt a) :
    MetaArg fmt k a := metaArg_of hk trivial (fun _ hj => by cases hj; exact h)

theorem metaArg_schemas {k : Str} {xs : List Json} (hk : lookupKey k metaKeywords = some .schemas) (hne : xs ≠ [])
    (h : ∀ x ∈ xs, MetaValid fmt x) : MetaArg fmt k (.arr xs) :=
  metaArg_of hk ⟨xs, rfl, hne⟩ (fun _ hj => by cases hj with | item hj => exact h _ hj)

theorem metaArg_schemaMap {k : Str} {kvs : List (Str × Json)} (hk : lookupKey k metaKeywords = some .schemaMap)
    (h : ∀ kv ∈ kvs, MetaValid fmt kv.2) : MetaArg fmt k (.obj kvs) :=
  metaArg_of hk ⟨kvs, rfl⟩ (fun _ hj => by cases hj with | member hj => exact h _ hj)

theorem metaArg_strings {k : Str} {ss : List Str} (hk : lookupKey k metaKeywords = some .strings) (h : ss.Nodup) :
    MetaArg fmt k (.arr (ss.map Json.str)) := metaArg_of hk ⟨ss, rfl, h⟩ (fun _ h => by cases h)

theorem MetaArgs.upsert {s : Sch} {k : Str} {a : Json} (hs : MetaArgs fmt s) (ha : MetaArg fmt k a) :
    MetaArgs fmt (Verif.upsert k a s) := by
  intro kv hkv
  rcases upsert_mem hkv with rfl | h
  · exact ha
  · exact hs kv h

theorem MetaArgs.update : ∀ {o s : Sch}, MetaArgs fmt s → MetaArgs fmt o → MetaArgs fmt (updateSch s o) := by
  intro o
  induction o with
  | nil => intro s h _; exact h
  | cons kv o ih =>
    intro s h ho
    exact ih (h.upsert (ho kv (by simp))) fun kv hkv => ho kv (by simp [hkv])

theorem MetaArgs.nil : MetaArgs fmt [] := by intro kv h; cases h

theorem MetaArgs.cons {k : Str} {a : Json} {s : Sch} (h : MetaArg fmt k a) (hs : MetaArgs fmt s) : MetaArgs fmt ((k, a) :: s) := by
  intro kv hkv
  rcases List.mem_cons.1 hkv with rfl | hkv
  · exact h
  · exact hs kv hkv

theorem MetaArgs.append {s s' : Sch} (h : MetaArgs fmt s) (h' : MetaArgs fmt s') : MetaArgs fmt (s ++ s') := by
  intro kv hkv
  rcases List.mem_append.1 hkv with hkv | hkv
  · exact h kv hkv
  · exact h' kv hkv

/-! ### The parts of the generator -/

theorem simpleSchema_args {t : Ty} {s : Sch} (h : simpleSchema t = some s) : MetaArgs fmt s := by
  unfold simpleSchema at h
  split at h <;> cases h <;>
    first
    | exact .cons (metaArg_type (by decide)) .nil
    | exact .cons (metaArg_type (by decide)) (.cons (metaArg_string rfl) .nil)

theorem powTen_number (cfg : SchemaCfg) (n : Int) : isJsonType c!"number" (powTen cfg n) = some true := by
  unfold powTen
  split <;> rfl

theorem negNum_number {j : Json} (h : isJsonType c!"number" j = some true) : isJsonType c!"number" (negNum j) = some true := by
  unfold negNum
  split <;> first | rfl | exact h

theorem metaSchema_args {m : Meta} (h : m.Expressible cfg) : MetaArgs fmt (metaSchema cfg m) := by
  unfold metaSchema
  split
  · exact .cons (metaArg_number rfl rfl) (.cons (metaArg_number rfl rfl) .nil)
  · rename_i s d
    refine .cons (metaArg_of (K := .positive) rfl ⟨powTen_number _ _, ?_⟩ (fun _ h => by cases h))
      (.cons (metaArg_number rfl (negNum_number (powTen_number _ _))) (.cons (metaArg_number rfl (powTen_number _ _)) .nil))
    unfold powTen
    cases d with
    | zero => rfl
    | succ d =>
      rw [if_neg (by omega)]
      have : (-(-(((d + 1 : Nat)) : Int))).toNat = d + 1 := by omega
      rw [this]
      exact h s (d + 1) rfl (by omega)
  · exact .cons (metaArg_count rfl) .nil
  · exact .cons (metaArg_count rfl) .nil
  · exact .nil

theorem withMeta_args : ∀ (ms : List Meta) (s : Sch), MetaArgs fmt s → (∀ m ∈ ms, m.Expressible cfg) →
    MetaArgs fmt (withMeta cfg s ms) := by
  intro ms
  induction ms with
  | nil => intro s h _; exact h
  | cons m ms ih =>
    intro s h hm
    exact ih _ (h.update (metaSchema_args (hm m (by simp)))) fun m h => hm m (by simp [h])

theorem typeName_simple (s : Scalar) : scalarTypeName s ∈ simpleTypeNames := by cases s <;> (simp only [scalarTypeName]; decide)

theorem enumSchema_args {e : Nat} {s : Sch} (h : enumSchema env e = .ok s) : MetaArgs fmt s := by
  unfold enumSchema at h
  split at h
  · cases h
  · split at h
    · split at h
      · cases h; exact .cons (metaArg_type (by decide)) .nil
      · cases h; exact .cons (metaArg_type (typeName_simple _)) (.cons (metaArg_array rfl) .nil)
      · cases h
    · cases h

theorem litSchema_args {l : Lit} {s : Sch} (h : litSchema l = .ok s) : MetaArgs fmt s := by
  unfold litSchema at h
  split at h
  · cases h
  · cases h; exact .cons (metaArg_type (typeName_simple _)) (.cons (metaArg_any rfl) .nil)

theorem dictSchema_args {k : KeyTy} {s s' : Sch} (hs : MetaArgs fmt s) (hk : k.Expressible fmt env)
    (h : dictSchema env k s = .ok s') : MetaArgs fmt s' := by
  unfold dictSchema at h
  split at h
  · rename_i e
    split at h
    · cases h
    · rename_i ed hed
      split at h
      · cases h
      · rename_i names hn
        split at h
        · rename_i hl
          cases h
          refine .cons (metaArg_type (by decide)) (.cons (metaArg_schema rfl (MetaArgs.valid ?_))
            (.cons (metaArg_schema rfl hs.valid) .nil))
          exact .cons (metaArg_formatted (f := c!"regex") rfl (hk e ed names rfl hed hn hl)) .nil
        · cases h
          refine .cons (metaArg_type (by decide)) (.cons (metaArg_schemaMap rfl ?_) (.cons (metaArg_schema rfl (.bool _)) .nil))
          rintro ⟨n, y⟩ hkv
          obtain ⟨_, rfl⟩ := mem_foldl_upsert.1 hkv
          exact hs.valid
  · cases h
    exact .cons (metaArg_type (by decide)) (.cons (metaArg_schema rfl hs.valid) .nil)

theorem refSch_args {n : Str} (h : fmt c!"uri-reference" (cfg.definitionsPath ++ n) = true) : MetaArgs fmt (refSch cfg n) :=
  .cons (metaArg_formatted rfl h) .nil

variable (hprog : ExpressibleProgram fmt cfg env cat)

section
include hprog

theorem nameSchema_args {skip : Bool} {k : RegKey} {s : Sch} {us : List TypeUse}
    (h : nameSchema cfg env cat skip k = .ok (s, us)) : MetaArgs fmt s := by
  unfold nameSchema at h
  split at h
  · cases h
  · rename_i n hn
    split at h
    · rename_i entry he
      cases h
      refine refSch_args (hprog.references _ (Or.inr (Or.inr (Or.inr ⟨.fwd n, entry, ?_, rfl⟩))))
      cases skip with
      | true => cases he
      | false => simp only [Bool.false_eq_true, if_false] at he; simp only [Catalog.get, he]
    · cases h
      refine refSch_args (hprog.references _ ?_)
      cases k with
      | enum e =>
        simp only [RegKey.typeName] at hn
        split at hn
        · rename_i ed hed; cases hn; exact Or.inr (Or.inl ⟨ed, List.mem_of_getElem? hed, rfl⟩)
        · cases hn
      | cls c =>
        simp only [RegKey.typeName] at hn
        split at hn
        · rename_i cd hcd; cases hn; exact Or.inl ⟨cd, List.mem_of_getElem? hcd, rfl⟩
        · cases hn

theorem strSchema_args {t : Ty} {s : Sch} {us : List TypeUse} (h : strSchema cfg env t = .ok (s, us)) : MetaArgs fmt s := by
  unfold strSchema at h
  split at h
  · split at h
    · cases h
    · rename_i cd hcd; cases h; exact refSch_args (hprog.references _ (Or.inl ⟨cd, List.mem_of_getElem? hcd, rfl⟩))
  · split at h
    · cases h
    · rename_i ed hed; cases h; exact refSch_args (hprog.references _ (Or.inr (Or.inl ⟨ed, List.mem_of_getElem? hed, rfl⟩)))
  · cases h; exact refSch_args (hprog.references _ (Or.inr (Or.inr (Or.inl (by simp)))))
  · cases h; exact refSch_args (hprog.references _ (Or.inr (Or.inr (Or.inl (by simp)))))
  · cases h; exact refSch_args (hprog.references _ (Or.inr (Or.inr (Or.inl (by simp)))))
  · cases h; exact refSch_args (hprog.references _ (Or.inr (Or.inr (Or.inl (by simp)))))
  · cases h; exact refSch_args (hprog.references _ (Or.inr (Or.inr (Or.inl (by simp)))))
  · cases h

theorem lookupRef_args {skip : Bool} {k : RegKey} {entry : CatEntry Sch (List Json)}
    (h : (if skip then Option.none else lookupKey k cat.byType) = some entry) : MetaArgs fmt (refSch cfg entry.identifier) := by
  refine refSch_args (hprog.references _ (Or.inr (Or.inr (Or.inr ⟨.ty k, entry, ?_, rfl⟩))))
  cases skip with
  | true => cases h
  | false => simp only [Bool.false_eq_true, if_false] at h; simp only [Catalog.get, h]

end

theorem tySchemas_valid {fwd skip : Bool} {ts : List Ty} {ss : List Sch} {us : List TypeUse}
    (h : tySchemas cfg env cat cls fwd skip ts = .ok (ss, us))
    (ih : ∀ t ∈ ts, ∀ skip s us, tySchema cfg env cat cls fwd skip t = .ok (s, us) → MetaArgs fmt s) :
    (∀ x ∈ ss.map Json.obj, MetaValid fmt x) ∧ (ts ≠ [] → ss.map Json.obj ≠ []) := by
  obtain ⟨h1, h2, -⟩ := tySchemas_ok h
  constructor
  · intro x hx
    obtain ⟨s, hs, rfl⟩ := List.mem_map.1 hx
    obtain ⟨i, hi⟩ := List.getElem?_of_mem hs
    have hlt : i < ts.length := by
      rw [← h1]
      exact (List.getElem?_eq_some_iff.1 hi).1
    obtain ⟨us', h3, -⟩ := h2 i ts[i] s (List.getElem?_eq_getElem hlt) hi
    exact (ih _ (List.getElem_mem hlt) _ _ _ h3).valid
  · intro hne h0
    rw [List.map_eq_nil_iff] at h0
    rw [h0] at h1
    exact hne (List.length_eq_zero_iff.1 h1.symm)

include hprog in
theorem tySchema_args {fwd : Bool} (hcls : ∀ c s us, cls c = .ok (s, us) → MetaArgs fmt s) {t : Ty}
    (ht : t.Expressible fmt cfg env) : ∀ skip s us, tySchema cfg env cat cls fwd skip t = .ok (s, us) → MetaArgs fmt s := by
  induction ht with
  | @leaf t h =>
    intro skip s us hs
    simp only [scalarTys, List.mem_cons, List.not_mem_nil, or_false] at h
    rcases h with (rfl | rfl | rfl | rfl | rfl | rfl | rfl | rfl | rfl | rfl | rfl | rfl | rfl) | rfl | rfl | rfl | rfl <;>
      simp only [tySchema, simpleSchema] at hs <;> cases hs <;>
      first
      | exact .cons (metaArg_type (by decide)) .nil
      | exact .cons (metaArg_type (by decide)) (.cons (metaArg_string rfl) .nil)
  | enum e =>
    intro skip s us hs
    simp only [tySchema] at hs
    split at hs
    · exact nameSchema_args hprog hs
    · split at hs
      · rename_i he; cases hs; exact lookupRef_args hprog he
      · split at hs
        · cases hs
        · rename_i h; cases hs; exact enumSchema_args h
  | cls c =>
    intro skip s us hs
    simp only [tySchema] at hs
    split at hs
    · exact nameSchema_args hprog hs
    · split at hs
      · rename_i he; cases hs; exact lookupRef_args hprog he
      · exact hcls _ _ _ hs
  | literal ls =>
    intro skip s us hs
    simp only [tySchema] at hs
    split at hs
    · split at hs
      · cases hs
      · rename_i h; cases hs; exact litSchema_args h
    · cases hs
  | list _ ih =>
    intro skip s us hs
    simp only [tySchema] at hs
    obtain ⟨s0, h1, h2⟩ := SchRes.map_ok.1 hs
    cases h2
    exact .cons (metaArg_type (by decide)) (.cons (metaArg_schema rfl (ih _ _ _ h1).valid) .nil)
  | set _ ih =>
    intro skip s us hs
    simp only [tySchema] at hs
    obtain ⟨s0, h1, h2⟩ := SchRes.map_ok.1 hs
    cases h2
    exact .cons (metaArg_type (by decide)) (.cons (metaArg_schema rfl (ih _ _ _ h1).valid) (.cons (metaArg_boolean rfl) .nil))
  | dict hk _ ih =>
    intro skip s us hs
    simp only [tySchema] at hs
    replace hs := (ite_error_ok.1 hs).2
    obtain ⟨s0, h1, h2⟩ := SchRes.map_ok.1 hs
    exact dictSchema_args (ih _ _ _ h1) hk h2
  | tuple hne _ ih =>
    intro skip s us hs
    simp only [tySchema] at hs
    obtain ⟨ss, h1, h2⟩ := SchRes.map_ok.1 hs
    cases h2
    obtain ⟨h3, h4⟩ := tySchemas_valid h1 ih
    exact .cons (metaArg_type (by decide)) (.cons (metaArg_count rfl) (.cons (metaArg_count rfl)
      (.cons (metaArg_schemas rfl (h4 hne) h3) .nil)))
  | union hne _ ih =>
    intro skip s us hs
    simp only [tySchema] at hs
    split at hs
    · obtain ⟨ss, h1, h2⟩ := SchRes.map_ok.1 hs
      cases h2
      obtain ⟨h3, h4⟩ := tySchemas_valid h1 ih
      exact .cons (metaArg_schemas rfl (h4 hne) h3) .nil
    · cases hs
  | annotated hm _ ih =>
    intro skip s us hs
    simp only [tySchema] at hs
    split at hs
    · rename_i s0 h0
      split at hs
      · cases hs; exact (simpleSchema_args h0).upsert (metaArg_string rfl)
      · cases hs; exact withMeta_args _ _ (simpleSchema_args h0) hm
    · exact ih _ _ _ hs

theorem classSchema_args {ps : List (Str × Json)} {req : List Str} (hp : ∀ kv ∈ ps, MetaValid fmt kv.2) (hr : req.Nodup) :
    MetaArgs fmt (classSchema ps req) := by
  unfold classSchema
  refine ((MetaArgs.cons (metaArg_type (by decide)) .nil).append ?_).append ?_
  · split
    · exact .nil
    · exact .cons (metaArg_schemaMap rfl hp) (.cons (metaArg_schema rfl (.bool _)) .nil)
  · split
    · exact .nil
    · exact .cons (metaArg_strings rfl hr) .nil

include hprog in
theorem clsSchema_args : ∀ n c s us, clsSchema cfg env cat n c = .ok (s, us) → MetaArgs fmt s := by
  intro n
  induction n with
  | zero => intro c s us h; cases h
  | succ n ih =>
    intro c s us h
    cases hc : env.classes[c]? with
    | none => simp only [clsSchema, hc] at h; cases h
    | some cd =>
      obtain ⟨ps, h1, rfl⟩ := clsSchema_ok hc h
      have hcd := List.mem_of_getElem? hc
      obtain ⟨a1, -, a3, -, -⟩ := propSchemas_ok h1
      have hnd := a3 (by simp)
      refine classSchema_args ?_ (((List.filter_sublist).map _).nodup (hprog.names cd hcd))
      rintro ⟨k, x⟩ hkx
      rcases a1 k x (lookupKey_of_mem hnd hkx) with h | ⟨f, hf, _, s, us', h2, rfl, -⟩
      · cases h
      · unfold propSchema at h2
        rw [SchRes.map_ok] at h2
        obtain ⟨s0, h3, h4⟩ := h2
        have h5 : MetaArgs fmt s0 := by
          split at h3
          · exact strSchema_args hprog h3
          · exact tySchema_args hprog ih (hprog.types cd hcd f hf) _ _ _ h3
        rcases withDefault_ok h4 with rfl | ⟨j, _, rfl⟩
        · exact h5.valid
        · exact (h5.upsert (metaArg_any rfl)).valid

include hprog in
theorem typeToSchema_args {t : Ty} (ht : t.Expressible fmt cfg env) {force : Bool} {s : Sch} {us : List TypeUse}
    (h : typeToSchema cfg env cat force t = .ok (s, us)) : MetaArgs fmt s :=
  tySchema_args hprog (clsSchema_args hprog _) ht _ _ _ h

include hprog in
theorem schemaWithLookup_args {t : UseTy} {s : Sch} {us : List TypeUse} (h : schemaWithLookup cfg env cat t = .ok (s, us)) :
    MetaArgs fmt s := by
  unfold schemaWithLookup at h
  split at h
  · cases h
  · rename_i r hr
    split at h
    · cases h
    · rename_i entry he
      rw [SchRes.map_ok] at h
      obtain ⟨s0, h1, h2⟩ := h
      have h3 : MetaArgs fmt s0 := by
        unfold entrySchema at h1
        split at h1
        · cases t with
          | fwd n => cases h1
          | ty t =>
            refine typeToSchema_args hprog ?_ h1
            cases t with
            | enum e => exact .enum e
            | cls c => exact .cls c
            | _ => cases hr
        · rename_i hs
          cases h1
          obtain ⟨h4, h5⟩ := hprog.catalog r entry _ he hs
          exact .of_valid h5 h4
      cases h2
      unfold withExamples
      split
      · split
        · exact h3.upsert (metaArg_array rfl)
        · exact h3
      · exact h3

/-- The schema with definitions, before `"$schema"` is added. -/
def documentBody (s : Sch) (defs : List (Str × Sch)) : Sch :=
  updateSch (if defs.isEmpty then [] else [(c!"definitions", .obj (defs.map fun d => (d.1, .obj d.2)))]) s

include hprog in
theorem classdefSchemas_args {t : Ty} (ht : t.Expressible fmt cfg env) {s : Sch} {defs : List (Str × Sch)} {force : Bool}
    (h : classdefSchemas cfg env cat force t = .ok (s, defs)) : MetaArgs fmt (documentBody s defs) := by
  unfold classdefSchemas at h
  split at h
  · cases h
  · rename_i s0 us h1
    split at h
    · cases h
    · rename_i defs0 h2
      cases h
      obtain ⟨used, -, h4, -⟩ := defineLoop_rec (cfg := cfg) (env := env) (cat := cat)
        (P := fun _ defined => ∀ d ∈ defined, MetaArgs fmt d.2)
        (by
          intro n t used defined s us _ hp _ _ _ hl d hd
          rcases upsert_mem hd with rfl | hd
          · exact schemaWithLookup_args hprog hl
          · exact hp d hd)
        _ _ _ _ ⟨(addUses_spec us []).2.1 (by simp), by simp, by simp⟩ (by simp) h2
      unfold documentBody
      refine MetaArgs.update ?_ (typeToSchema_args hprog ht h1)
      split
      · exact .nil
      · refine .cons (metaArg_schemaMap rfl ?_) .nil
        intro kv hkv
        obtain ⟨d, hd, rfl⟩ := List.mem_map.1 hkv
        exact (h4 d (mem_sortByName.1 hd)).valid

end Verif
