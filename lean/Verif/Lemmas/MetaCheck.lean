import Verif.Spec.MetaAccept
/-!
# A check that a given schema is valid for the meta-schema
-/
namespace Verif

/-- The strings of a list. -/
def strItems : List Json → Option (List Str)
  | [] => some []
  | .str s :: r => (match strItems r with | some ss => some (s :: ss) | none => none)
  | _ :: _ => none

/-- The argument of a keyword has the shape that the meta-schema demands; `ok` lists strings that have a format.  Some kinds of
keywords that are never used are refused. -/
def shapeCheck (ok : List (Str × Str)) : MetaKind → Json → Bool
  | .any, _ => true
  | .string, .str _ => true
  | .formatted f, .str s => ok.contains (f, s)
  | .boolean, j => isJsonType c!"boolean" j == some true
  | .number, j => isJsonType c!"number" j == some true
  | .positive, j => isJsonType c!"number" j == some true && !Json.le j (.int 0)
  | .count, j => isJsonType c!"integer" j == some true && !Json.lt j (.int 0)
  | .array, .arr _ => true
  | .strings, .arr xs => (match strItems xs with | some ss => decide ss.Nodup | none => false)
  | .types, .str n => simpleTypeNames.contains n
  | .schema, _ => true
  | .schemas, .arr xs => !xs.isEmpty
  | .schemaMap, .obj _ => true
  | _, _ => false

/-- The schemas in the argument of a keyword. -/
def subSchemas : MetaKind → Json → List Json
  | .schema, j => [j]
  | .schemas, .arr xs => xs
  | .schemaMap, .obj kvs => kvs.map Prod.snd
  | _, _ => []

/-- The schema is valid for the meta-schema, for schemas nested to a depth of at most `fuel`. -/
def metaCheck (ok : List (Str × Str)) : Nat → Json → Bool
  | 0, _ => false
  | n + 1, j =>
    match j with
    | .bool _ => true
    | .obj kvs => metaKeywords.all fun kK => match lookupKey kK.1 kvs with
      | none => true
      | some a => shapeCheck ok kK.2 a && (subSchemas kK.2 a).all (metaCheck ok n)
    | _ => false

theorem strItems_some {xs : List Json} {ss : List Str} (h : strItems xs = some ss) : xs = ss.map Json.str := by
  induction xs generalizing ss with
  | nil => cases h; rfl
  | cons x xs ih =>
    cases x <;> simp only [strItems] at h <;> try (cases h; done)
    split at h
    · rename_i hs; cases h; rw [ih hs]; rfl
    · cases h

theorem shapeCheck_shape {fmt : Str → Str → Bool} {ok : List (Str × Str)} (hok : ∀ p ∈ ok, fmt p.1 p.2 = true) {K : MetaKind} {a : Json}
    (h : shapeCheck ok K a = true) : K.Shape fmt a ∧ ∀ j, SubSchema K a j → j ∈ subSchemas K a := by
  refine ⟨?_, fun j hj => ?_⟩
  · cases K
    case any => trivial
    case schema => trivial
    case boolean => simpa [shapeCheck, MetaKind.Shape] using h
    case number => simpa [shapeCheck, MetaKind.Shape] using h
    case positive => simpa [shapeCheck, MetaKind.Shape] using h
    case count => simpa [shapeCheck, MetaKind.Shape] using h
    all_goals cases a <;> try (cases h; done)
    case refine_1.string.str => exact ⟨_, rfl⟩
    case refine_1.formatted.str f s => exact ⟨s, rfl, hok (f, s) (by simpa [shapeCheck] using h)⟩
    case refine_1.array.arr => exact ⟨_, rfl⟩
    case refine_1.strings.arr xs =>
      simp only [shapeCheck] at h
      split at h
      · rename_i ss hs; exact ⟨ss, by rw [strItems_some hs], of_decide_eq_true h⟩
      · cases h
    case refine_1.types.str n => exact .inl ⟨n, by simpa [shapeCheck] using h, rfl⟩
    case refine_1.schemas.arr xs => exact ⟨xs, rfl, by simpa [shapeCheck] using h⟩
    case refine_1.schemaMap.obj kvs => exact ⟨kvs, rfl⟩
  · cases hj with
    | self => simp [subSchemas]
    | item hm => exact hm
    | member hm => exact List.mem_map_of_mem hm
    | patterned _ => cases h
    | dependent _ _ => cases h

theorem metaCheck_valid {fmt : Str → Str → Bool} {ok : List (Str × Str)} (hok : ∀ p ∈ ok, fmt p.1 p.2 = true) {n : Nat} {j : Json}
    (h : metaCheck ok n j = true) : MetaValid fmt j := by
  induction n generalizing j with
  | zero => cases h
  | succ n ih =>
    cases j <;> try (cases h; done)
    case bool b => exact .bool b
    case obj kvs =>
      simp only [metaCheck, List.all_eq_true] at h
      have key : ∀ k K a, (k, K) ∈ metaKeywords → lookupKey k kvs = some a →
          K.Shape fmt a ∧ ∀ j, SubSchema K a j → MetaValid fmt j := by
        intro k K a hk ha
        have h1 := h (k, K) hk
        simp only [ha, Bool.and_eq_true, List.all_eq_true] at h1
        obtain ⟨h2, h3⟩ := shapeCheck_shape hok h1.1
        exact ⟨h2, fun j hj => ih (h1.2 j (h3 j hj))⟩
      exact .obj (fun k K a hk ha => (key k K a hk ha).1) (fun k K a j hk ha hj => (key k K a hk ha).2 j hj)

/-- A document is made if what the generator has made is valid for the meta-schema. -/
theorem document_checked {fmt : Str → Str → Bool} {cfg : SchemaCfg} {env : Env} {cat : SchemaCatalog} {t : Ty} {s : Sch}
    {defs : List (Str × Sch)} (ok : List (Str × Str)) (hok : ∀ p ∈ ok, fmt p.1 p.2 = true) (hm : AcceptsValid fmt cfg)
    (h : classdefSchemas cfg env cat false t = .ok (s, defs))
    (hc : metaCheck ok 9 (.obj (updateSch (if defs.isEmpty then [] else [(c!"definitions", .obj (defs.map fun d => (d.1, .obj d.2)))]) s)) = true) :
    classdefToSchema cfg env cat t = .ok (updateSch [(c!"$schema", js metaSchemaId)]
      (updateSch (if defs.isEmpty then [] else [(c!"definitions", .obj (defs.map fun d => (d.1, .obj d.2)))]) s)) := by
  unfold classdefToSchema
  rw [h]
  dsimp only
  rw [if_pos (hm _ (metaCheck_valid hok hc))]

end Verif
