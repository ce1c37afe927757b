import Verif.Lemmas.ModuleBefore
import Verif.Props.C53_SchemaTypes
/-!
# C87: types made from a document do not depend on what was in the module before
-/
namespace Verif

/-- The names that a document leaves to the module decide: if they have the same types in two modules, the same type is made with the
same classes and enumerations; under these names and those of definitions there is the same type in both modules, and any other name
either has the same type in both or is as it was before. -/
theorem C87_types (cfg : BuildCfg) (name : Str) (schema : Json) (hw : schema.Wf) (env : Env) (p : List Ty) (A B : List (Str × Ty))
    (hf : ∀ n, FreeName schema n → lookupKey n A = lookupKey n B) (t : Ty) (st : BuildSt)
    (h : schemaToType cfg name schema ⟨env, A, p⟩ = .ok (t, st)) :
    ∃ st', schemaToType cfg name schema ⟨env, B, p⟩ = .ok (t, st') ∧ st'.env = st.env ∧ st'.patched = st.patched ∧
      (∀ n, FreeName schema n ∨ n ∈ (schemaDefs schema).map (·.1) → lookupKey n st'.attrs = lookupKey n st.attrs) ∧
      ∀ n, SameOrKept A B st.attrs st'.attrs n := by
  rcases sameRes_inv (schemaToType_same (cfg := cfg) (name := name) hw env p A B hf) with ⟨e, h1, h2⟩ | ⟨t', a, b, h1, h2, h3⟩
  · rw [h1] at h; cases h
  · rw [h1] at h
    cases h
    exact ⟨b, h2, h3.env.symm, h3.patched.symm, fun n hn => (h3.known n hn).symm, h3.others⟩

/-- If the names that a document leaves to the module have the same types in two modules, it fails with both for the same reason. -/
theorem C87_errors (cfg : BuildCfg) (name : Str) (schema : Json) (hw : schema.Wf) (env : Env) (p : List Ty) (A B : List (Str × Ty))
    (hf : ∀ n, FreeName schema n → lookupKey n A = lookupKey n B) (e : Err)
    (h : schemaToType cfg name schema ⟨env, A, p⟩ = .error e) : schemaToType cfg name schema ⟨env, B, p⟩ = .error e := by
  rcases sameRes_inv (schemaToType_same (cfg := cfg) (name := name) hw env p A B hf) with ⟨e, h1, h2⟩ | ⟨t', a, b, h1, h2, h3⟩
  · rw [h1] at h
    cases h
    exact h2
  · rw [h1] at h; cases h

theorem RefsBack.free {schema : Json} (h : RefsBack schema) {n : Str} (hn : FreeName schema n) : False := by
  rcases hn with ⟨pre, x, post, he, ⟨kvs, hk, hr⟩, hp⟩ | ⟨⟨kvs, hk, hr⟩, hp⟩
  · exact hp (h.definitions pre x post he kvs hk n hr)
  · exact hp (h.document kvs hk n hr)

/-- C87 in part: with the same program, and a module that has any other contents, the same type is made with the same classes and
enumerations, or there is the same error.  Missing: documents with references to definitions that follow, or to names that are not
those of definitions, for which the statement is violated (see below). -/
theorem C87_any_module_partial (cfg : BuildCfg) (name : Str) (schema : Json) (hw : schema.Wf) (hr : RefsBack schema) (env : Env)
    (p : List Ty) (A B : List (Str × Ty)) :
    (∀ t st, schemaToType cfg name schema ⟨env, A, p⟩ = .ok (t, st) →
      ∃ st', schemaToType cfg name schema ⟨env, B, p⟩ = .ok (t, st') ∧ st'.env = st.env ∧ st'.patched = st.patched ∧
        ∀ x ∈ schemaDefs schema, lookupKey x.1 st'.attrs = lookupKey x.1 st.attrs) ∧
      ∀ e, schemaToType cfg name schema ⟨env, A, p⟩ = .error e → schemaToType cfg name schema ⟨env, B, p⟩ = .error e := by
  refine ⟨fun t st h => ?_, fun e h => C87_errors cfg name schema hw env p A B (fun n hn => (hr.free hn).elim) e h⟩
  obtain ⟨st', h1, h2, h3, h4, -⟩ := C87_types cfg name schema hw env p A B (fun n hn => (hr.free hn).elim) t st h
  exact ⟨st', h1, h2, h3, fun x hx => h4 _ (.inr (List.mem_map_of_mem hx))⟩

/-! ### The full statement -/

/-- The type and the program do not depend on the contents of the module. -/
def C87_statement (cfg : BuildCfg) : Prop :=
  ∀ name schema env p A B t st, schema.Wf → schemaToType cfg name schema ⟨env, A, p⟩ = .ok (t, st) →
    ∃ st', schemaToType cfg name schema ⟨env, B, p⟩ = .ok (t, st') ∧ st'.env = st.env

/-- A definition `A` that refers to the definition `B`, which follows. -/
def forwardSchema : Json :=
  topSchema [(c!"a", refTo c!"A")] [c!"a"]
    [(c!"A", .obj (objSchema [(c!"b", refTo c!"B")] [c!"b"])), (c!"B", .obj (objSchema [(c!"x", typed c!"integer")] [c!"x"]))]

/-- A program in which the module has a class `B` from before. -/
def beforeEnv : Env :=
  { enums := [], setOrder := id,
    classes := [{ module := c!"m", name := c!"B", kind := .dataclass false, fields := [{ name := c!"y", ty := .str }] }] }

/-- A reference to a definition that follows is to what had that name in the module before: the field of `A` is of the old class `B`,
although the new class is then found under this name. -/
theorem C87_stale_fails : forwardSchema.Wf ∧ ∃ t st cd, schemaToType cfg53 c!"T" forwardSchema ⟨beforeEnv, [(c!"B", .cls 0)], []⟩ = .ok (t, st) ∧
    st.env.classes[1]? = some cd ∧ cd.name = c!"A" ∧ cd.fields.map (·.name) = [c!"b"] ∧ cd.fields.map (·.ty) = [.cls 0] ∧
    (st.env.classes[0]?).map (·.fields.map (·.name)) = some [c!"y"] ∧
    lookupKey c!"B" st.attrs = some (.cls 2) ∧ (st.env.classes[2]?).map (·.fields.map (·.name)) = some [c!"x"] :=
  ⟨wf_of (by decide +kernel), _, _, _, by with_unfolding_all rfl, rfl, rfl, rfl, rfl, rfl, rfl, rfl⟩

/-- The same document is not accepted with a module that does not have the name. -/
theorem C87_missing_fails : schemaToType cfg53 c!"T" forwardSchema ⟨beforeEnv, [], []⟩ = .error .attribute := by
  with_unfolding_all rfl

/-- The full statement fails. -/
theorem C87_violated : ¬ C87_statement cfg53 := by
  intro h
  obtain ⟨hw, t, st, -, h1, -⟩ := C87_stale_fails
  obtain ⟨st', h2, -⟩ := h _ _ _ _ _ [] _ _ hw h1
  rw [C87_missing_fails] at h2
  cases h2

/-! ### A concrete case -/

/-- The document with the definitions in the other order. -/
def backwardSchema : Json :=
  topSchema [(c!"a", refTo c!"A")] [c!"a"]
    [(c!"B", .obj (objSchema [(c!"x", typed c!"integer")] [c!"x"])), (c!"A", .obj (objSchema [(c!"b", refTo c!"B")] [c!"b"]))]

/-- References among the given strings. -/
def refIn (names : List Str) (kvs : List (Str × Json)) : Bool :=
  match lookupKey c!"$ref" kvs with
  | some (.str r) => names.any fun n => r = defRef n
  | _ => true

theorem refsTo_of {names : List Str} {K : Str → Prop} {s : Json} (h : everyObject (refIn names) s = true)
    (hk : ∀ n ∈ names, K n ∧ n.getLast? ≠ some '\n') : RefsTo K s := by
  intro kvs hs n hn
  have := everyObject_within hs h
  rcases hn with hn | hn
  · rw [refIn, hn] at this
    simp only [List.any_eq_true, decide_eq_true_eq] at this
    obtain ⟨m, hm, he⟩ := this
    rw [List.append_cancel_left he]
    exact (hk m hm).1
  · rw [refIn, hn] at this
    simp only [List.any_eq_true, decide_eq_true_eq] at this
    obtain ⟨m, hm, he⟩ := this
    have := (hk m hm).2
    rw [← List.append_cancel_left he] at this
    simp at this

theorem backward_refs : RefsBack backwardSchema where
  definitions := by
    intro pre x post he
    have he : [(c!"B", Json.obj (objSchema [(c!"x", typed c!"integer")] [c!"x"])),
      (c!"A", .obj (objSchema [(c!"b", refTo c!"B")] [c!"b"]))] = pre ++ x :: post := he
    match pre, he with
    | [], he => cases he; exact refsTo_of (names := []) (by decide +kernel) (fun n hn => by cases hn)
    | [_], he => cases he; exact refsTo_of (names := [c!"B"]) (by decide +kernel) (by decide)
    | _ :: _ :: pre, he => have := congrArg List.length he; simp at this
  document := refsTo_of (names := [c!"A", c!"B"]) (by decide +kernel) (by decide)

/-- The hypotheses are met: with the old class `B` in the module the same classes are made as without it. -/
example : ∃ t st st', schemaToType cfg53 c!"T" backwardSchema ⟨beforeEnv, [], []⟩ = .ok (t, st) ∧
    schemaToType cfg53 c!"T" backwardSchema ⟨beforeEnv, [(c!"B", .cls 0)], []⟩ = .ok (t, st') ∧ st'.env = st.env ∧
    lookupKey c!"B" st'.attrs = some (.cls 1) := by
  obtain ⟨t, st, h, hb⟩ : ∃ t st, schemaToType cfg53 c!"T" backwardSchema ⟨beforeEnv, [], []⟩ = .ok (t, st) ∧
    lookupKey c!"B" st.attrs = some (.cls 1) := ⟨_, _, by with_unfolding_all rfl, rfl⟩
  obtain ⟨st', h1, h2, -, h3⟩ := (C87_any_module_partial cfg53 c!"T" backwardSchema (wf_of (by decide +kernel)) backward_refs beforeEnv []
    [] [(c!"B", .cls 0)]).1 t st h
  exact ⟨t, st, st', h, h1, h2, (h3 _ (.head _)).trans hb⟩

theorem forward_free {n : Str} (hn : FreeName forwardSchema n) : n = c!"B" := by
  rcases hn with ⟨pre, x, post, he, ⟨kvs, hk, hr⟩, hp⟩ | ⟨⟨kvs, hk, hr⟩, hp⟩
  · have he : [(c!"A", Json.obj (objSchema [(c!"b", refTo c!"B")] [c!"b"])),
      (c!"B", .obj (objSchema [(c!"x", typed c!"integer")] [c!"x"]))] = pre ++ x :: post := he
    match pre, he with
    | [], he => cases he; exact refsTo_of (K := (· = c!"B")) (names := [c!"B"]) (by decide +kernel) (by decide) kvs hk n hr
    | [_], he => cases he; exact (refsTo_of (K := fun _ => False) (names := []) (by decide +kernel) (fun n hn => by cases hn) kvs hk n hr).elim
    | _ :: _ :: pre, he => have := congrArg List.length he; simp at this
  · exact (hp (refsTo_of (K := (· ∈ (schemaDefs forwardSchema).map (·.1))) (names := [c!"A", c!"B"]) (by decide +kernel) (by decide)
      kvs hk n hr)).elim

/-- The hypotheses are met by a document that leaves the name `B` to the module: any two modules with the old class under this name. -/
example (more : List (Str × Ty)) : ∃ t st st', schemaToType cfg53 c!"T" forwardSchema ⟨beforeEnv, [(c!"B", .cls 0)], []⟩ = .ok (t, st) ∧
    schemaToType cfg53 c!"T" forwardSchema ⟨beforeEnv, (c!"B", .cls 0) :: more, []⟩ = .ok (t, st') ∧ st'.env = st.env := by
  obtain ⟨-, t, st, -, h, -⟩ := C87_stale_fails
  obtain ⟨st', h1, h2, -⟩ := C87_types cfg53 c!"T" forwardSchema (wf_of (by decide +kernel)) beforeEnv [] [(c!"B", .cls 0)]
    ((c!"B", .cls 0) :: more) (fun n hn => by rw [forward_free hn]; rfl) t st h
  exact ⟨t, st, st', h, h1, h2⟩

/-- A name with a null character is not accepted, whatever is in the module. -/
example (B : List (Str × Ty)) : schemaToType cfg53 [Char.ofNat 0] backwardSchema ⟨beforeEnv, B, []⟩ = .error .valueError :=
  (C87_any_module_partial cfg53 _ backwardSchema (wf_of (by decide +kernel)) backward_refs beforeEnv [] [] B).2 _ (by with_unfolding_all rfl)

end Verif
