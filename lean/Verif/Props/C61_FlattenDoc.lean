import Verif.Lemmas.FlattenDoc
/-!
# C61: `flatten_schema` from document to document

C37 is about the tree of nodes.  Here the schema is a document: it is read into objects of the data classes of classdef.py,
flattened, and written.  `docNode` shows a document as a tree.
-/
namespace Verif

theorem flattenSchema_ok {o : FlatOpts} {j j' : Json} (h : flattenSchema o j = .ok j') :
    ∃ v, loads schemaEnv false (.cls nTop) j = .ok v ∧ HasTy schemaEnv v (.cls nTop) ∧
      HasTy schemaEnv (flattenVal o v) (.cls nTop) ∧ j' = writtenDoc (flattenVal o v) ∧ docNode j' = flatten o (valNode v) := by
  unfold flattenSchema at h
  cases hl : loads schemaEnv false (.cls nTop) j with
  | error e => rw [hl] at h; cases h
  | ok v =>
    rw [hl] at h
    have hv := C12_type_safe schemaEnv schemaEnv_ok schemaEnv_typed false _ j v hl
    obtain ⟨h1, h2⟩ := flattenVal_node o v nTop (.inr rfl) hv
    simp only at h
    rw [node_written (.cls (by decide)) h1] at h
    cases h
    exact ⟨v, rfl, hv, h1, rfl, h2⟩

/-- C61: flattening succeeds exactly if the document can be read as a `JsonSchemaTopLevelObject`, and fails with the error of
reading it. -/
theorem C61_succeeds_iff (o : FlatOpts) (j : Json) :
    ((∃ j', flattenSchema o j = .ok j') ↔ ∃ v, loads schemaEnv false (.cls nTop) j = .ok v) ∧
      ∀ e, flattenSchema o j = .error e ↔ loads schemaEnv false (.cls nTop) j = .error e := by
  have key : ∀ v, loads schemaEnv false (.cls nTop) j = .ok v → ∃ j', flattenSchema o j = .ok j' := by
    intro v hl
    have hv := C12_type_safe schemaEnv schemaEnv_ok schemaEnv_typed false _ j v hl
    obtain ⟨h1, _⟩ := flattenVal_node o v nTop (.inr rfl) hv
    exact ⟨_, by unfold flattenSchema; rw [hl]; exact node_written (.cls (by decide)) h1⟩
  refine ⟨⟨fun ⟨j', h⟩ => ?_, fun ⟨v, h⟩ => key v h⟩, fun e => ⟨fun h => ?_, fun h => ?_⟩⟩
  · obtain ⟨v, h, _⟩ := flattenSchema_ok h
    exact ⟨v, h⟩
  · cases hl : loads schemaEnv false (.cls nTop) j with
    | error e' => unfold flattenSchema at h; rw [hl] at h; cases h; rfl
    | ok v => obtain ⟨j', h'⟩ := key v hl; rw [h'] at h; cases h
  · unfold flattenSchema; rw [h]

/-- C61: the tree of the result says what flattening the tree of the document gives. -/
theorem C61_tree (o : FlatOpts) (j j' : Json) (hj : j.Wf) (h : flattenSchema o j = .ok j') :
    SameNode (flatten o (docNode j)) (docNode j') := by
  obtain ⟨v, hl, _, _, _, h2⟩ := flattenSchema_ok h
  rw [h2]
  exact flatten_same o _ _ (read_same _ j (Nat.lt_succ_self _) hj nTop (by decide) v hl)

/-- C61: the result is again a schema that can be flattened. -/
theorem C61_again (o o' : FlatOpts) (j j' : Json) (h : flattenSchema o j = .ok j') : ∃ j'', flattenSchema o' j' = .ok j'' := by
  obtain ⟨v, _, _, hv, rfl, _⟩ := flattenSchema_ok h
  obtain ⟨y, h1, h2⟩ := node_roundtrip (.cls (by decide)) hv
  rw [node_written (.cls (by decide)) hv] at h1
  cases h1
  exact (C61_succeeds_iff o' _).1.2 ⟨_, h2⟩

/-- C61: without collisions recursive flattening a second time returns the same document. -/
theorem C61_idempotent (o : FlatOpts) (hr : o.recursive = true) (j j' : Json) (hj : j.Wf) (hc : NoCollision o (docNode j))
    (h : flattenSchema o j = .ok j') : flattenSchema o j' = .ok j' := by
  obtain ⟨v, hl, hv0, hv, rfl, _⟩ := flattenSchema_ok h
  have hs := read_same _ j (Nat.lt_succ_self _) hj nTop (by decide) v hl
  have h2 := flattenVal_twice o hr (.inr rfl) hv0 (C37_idempotent_exact o hr _ (hs.wf (docNode_wf j hj)) (hs.noCollision hc))
  obtain ⟨y, h3, h4⟩ := node_roundtrip (.cls (by decide)) hv
  rw [node_written (.cls (by decide)) hv] at h3
  cases h3
  unfold flattenSchema
  rw [h4]
  simp only
  rw [h2]
  exact node_written (.cls (by decide)) hv

theorem noCollision_dotFree {o : FlatOpts} (ho : o.qualified = true) {s : SNode} (hd : DotFree s) : NoCollision o s := by
  intro p q v w hp hq e
  simp only [pathName, ho, if_true] at e
  exact joinWith_dotfree_inj p q (flatEntry_ne_nil hp) (flatEntry_ne_nil hq) (flatEntry_dotfree hd hp) (flatEntry_dotfree hd hq) e

/-- C61: recursive flattening with qualified names a second time returns the same document if no property name has a dot. -/
theorem C61_idempotent_qualified (j j' : Json) (hj : j.Wf) (hd : DotFree (docNode j)) (h : flattenSchema ⟨true, true⟩ j = .ok j') :
    flattenSchema ⟨true, true⟩ j' = .ok j' :=
  C61_idempotent _ rfl j j' hj (noCollision_dotFree rfl hd) h

/-! ### What the result says -/

theorem docNode_shape {j : Json} {p : Option (List (Str × SNode))} {a : Option Bool} {r : Option (List Str)} {x : Json}
    (h : docNode j = .object p a r x) : ∃ kvs, j = .obj kvs ∧ objectType kvs = true ∧ p = docProps kvs ∧
      a = truthValue (lookupKey c!"additionalProperties" kvs) ∧ r = textList (lookupKey c!"required" kvs) ∧ x = .obj (otherKeywords kvs) := by
  cases j with
  | obj kvs =>
    simp only [docNode] at h
    split at h
    · cases h; exact ⟨kvs, rfl, by assumption, rfl, rfl, rfl, rfl⟩
    · cases h
  | _ => simp [docNode] at h

theorem hasProperty_iff {kvs : List (Str × Json)} {name : Str} {s : SNode} :
    (name, s) ∈ (docProps kvs).getD [] ↔ ∃ x, HasProperty (.obj kvs) name x ∧ docNode x = s := by
  rw [docProps_eq]
  constructor
  · intro h
    cases hl : lookupKey c!"properties" kvs with
    | none => rw [hl] at h; simp at h
    | some x =>
      rw [hl] at h
      cases x with
      | obj xs =>
        simp only [Option.elim, docDict, Option.getD_some, docNodes_eq] at h
        obtain ⟨q, hq, he⟩ := List.mem_map.1 h
        cases he
        exact ⟨q.2, ⟨kvs, xs, rfl, hl, hq⟩, rfl⟩
      | _ => simp [docDict] at h
  · rintro ⟨x, ⟨kvs', xs, he, hl, hm⟩, rfl⟩
    cases he
    rw [hl]
    simp only [Option.elim, docDict, Option.getD_some, docNodes_eq]
    exact List.mem_map.2 ⟨_, hm, rfl⟩

theorem requires_iff {kvs : List (Str × Json)} {name : Str} :
    name ∈ (textList (lookupKey c!"required" kvs)).getD [] ↔ Requires (.obj kvs) name := by
  constructor
  · intro h
    cases hl : lookupKey c!"required" kvs with
    | none => rw [hl] at h; simp [textList] at h
    | some x =>
      rw [hl] at h
      cases x with
      | arr xs =>
        simp only [textList, Option.getD_some, List.mem_filterMap] at h
        obtain ⟨y, hy, he⟩ := h
        cases y <;> cases he
        exact ⟨kvs, xs, rfl, hl, hy⟩
      | _ => simp [textList] at h
  · rintro ⟨kvs', xs, he, hl, hm⟩
    cases he
    rw [hl]
    simp only [textList, Option.getD_some, List.mem_filterMap]
    exact ⟨_, hm, rfl⟩

theorem sameMembers_getD {p p' : Option (List (Str × SNode))} (h : SameMembers p p') : All2 SameEntry (p.getD []) (p'.getD []) := by
  cases p <;> cases p' <;> first | exact h.elim | exact .nil | exact h

theorem sameNode_left {p : Option (List (Str × SNode))} {a : Option Bool} {r : Option (List Str)} {x : Json} {t : SNode}
    (h : SameNode (.object p a r x) t) : ∃ p' x0 y0, t = .object p' a r (.obj y0) ∧ x = .obj x0 ∧ SameRecord false false x0 y0 := by
  generalize hs : SNode.object p a r x = s at h
  cases h with
  | leaf => cases hs
  | none h => cases hs; exact ⟨_, _, _, rfl, rfl, h⟩
  | some _ _ h => cases hs; exact ⟨_, _, _, rfl, rfl, h⟩

theorem sameNode_right {p : Option (List (Str × SNode))} {a : Option Bool} {r : Option (List Str)} {x : Json} {t : SNode}
    (h : SameNode t (.object p a r x)) : ∃ p' x', t = .object p' a r x' := by
  generalize hs : SNode.object p a r x = s at h
  cases h with
  | leaf => cases hs
  | none h => cases hs; exact ⟨_, _, rfl⟩
  | some _ _ h => cases hs; exact ⟨_, _, rfl⟩

/-- The tree of the result for a document whose tree is an object. -/
theorem flattened_shape {o : FlatOpts} {j j' : Json} (hj : j.Wf) (h : flattenSchema o j = .ok j') :
    ∃ kvs kvs', j = .obj kvs ∧ j' = .obj kvs' ∧ objectType kvs' = true ∧
      lookupKey c!"additionalProperties" kvs' = some (.bool false) ∧
      SameRecord false false (otherKeywords kvs) (otherKeywords kvs') ∧
      All2 SameEntry ((flatten o (docNode j)).props.getD []) ((docProps kvs').getD []) ∧
      (flatten o (docNode j)).required = textList (lookupKey c!"required" kvs') := by
  have hs := C61_tree o j j' hj h
  obtain ⟨v, hl, hv0, _, _, h2⟩ := flattenSchema_ok h
  obtain ⟨cd, vs, hcd, rfl, -⟩ := written_node (by decide) hv0
  have hr := read_same _ j (Nat.lt_succ_self _) hj nTop (by decide) _ hl
  rw [valNode_object (.inr rfl) hcd hv0] at hr
  obtain ⟨p, x, hd⟩ := sameNode_right hr
  obtain ⟨kvs, rfl, _, _, _, _, rfl⟩ := docNode_shape hd
  rw [hd, flatten_eq] at hs ⊢
  obtain ⟨p', x0, y0, hd', hx, hsr⟩ := sameNode_left hs
  obtain ⟨kvs', rfl, ho, rfl, ha, hreq, hy⟩ := docNode_shape hd'
  cases hx; cases hy
  rw [hd'] at hs
  have hp := hs.props
  refine ⟨kvs, kvs', rfl, rfl, ho, ?_, ?_, sameMembers_getD hp, hreq⟩
  · cases hl : lookupKey c!"additionalProperties" kvs' with
    | none => rw [hl] at ha; cases ha
    | some x => rw [hl] at ha; cases x <;> cases ha; rfl
  · exact hsr

/-- C61: the result is an object schema that allows no additional properties; keywords other than `properties`,
`additionalProperties` and `required` say the same as before. -/
theorem C61_keywords (o : FlatOpts) (j j' : Json) (hj : j.Wf) (h : flattenSchema o j = .ok j') :
    ∃ kvs kvs', j = .obj kvs ∧ j' = .obj kvs' ∧ lookupKey c!"type" kvs' = some (.str c!"object") ∧
      lookupKey c!"additionalProperties" kvs' = some (.bool false) ∧ SameRecord false false (otherKeywords kvs) (otherKeywords kvs') := by
  obtain ⟨kvs, kvs', h1, h2, h3, h4, h5, _⟩ := flattened_shape hj h
  refine ⟨kvs, kvs', h1, h2, ?_, h4, h5⟩
  unfold objectType at h3
  cases hl : lookupKey c!"type" kvs' with
  | none => rw [hl] at h3; cases h3
  | some x =>
    rw [hl] at h3
    cases x <;> first | cases h3 | (simp only [decide_eq_true_eq] at h3; rw [h3])

/-- C61: every property of the result is the property at the end of a path in the document, under the name of that path. -/
theorem C61_sound (o : FlatOpts) (j j' : Json) (hj : j.Wf) (h : flattenSchema o j = .ok j') (name : Str) (x : Json)
    (hx : HasProperty j' name x) : ∃ p s, FlatEntry o (docNode j) p s ∧ pathName o p = name ∧ SameNode s (docNode x) := by
  obtain ⟨kvs, kvs', _, rfl, _, _, _, h6, _⟩ := flattened_shape hj h
  obtain ⟨q, hq, e, hs⟩ := h6.mem_right (hasProperty_iff.2 ⟨x, hx, rfl⟩)
  obtain ⟨p, hp, he⟩ := C37_sound o _ q.1 q.2 hq
  exact ⟨p, q.2, hp, he.trans e, hs⟩

/-- C61: the name of every path in the document is the name of a property of the result; without collisions it has the schema
at the end of the path. -/
theorem C61_complete (o : FlatOpts) (j j' : Json) (hj : j.Wf) (h : flattenSchema o j = .ok j') (p : List Str) (s : SNode)
    (hp : FlatEntry o (docNode j) p s) :
    ∃ x, HasProperty j' (pathName o p) x ∧ (NoCollision o (docNode j) → SameNode s (docNode x)) := by
  obtain ⟨kvs, kvs', _, rfl, _, _, _, h6, _⟩ := flattened_shape hj h
  obtain ⟨w, hw⟩ := C37_complete o _ p s hp
  obtain ⟨q, hq, e, hs⟩ := h6.mem_left hw
  obtain ⟨q1, q2⟩ := q
  simp only at e hs
  subst e
  obtain ⟨x, hx, rfl⟩ := hasProperty_iff.1 hq
  refine ⟨x, hx, fun hc => ?_⟩
  have h1 := (C37_exact_partial o _ (docNode_wf j hj) hc _ _).2 ⟨p, hp, rfl⟩
  have hn := C37_nodup o (docNode j)
  have e1 := lookupKey_of_mem hn h1
  have e2 := lookupKey_of_mem hn hw
  rw [e1] at e2
  cases e2
  exact hs

/-- C61: recursive flattening leaves no property of type `object`. -/
theorem C61_flat (o : FlatOpts) (hr : o.recursive = true) (j j' : Json) (hj : j.Wf) (h : flattenSchema o j = .ok j') (name : Str)
    (kvs : List (Str × Json)) (hx : HasProperty j' name (.obj kvs)) : lookupKey c!"type" kvs ≠ some (.str c!"object") := by
  obtain ⟨_, kvs', _, rfl, _, _, _, h6, _⟩ := flattened_shape hj h
  obtain ⟨q, hq, e, hs⟩ := h6.mem_right (hasProperty_iff.2 ⟨_, hx, rfl⟩)
  have hno := C37_no_nested o hr _ q.1 q.2 hq
  intro ht
  have ho : objectType kvs = true := by simp [objectType, ht]
  have e : docNode (.obj kvs) = .object (docProps kvs) (truthValue (lookupKey c!"additionalProperties" kvs))
      (textList (lookupKey c!"required" kvs)) (.obj (otherKeywords kvs)) := by simp [docNode, ho]
  simp only [e] at hs
  obtain ⟨_, _, hq2⟩ := sameNode_right hs
  rw [hq2] at hno
  exact hno trivial

/-- C61: the result requires the names of the paths whose innermost object requires the property. -/
theorem C61_required_iff (o : FlatOpts) (j j' : Json) (hj : j.Wf) (h : flattenSchema o j = .ok j') (name : Str) :
    Requires j' name ↔ ∃ p, FlatReq o (docNode j) p ∧ pathName o p = name := by
  obtain ⟨_, kvs', _, rfl, _, _, _, _, h7⟩ := flattened_shape hj h
  rw [← C37_required_iff, h7, requires_iff]

/-! ### Examples -/

/-- A schema with a nested object. -/
def exNested : Json :=
  .obj [(c!"$schema", .str c!"s"), (c!"type", .str c!"object"), (c!"title", .null),
    (c!"properties", .obj [
      (c!"id", .obj [(c!"type", .str c!"integer"), (c!"minimum", .bool true)]),
      (c!"at", .obj [(c!"properties", .obj [(c!"x", .obj [(c!"type", .str c!"number")]), (c!"r", .obj [(c!"$ref", .str c!"#/definitions/R")])]),
        (c!"type", .str c!"object"), (c!"required", .arr [.str c!"x"])])]),
    (c!"required", .arr [.str c!"id"])]

/-- The result of flattening it with qualified names. -/
def exFlattened : Json :=
  .obj [(c!"type", .str c!"object"),
    (c!"properties", .obj [
      (c!"id", .obj [(c!"type", .str c!"integer"), (c!"minimum", .int 1)]),
      (c!"at.x", .obj [(c!"type", .str c!"number")]),
      (c!"at.r", .obj [(c!"$ref", .str c!"#/definitions/R")])]),
    (c!"additionalProperties", .bool false), (c!"required", .arr [.str c!"id", .str c!"at.x"]), (c!"$schema", .str c!"s")]

/-- The theorems apply to a nested schema. -/
theorem C61_example : flattenSchema ⟨true, true⟩ exNested = .ok exFlattened := by with_unfolding_all rfl

/-- A schema with a member. -/
def exMember (x : Json) : Json :=
  .obj [(c!"$schema", .str c!"s"), (c!"type", .str c!"object"), (c!"properties", .obj [(c!"m", x)])]

/-- Schemas that the library itself generates cannot be flattened: that of `dict[str, int]` has a schema as
`additionalProperties`, and that of `set[int]` has `uniqueItems`. -/
theorem C61_rejected_fails (o : FlatOpts) :
    flattenSchema o (exMember (.obj [(c!"type", .str c!"object"), (c!"additionalProperties", .obj [(c!"type", .str c!"integer")])])) =
      .error .jsonKey ∧
    flattenSchema o (exMember (.obj [(c!"type", .str c!"array"), (c!"items", .obj [(c!"type", .str c!"integer")]),
      (c!"uniqueItems", .bool true)])) = .error .jsonKey := by
  constructor <;> with_unfolding_all rfl

/-- A bound that is too large for `float` is not a `JsonTypeError` but an `OverflowError`. -/
theorem C61_overflow_fails (o : FlatOpts) :
    flattenSchema o (exMember (.obj [(c!"type", .str c!"number"), (c!"minimum", .int (2 ^ 1024))])) = .error .overflow := by
  rw [(C61_succeeds_iff o _).2]
  have : ((match loads schemaEnv false (.cls nTop)
      (exMember (.obj [(c!"type", .str c!"number"), (c!"minimum", .int (2 ^ 1024))])) with
    | .error e => decide (e = .overflow) | .ok _ => false) : Bool) = true := by decide +kernel
  split at this
  · rename_i e he; simp only [decide_eq_true_eq] at this; rw [he, this]
  · cases this

theorem exNested_wf : exNested.Wf := by
  unfold exNested
  refine .obj (by decide) ?_
  simp only [List.mem_cons, List.not_mem_nil, or_false, forall_eq_or_imp, forall_eq]
  refine ⟨.str, .str, .null, .obj (by decide) ?_, .arr ?_⟩
  · simp only [List.mem_cons, List.not_mem_nil, or_false, forall_eq_or_imp, forall_eq]
    refine ⟨.obj (by decide) ?_, .obj (by decide) ?_⟩
    · simp only [List.mem_cons, List.not_mem_nil, or_false, forall_eq_or_imp, forall_eq]
      exact ⟨.str, .bool⟩
    · simp only [List.mem_cons, List.not_mem_nil, or_false, forall_eq_or_imp, forall_eq]
      refine ⟨.obj (by decide) ?_, .str, .arr ?_⟩
      · simp only [List.mem_cons, List.not_mem_nil, or_false, forall_eq_or_imp, forall_eq]
        refine ⟨.obj (by decide) ?_, .obj (by decide) ?_⟩ <;>
          simp only [List.mem_cons, List.not_mem_nil, or_false, forall_eq] <;> exact .str
      · simp only [List.mem_cons, List.not_mem_nil, or_false, forall_eq]; exact .str
  · simp only [List.mem_cons, List.not_mem_nil, or_false, forall_eq]; exact .str

theorem exNested_dotFree : DotFree (docNode exNested) := by
  have e : docNode exNested = .object (some [(c!"id", .leaf (.obj [(c!"type", .str c!"integer"), (c!"minimum", .bool true)])),
      (c!"at", .object (some [(c!"x", .leaf (.obj [(c!"type", .str c!"number")])),
        (c!"r", .leaf (.obj [(c!"$ref", .str c!"#/definitions/R")]))]) none (some [c!"x"]) (.obj [(c!"type", .str c!"object")]))])
      none (some [c!"id"]) (.obj [(c!"$schema", .str c!"s"), (c!"type", .str c!"object"), (c!"title", .null)]) := by with_unfolding_all rfl
  rw [e]
  refine .some (by decide) ?_
  simp only [List.mem_cons, List.not_mem_nil, or_false, forall_eq_or_imp, forall_eq]
  refine ⟨.leaf, .some (by decide) ?_⟩
  simp only [List.mem_cons, List.not_mem_nil, or_false, forall_eq_or_imp, forall_eq]
  exact ⟨.leaf, .leaf⟩

/-- The hypotheses of the theorems hold for a nested schema; the second flattening returns the same document. -/
example : flattenSchema ⟨true, true⟩ exFlattened = .ok exFlattened :=
  C61_idempotent_qualified exNested exFlattened exNested_wf exNested_dotFree C61_example

example : FlatEntry ⟨true, true⟩ (docNode exNested) [c!"at", c!"x"] (.leaf (.obj [(c!"type", .str c!"number")])) :=
  .nested (l := [(c!"id", _), (c!"at", _)]) rfl (.tail _ (.head _)) (.here (l := [(c!"x", _), (c!"r", _)]) (.head _))

end Verif
