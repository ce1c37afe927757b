import Verif.Lemmas.NodeRead
/-!
# What a schema is like that has been read as a node
-/
namespace Verif

/-- The number of the class of a node. -/
def TNode.classNo : TNode → Nat
  | .ref _ => 0
  | .bool _ _ => 1
  | .int _ _ _ _ _ _ => 2
  | .num _ _ _ _ _ _ => 3
  | .str _ _ _ _ _ => 4
  | .arr _ => 5
  | .obj _ _ _ => 6
  | .oneOf _ => 7

theorem objectNode_classNo {fs : List (Str × Val)} {ns : List (Str × NodeAttr)} {n : TNode} (h : objectNode fs ns = some n) :
    n.classNo = 6 := by
  unfold objectNode at h
  split at h
  · cases h; rfl
  · cases h

theorem nodeOf_classNo {c : Nat} {fs : List (Str × Val)} {ns : List (Str × NodeAttr)} {n : TNode} (h : nodeOf c fs ns = some n) :
    c = n.classNo := by
  unfold nodeOf at h
  split at h
  · rename_i hc; subst hc
    cases hs : (attrOf c!"ref" fs).asStr with
    | none => rw [hs] at h; cases h
    | some s => rw [hs] at h; cases h; rfl
  split at h
  · rename_i hc; subst hc; split at h <;> cases h; rfl
  split at h
  · rename_i hc; subst hc; split at h <;> cases h; rfl
  split at h
  · rename_i hc; subst hc; split at h <;> cases h; rfl
  split at h
  · rename_i hc; subst hc; split at h <;> cases h; rfl
  split at h
  · rename_i hc; subst hc; split at h <;> cases h; rfl
  split at h
  · rename_i hc; subst hc; exact (objectNode_classNo h).symm
  split at h
  · rename_i hc; subst hc; split at h <;> cases h; rfl
  · cases h

theorem ReadAs.inv {j : Json} {n : TNode} (h : ReadAs j n) : ∃ kvs vs cd, j = .obj kvs ∧ ReadFrom n.classNo kvs vs ∧
    schemaEnv.classes[n.classNo]? = some cd ∧ OnlyKnown cd kvs ∧ nodeOf n.classNo vs (toAttrs vs) = some n := by
  obtain ⟨v, hv, hn⟩ := h
  obtain ⟨c, hc, hl⟩ := loads_anyNode hv
  have hlt : c < schemaEnv.classes.length := Nat.lt_trans hc (by decide)
  have hcd : schemaEnv.classes[c]? = some schemaEnv.classes[c] := List.getElem?_eq_getElem hlt
  obtain ⟨kvs, vs, rfl, rfl, h3, h4⟩ := (loads_cls_ok_iff schemaEnv_ok false (schemaEnv_readable _ _ hcd) j v).1 hl
  simp only [toAttr] at hn
  split at hn
  · rename_i n' hno
    cases hn
    have := nodeOf_classNo hno
    subst this
    exact ⟨kvs, vs, _, rfl, ⟨_, hcd, h3⟩, hcd, by simpa using h4, hno⟩
  · cases hn

/-- Keywords of the classes of nodes. -/
def TNode.words : TNode → List Str
  | .ref _ => [c!"title", c!"description", c!"$ref"]
  | .bool _ _ => [c!"title", c!"description", c!"type"] ++ boolKeywords.map (·.1)
  | .int _ _ _ _ _ _ => [c!"title", c!"description", c!"type"] ++ intKeywords.map (·.1)
  | .num _ _ _ _ _ _ => [c!"title", c!"description", c!"type"] ++ numKeywords.map (·.1)
  | .str _ _ _ _ _ => [c!"title", c!"description", c!"type"] ++ strKeywords.map (·.1)
  | .arr _ => [c!"title", c!"description", c!"type", c!"format", c!"items"]
  | .obj _ _ _ => [c!"title", c!"description", c!"type", c!"properties"] ++ objKeywords.map (·.1)
  | .oneOf _ => [c!"title", c!"description", c!"oneOf"]

theorem onlyKnown_words {cd : ClassDef} {kvs : List (Str × Json)} (h : OnlyKnown cd kvs) {ws : List Str}
    (hw : ∀ f ∈ cd.hints, fieldProp cd.kind f ∈ ws) : ∀ kv ∈ kvs, kv.1 ∈ ws := by
  intro kv hkv
  obtain ⟨f, hf, he⟩ := h kv hkv
  exact he ▸ hw f hf

theorem ReadAs.words {kvs : List (Str × Json)} {n : TNode} (h : ReadAs (.obj kvs) n) : ∀ kv ∈ kvs, kv.1 ∈ n.words := by
  obtain ⟨_, vs, cd, he, _, hcd, ho, _⟩ := h.inv
  cases he
  refine onlyKnown_words ho ?_
  cases n <;> (cases hcd; simp only [TNode.words]; decide)

theorem lookup_words {kvs : List (Str × Json)} {ws : List Str} (h : ∀ kv ∈ kvs, kv.1 ∈ ws) {k : Str} {x : Json}
    (hx : lookupKey k kvs = some x) : k ∈ ws := h _ (lookupKey_some_mem hx)

/-- The type of the node is that of the schema. -/
theorem ReadAs.typed {kvs : List (Str × Json)} {n : TNode} {T : Str} (h : ReadAs (.obj kvs) n) (ht : HasType T kvs) :
    (n.classNo, T) ∈ classType := by
  obtain ⟨_, vs, cd, he, hr, hcd, ho, hno⟩ := h.inv
  cases he
  have key : ∀ S, (∀ cd, schemaEnv.classes[n.classNo]? = some cd → cd.kind = .dataclass false ∧
      cd.hints.find? (fun g => g.name = c!"type") = some { name := c!"type", ty := .literal [.str S] }) → S = T := by
    intro S hS
    have := hr.typeAttr S hS
    unfold HasType at ht
    rw [this] at ht
    cases ht
    rfl
  have hw := h.words
  cases n with
  | ref r => exact absurd (lookup_words hw ht) (by simp only [TNode.words]; decide)
  | oneOf ns => exact absurd (lookup_words hw ht) (by simp only [TNode.words]; decide)
  | bool c d => rw [← key c!"boolean" (by intro cd hcd; cases hcd; exact ⟨rfl, rfl⟩)]; simp [classType, TNode.classNo]
  | int => rw [← key c!"integer" (by intro cd hcd; cases hcd; exact ⟨rfl, rfl⟩)]; simp [classType, TNode.classNo]
  | num => rw [← key c!"number" (by intro cd hcd; cases hcd; exact ⟨rfl, rfl⟩)]; simp [classType, TNode.classNo]
  | str => rw [← key c!"string" (by intro cd hcd; cases hcd; exact ⟨rfl, rfl⟩)]; simp [classType, TNode.classNo]
  | arr => rw [← key c!"array" (by intro cd hcd; cases hcd; exact ⟨rfl, rfl⟩)]; simp [classType, TNode.classNo]
  | obj => rw [← key c!"object" (by intro cd hcd; cases hcd; exact ⟨rfl, rfl⟩)]; simp [classType, TNode.classNo]

theorem ReadAs.ref_inv {kvs : List (Str × Json)} {r : Str} (h : ReadAs (.obj kvs) (.ref r)) :
    lookupKey c!"$ref" kvs = some (.str r) := by
  obtain ⟨_, vs, cd, he, hr, hcd, ho, hno⟩ := h.inv
  cases he
  obtain ⟨w, x, hw1, hx, hl1⟩ := hr.req { name := c!"ref", ty := .annotated .str [.alias c!"$ref"] } c!"$ref" (by
    intro cd hcd; cases hcd; exact ⟨rfl, by decide, rfl, rfl, rfl⟩)
  simp only at hw1
  have hl2 : loads schemaEnv false .str x = .ok w := hl1
  obtain ⟨s, rfl, rfl⟩ := loads_str_json hl2
  have hno : (attrOf c!"ref" vs).asStr.map TNode.ref = some (.ref r) := hno
  simp [attrOf, hw1, Val.asStr] at hno
  subst hno
  exact hx

theorem ReadAs.arr_inv {kvs : List (Str × Json)} {n : TNode} (h : ReadAs (.obj kvs) (.arr n)) :
    ∃ x, lookupKey c!"items" kvs = some x ∧ ReadAs x n := by
  obtain ⟨_, vs, cd, he, hr, hcd, ho, hno⟩ := h.inv
  cases he
  obtain ⟨w, x, hw1, hx, hl1⟩ := hr.req { name := c!"items", ty := anyNodeTy, strAnn := true } c!"items" (by
    intro cd hcd; cases hcd; exact ⟨rfl, by decide, rfl, rfl, rfl⟩)
  simp only at hw1 hl1
  have hno : (match nodeAttrOf c!"items" (toAttrs vs) with | .node n => some (TNode.arr n) | _ => Option.none) = some (.arr n) := hno
  rw [nodeAttrOf_lookup hw1] at hno
  split at hno
  · rename_i n' hn; cases hno; exact ⟨x, hx, w, hl1, hn⟩
  · cases hno

theorem ReadAs.oneOf_inv {kvs : List (Str × Json)} {ns : List TNode} (h : ReadAs (.obj kvs) (.oneOf ns)) :
    ∃ xs, lookupKey c!"oneOf" kvs = some (.arr xs) ∧ All2 ReadAs xs ns := by
  obtain ⟨_, vs, cd, he, hr, hcd, ho, hno⟩ := h.inv
  cases he
  obtain ⟨w, x, hw1, hx, hl1⟩ := hr.req { name := c!"oneOf", ty := .list anyNodeTy, fwd := true } c!"oneOf" (by
    intro cd hcd; cases hcd; exact ⟨rfl, by decide, rfl, rfl, rfl⟩)
  simp only at hw1 hl1
  have hno : (match nodeAttrOf c!"oneOf" (toAttrs vs) with | .list ns => some (TNode.oneOf ns) | _ => Option.none) = some (.oneOf ns) := hno
  rw [nodeAttrOf_lookup hw1] at hno
  split at hno
  · rename_i n' hn
    cases hno
    obtain ⟨us, rfl, hd⟩ := toAttr_list hn
    obtain ⟨xs, vs', rfl, he, ha⟩ := loads_list_json hl1
    cases he
    exact ⟨xs, hx, all2_trans (fun j v n h1 h2 => ⟨v, h1, h2⟩) ha (toNodes_all2 hd)⟩
  · cases hno

theorem ReadFrom.dict_inv {c : Nat} {kvs : List (Str × Json)} {vs : List (Str × Val)} (h : ReadFrom c kvs vs) (name : Str)
    (hf : ∀ cd, schemaEnv.classes[c]? = some cd →
      ∃ fw, cd.kind = .dataclass false ∧ fieldToProperty name Option.none = name ∧
        (optTy (.dict .str anyNodeTy)).required = .dict .str anyNodeTy ∧
        cd.hints.find? (fun g => g.name = name) = some { name := name, ty := optTy (.dict .str anyNodeTy), fwd := fw })
    {ns : List (Str × TNode)} (ha : optDict (attrOf name vs) (nodeAttrOf name (toAttrs vs)) = some (some ns)) :
    ∃ xs, lookupKey name kvs = some (.obj xs) ∧ ((xs.map (·.1)).Nodup → ReadAsD xs ns) := by
  obtain ⟨h1, h2⟩ := optDict_some ha
  rw [nodeAttrOf_attrOf h1] at h2
  obtain ⟨w, hw1, h3⟩ := h.opt name (.dict .str anyNodeTy) hf
  rw [hw1] at h1 h2
  rcases h3 with h3 | ⟨x, hx, hl⟩
  · exact absurd h3 h1
  · obtain ⟨xs, rfl⟩ := loads_dict_obj hl
    refine ⟨xs, hx, fun hn => ?_⟩
    obtain ⟨us, rfl, hd⟩ := toAttr_dict h2
    obtain ⟨vs', he, ha⟩ := loads_dict_json hn hl
    cases he
    refine all2_trans ?_ ha (toNodeDict_all2 hd)
    rintro ⟨k, j⟩ ⟨k', v⟩ ⟨k'', n⟩ ⟨h1, h2⟩ ⟨h3, h4⟩
    simp only at h1 h3 h2 h4 ⊢
    subst h1
    cases h3
    exact ⟨rfl, v, h2, h4⟩

theorem object_inv {c : Nat} (hc : c = nObject ∨ c = nTop) {kvs : List (Str × Json)} {vs : List (Str × Val)} (h : ReadFrom c kvs vs)
    {ns : List (Str × TNode)} {a : Option Bool} {r : Option (List Str)}
    (hn : objectNode vs (toAttrs vs) = some (.obj (some ns) a r)) :
    (∃ xs, lookupKey c!"properties" kvs = some (.obj xs) ∧ ((xs.map (·.1)).Nodup → ReadAsD xs ns)) ∧
      ∀ b, a = some b → lookupKey c!"additionalProperties" kvs = some (.bool b) := by
  unfold objectNode at hn
  split at hn
  · rename_i ps a r h1 h2 h3
    cases hn
    exact ⟨h.dict_inv c!"properties" (by
        rcases hc with rfl | rfl <;> (intro cd hcd; cases hcd; exact ⟨true, rfl, by decide, rfl, rfl⟩)) h1,
      h.boolAttr _ (by rcases hc with rfl | rfl <;> node_opt) h2⟩
  · cases hn

theorem ReadAs.obj_inv {kvs : List (Str × Json)} {ns : List (Str × TNode)} {a : Option Bool} {r : Option (List Str)}
    (h : ReadAs (.obj kvs) (.obj (some ns) a r)) :
    (∃ xs, lookupKey c!"properties" kvs = some (.obj xs) ∧ ((xs.map (·.1)).Nodup → ReadAsD xs ns)) ∧
      ∀ b, a = some b → lookupKey c!"additionalProperties" kvs = some (.bool b) := by
  obtain ⟨_, vs, cd, he, hr, hcd, ho, hno⟩ := h.inv
  cases he
  exact object_inv (.inl rfl) hr hno

/-- A document that has been read. -/
theorem top_inv {j : Json} {top : TopNode} (h : readTop j = .ok top) : ∃ kvs vs, j = .obj kvs ∧ ReadFrom nTop kvs vs ∧
    (∀ kv ∈ kvs, kv.1 ∈ [c!"title", c!"description", c!"type", c!"properties", c!"$schema", c!"definitions"] ++ objKeywords.map (·.1)) ∧
    objectNode vs (toAttrs vs) = some top.node ∧
    optDict (attrOf c!"definitions" vs) (nodeAttrOf c!"definitions" (toAttrs vs)) = some top.definitions := by
  unfold readTop at h
  split at h
  · cases h
  · rename_i v hv
    split at h
    · rename_i t ht
      cases h
      have hcd : schemaEnv.classes[nTop]? = some schemaEnv.classes[8] := rfl
      obtain ⟨kvs, vs, rfl, rfl, h3, h4⟩ := (loads_cls_ok_iff schemaEnv_ok false (schemaEnv_readable _ _ hcd) j v).1 hv
      simp only [toTop] at ht
      rw [if_pos trivial] at ht
      split at ht
      · rename_i n ds h1 h2
        cases ht
        exact ⟨kvs, vs, rfl, ⟨_, hcd, h3⟩, onlyKnown_words (by simpa using h4) (by decide), h1, h2⟩
      · cases ht
    · cases h

end Verif
