import Verif.Lemmas.Flatten
/-!
# C37: flattening keeps all leaf properties and stays consistent

Names of different paths may collide when they are not qualified; then the later property overwrites the earlier one, so
exactness needs `NoCollision`.  Qualified names never collide if property names have no dots.
-/
namespace Verif

/-- C37: every property of the result is the property at the end of a path, under the name of that path. -/
theorem C37_sound (o : FlatOpts) (s : SNode) (n : Str) (v : SNode) (h : (n, v) ∈ (flatten o s).props.getD []) :
    ∃ p, FlatEntry o s p v ∧ pathName o p = n :=
  flatten_sound o s n v h

/-- C37: the name of every path is a property name of the result, whether or not names collide. -/
theorem C37_complete (o : FlatOpts) (s : SNode) (p : List Str) (v : SNode) (h : FlatEntry o s p v) :
    ∃ w, (pathName o p, w) ∈ (flatten o s).props.getD [] := by
  obtain ⟨⟨k, w⟩, hm, e⟩ := List.mem_map.1 (flatten_complete o h)
  exact ⟨w, by simp only at e; rw [← e]; exact hm⟩

/-- C37: without collisions the properties of the result are exactly the properties at the ends of paths. -/
theorem C37_exact_partial (o : FlatOpts) (s : SNode) (hw : s.Wf) (hc : NoCollision o s) (n : Str) (v : SNode) :
    (n, v) ∈ (flatten o s).props.getD [] ↔ ∃ p, FlatEntry o s p v ∧ pathName o p = n := by
  refine ⟨C37_sound o s n v, ?_⟩
  rintro ⟨p, hp, rfl⟩
  obtain ⟨w, hm⟩ := C37_complete o s p v hp
  obtain ⟨q, hq, e⟩ := C37_sound o s _ w hm
  have := hc q p w v hq hp e
  subst this
  rw [flatEntry_functional hw hp hq]
  exact hm

/-- C37: qualified flattening of a schema whose property names have no dots is exact. -/
theorem C37_qualified (o : FlatOpts) (ho : o.qualified = true) (s : SNode) (hw : s.Wf) (hd : DotFree s) (n : Str) (v : SNode) :
    (n, v) ∈ (flatten o s).props.getD [] ↔ ∃ p, FlatEntry o s p v ∧ joinWith '.' p = n := by
  have hc : NoCollision o s := by
    intro p q v w hp hq e
    simp only [pathName, ho, if_true] at e
    exact joinWith_dotfree_inj p q (flatEntry_ne_nil hp) (flatEntry_ne_nil hq) (flatEntry_dotfree hd hp) (flatEntry_dotfree hd hq) e
  rw [C37_exact_partial o s hw hc]
  simp [pathName, ho]

/-- C37: recursive flattening leaves no nested object. -/
theorem C37_no_nested (o : FlatOpts) (hr : o.recursive = true) (s : SNode) (n : Str) (v : SNode)
    (h : (n, v) ∈ (flatten o s).props.getD []) : ¬ v.IsObject := by
  obtain ⟨p, hp, _⟩ := C37_sound o s n v h
  obtain ⟨j, rfl⟩ := flatEntry_leaf hr hp
  exact id

/-- C37: the required names of the result are the names of the paths whose innermost object requires the property. -/
theorem C37_required_iff (o : FlatOpts) (s : SNode) (n : Str) :
    n ∈ (flatten o s).required.getD [] ↔ ∃ p, FlatReq o s p ∧ pathName o p = n :=
  ⟨flatten_reqs_sound o s n, by rintro ⟨p, hp, rfl⟩; exact flatten_reqs_complete o hp⟩

/-- C37: the names that a document must have (every object on the path requires its part) are required in the result. -/
theorem C37_required_kept (o : FlatOpts) (hr : o.recursive = true) (s : SNode) (p : List Str) (h : PathReq s p) :
    pathName o p ∈ (flatten o s).required.getD [] := by
  rw [C37_required_iff]
  refine ⟨p, ?_, rfl⟩
  induction h with
  | here h1 h2 => exact .here h1 h2
  | nested h1 _ _ ih => exact .nested hr h1 ih

/-- C37: after recursive flattening every required name is a property of the result, even if nested objects require names that
they do not have. -/
theorem C37_required_props (o : FlatOpts) (hr : o.recursive = true) (s : SNode) (n : Str)
    (h : n ∈ (flatten o s).required.getD []) : ∃ v, (n, v) ∈ (flatten o s).props.getD [] := by
  obtain ⟨p, hp, rfl⟩ := (C37_required_iff o s n).1 h
  obtain ⟨v, hv⟩ := flatReq_entry hr hp
  exact C37_complete o s p v hv

/-- C37: without recursion every required name is a property of the result if the nested objects are consistent. -/
theorem C37_required_props_once (o : FlatOpts) (hr : o.recursive = false) (s : SNode) (hs : NestedConsistent s) (n : Str)
    (h : n ∈ (flatten o s).required.getD []) : ∃ v, (n, v) ∈ (flatten o s).props.getD [] := by
  obtain ⟨p, hp, rfl⟩ := (C37_required_iff o s n).1 h
  cases hp with
  | here h1 h2 => exact C37_complete o _ _ _ (.here h1)
  | nested h1 => rw [hr] at h1; exact absurd h1 (by decide)
  | @one l a r x n p' a' rs x' m h1 h2 h3 =>
    have := hs _ _ h2 m h3
    obtain ⟨⟨k, v⟩, hm, rfl⟩ := List.mem_map.1 this
    cases p' with
    | none => simp [SNode.props] at hm
    | some l' => exact C37_complete o _ _ _ (.one h1 h2 hm)

/-- C37: property names of the result are distinct. -/
theorem C37_nodup (o : FlatOpts) (s : SNode) : (((flatten o s).props.getD []).map (·.1)).Nodup := flatten_nodup o s

/-- C37: flattening recursively a second time changes neither the properties, nor the other members, nor the set of required
names. -/
theorem C37_idempotent (o : FlatOpts) (hr : o.recursive = true) (p : Option (List (Str × SNode))) (a : Option Bool)
    (r : Option (List Str)) (x : Json) :
    ∃ p' r' r'', flatten o (.object p a r x) = .object p' (some false) r' x ∧
      flatten o (flatten o (.object p a r x)) = .object p' (some false) r'' x ∧
      ∀ n, n ∈ r''.getD [] ↔ n ∈ r'.getD [] := by
  have hl : AllLeaves (updateProps [] (allProps o (p.getD []))) := by
    intro n v hv
    rw [← flatten_props o p a r x] at hv
    obtain ⟨q, hq, _⟩ := C37_sound o _ n v hv
    exact flatEntry_leaf hr hq
  have hn := flatten_nodup o (.object p a r x)
  have hreq := C37_required_props o hr (.object p a r x)
  rw [flatten_props] at hn
  simp only [flatten_props, flatten_required] at hreq
  rw [flatten_object_eq]
  refine ⟨_, _, _, rfl, flatten_leaves o hl hn _, ?_⟩
  intro n
  simp only [orNone_getD, List.mem_filter, decide_eq_true_eq, List.mem_map]
  constructor
  · exact fun h => h.2
  · intro h
    obtain ⟨v, hv⟩ := hreq n h
    exact ⟨⟨_, hv, rfl⟩, h⟩

/-- C37: without collisions recursive flattening is idempotent. -/
theorem C37_idempotent_exact (o : FlatOpts) (hr : o.recursive = true) (s : SNode) (hw : s.Wf) (hc : NoCollision o s) :
    flatten o (flatten o s) = flatten o s := by
  cases s with
  | leaf j => rfl
  | object p a r x =>
    have hl : AllLeaves (updateProps [] (allProps o (p.getD []))) := by
      intro n v hv
      rw [← flatten_props o p a r x] at hv
      obtain ⟨q, hq, _⟩ := C37_sound o _ n v hv
      exact flatEntry_leaf hr hq
    have hn := flatten_nodup o (.object p a r x)
    have hs := flatten_reqs_sublist o hr _ hw hc
    rw [flatten_props] at hn hs
    rw [flatten_required] at hs
    rw [flatten_object_eq, flatten_leaves o hl hn, sublist_filter_eq hn hs]

/-! ### Where the property fails -/

/-- `{a: leaf 1, b: {c: leaf 2 (required), a: leaf 3}}`; `b` is optional. -/
def exFlat : SNode :=
  .object (some [(c!"a", .leaf (.int 1)),
    (c!"b", .object (some [(c!"c", .leaf (.int 2)), (c!"a", .leaf (.int 3))]) none (some [c!"c"]) .null)]) none none .null

/-- Unqualified names collide: the leaf `a` of the outer object is lost. -/
theorem C37_collision_fails :
    FlatEntry ⟨false, true⟩ exFlat [c!"a"] (.leaf (.int 1)) ∧
      (flatten ⟨false, true⟩ exFlat).props = some [(c!"a", .leaf (.int 3)), (c!"c", .leaf (.int 2))] :=
  ⟨.here (by simp), rfl⟩

/-- Qualified names collide as well if property names contain dots. -/
theorem C37_qualified_collision_fails :
    (flatten ⟨true, true⟩ (.object (some [(c!"a.b", .leaf (.int 1)), (c!"a", .object (some [(c!"b", .leaf (.int 2))]) none none .null)])
      none none .null)).props = some [(c!"a.b", .leaf (.int 2))] := rfl

/-- A member that an optional nested object requires becomes required, so a document without the nested object is rejected. -/
theorem C37_required_fails :
    c!"b.c" ∈ (flatten ⟨true, true⟩ exFlat).required.getD [] ∧ ¬ PathReq exFlat [c!"b", c!"c"] := by
  refine ⟨by decide, ?_⟩
  intro h
  cases h

/-- A nested object without properties disappears. -/
theorem C37_empty_object_fails (o : FlatOpts) :
    flatten o (.object (some [(c!"a", .object none none none .null)]) none (some [c!"a"]) .null) =
      .object none (some false) none .null := by
  obtain ⟨_ | _, _ | _⟩ := o <;> rfl

/-- Without recursion a nested object that requires a name it does not have makes the result inconsistent. -/
theorem C37_required_props_fails :
    flatten ⟨false, false⟩ (.object (some [(c!"a", .object none none (some [c!"x"]) .null)]) none none .null) =
      .object none (some false) (some [c!"x"]) .null := rfl

/-- With collisions a second flattening may reorder the required names. -/
theorem C37_idempotent_fails :
    ∃ s : SNode, s.Wf ∧ (flatten ⟨false, true⟩ s).required = some [c!"b", c!"a"] ∧
      (flatten ⟨false, true⟩ (flatten ⟨false, true⟩ s)).required = some [c!"a", c!"b"] := by
  refine ⟨.object (some [(c!"a", .leaf .null), (c!"o", .object (some [(c!"b", .leaf .null), (c!"a", .leaf .null)]) none
    (some [c!"b", c!"a"]) .null)]) none none .null, ?_, rfl, rfl⟩
  refine .some (by decide) ?_
  intro p hp
  simp only [List.mem_cons, List.not_mem_nil, or_false] at hp
  rcases hp with rfl | rfl
  · exact .leaf
  · refine .some (by decide) ?_
    intro p hp
    simp only [List.mem_cons, List.not_mem_nil, or_false] at hp
    rcases hp with rfl | rfl <;> exact .leaf

/-! ### Examples -/

/-- The hypotheses of `C37_qualified`, `C37_exact_partial` and `C37_idempotent_exact` hold for a nested schema. -/
example : exFlat.Wf ∧ DotFree exFlat ∧ NestedConsistent exFlat := by
  refine ⟨.some (by decide) ?_, .some ?_ ?_, ?_⟩
  · intro p hp
    simp only [List.mem_cons, List.not_mem_nil, or_false] at hp
    rcases hp with rfl | rfl
    · exact .leaf
    · refine .some (by decide) ?_
      intro p hp
      simp only [List.mem_cons, List.not_mem_nil, or_false] at hp
      rcases hp with rfl | rfl <;> exact .leaf
  · intro p hp
    simp only [List.mem_cons, List.not_mem_nil, or_false] at hp
    rcases hp with rfl | rfl <;> decide
  · intro p hp
    simp only [List.mem_cons, List.not_mem_nil, or_false] at hp
    rcases hp with rfl | rfl
    · exact .leaf
    · refine .some ?_ ?_ <;>
        · intro p hp
          simp only [List.mem_cons, List.not_mem_nil, or_false] at hp
          rcases hp with rfl | rfl <;> first | exact .leaf | decide
  · intro n c hc m hm
    simp only [List.mem_cons, Prod.mk.injEq, List.not_mem_nil, or_false] at hc
    rcases hc with ⟨rfl, rfl⟩ | ⟨rfl, rfl⟩
    · simp [SNode.required] at hm
    · simp only [SNode.required, Option.getD_some, List.mem_singleton] at hm
      subst hm
      decide

example : flatten ⟨true, true⟩ exFlat =
    .object (some [(c!"a", .leaf (.int 1)), (c!"b.c", .leaf (.int 2)), (c!"b.a", .leaf (.int 3))]) (some false) (some [c!"b.c"]) .null := rfl

/-- A required path through two objects. -/
example : PathReq (.object (some [(c!"b", .object (some [(c!"c", .leaf .null)]) none (some [c!"c"]) .null)]) none (some [c!"b"]) .null)
    [c!"b", c!"c"] := .nested (.head _) (.head _) (.here (.head _) (.head _))

end Verif
