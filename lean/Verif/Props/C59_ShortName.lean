import Verif.Lemmas.ShortName
/-!
# C59: short names of types

A class is known to the model by its simple name, as in C47.  Names of collections are words joined by two underscores, so that class
names with two underscores in a row make them ambiguous (`C59_violated`).
-/
namespace Verif

/-- C59: without `force`, a name is returned for exactly the classes, `Any`, `None`, the empty tuple and these with annotations;
`TypeError` is raised for others. -/
theorem C59_simple (t : TypeExpr) (h : t.Applied) :
    (t.Simple ∧ ∃ s, t.pyName false = .ok s) ∨ (¬ t.Simple ∧ t.pyName false = .error .typeError) := shortName_total h

/-- C59: with `force`, a name is returned in addition for exactly the standard collections and the unions of such types, but not for
collections of collections; `TypeError` is raised for others. -/
theorem C59_force (t : TypeExpr) (h : t.Applied) :
    (t.Shallow ∧ ∃ s, t.pyName true = .ok s) ∨ (¬ t.Shallow ∧ t.pyName true = .error .typeError) := by
  have easy : (∀ o ts, t ≠ .generic o ts) → (∀ ts, t ≠ .union ts) → t.pyName true = t.shortName →
      (t.Shallow ∧ ∃ s, t.pyName true = .ok s) ∨ (¬ t.Shallow ∧ t.pyName true = .error .typeError) := by
    intro h1 h2 e
    rw [e]
    rcases shortName_total h with ⟨k1, k2⟩ | ⟨k1, k2⟩
    · exact Or.inl ⟨.simple k1, k2⟩
    · refine Or.inr ⟨?_, k2⟩
      intro hs
      cases hs with
      | simple hs => exact k1 hs
      | generic => exact h1 _ _ rfl
      | union => exact h2 _ rfl
  cases h with
  | generic ha hts => exact genericName_total ha hts
  | union _ hn hts => exact unionName_total hn hts
  | _ => exact easy (by simp) (by simp) rfl

/-- C59: a name that is returned without `force` is also returned with `force`, except for the empty tuple. -/
theorem C59_force_keeps (t : TypeExpr) (h : t.Applied) (hne : t ≠ .generic c!"tuple" []) (s : Str) (hs : t.pyName false = .ok s) :
    t.pyName true = .ok s := by
  rcases shortName_total h with ⟨k1, _⟩ | ⟨_, k2⟩
  · cases k1 with
    | emptyTuple => exact absurd rfl hne
    | _ => exact hs
  · have hs' : t.shortName = .ok s := hs
    rw [k2] at hs'
    cases hs'

/-- C59: annotations do not show in the name, except those of the auxiliary types. -/
theorem C59_annotations (force : Bool) (t : TypeExpr) (ms : List Annotation) (ht : TypedAnnotations ms)
    (h : ∀ a ∈ auxTypes, t = .named a.base → ms ≠ a.metas) : (TypeExpr.annotated t ms).pyName force = t.pyName false := by
  have : auxExact t ms = none := by
    cases he : auxExact t ms with
    | none => rfl
    | some a =>
      obtain ⟨h1, h2, h3⟩ := auxExact_some ht he
      exact absurd h3 (h a h1 h2)
  cases force <;> simp [TypeExpr.pyName, TypeExpr.shortName, this]

/-- C59: the auxiliary types have their own names, as in C58. -/
theorem C59_alias (force : Bool) (a : AuxType) (ha : a ∈ auxTypes) :
    (TypeExpr.annotated (.named a.base) a.metas).pyName force = .ok a.name := by
  have h : ∀ a ∈ auxTypes, (auxExact (.named a.base) a.metas).map AuxType.name = some a.name := by decide +kernel
  have := h a ha
  rw [Option.map_eq_some_iff] at this
  obtain ⟨b, e, en⟩ := this
  cases force <;> simp [TypeExpr.pyName, TypeExpr.shortName, e, en]

/-- C59 without `force`, for classes with plain names: types with the same name are equal apart from annotations. -/
theorem C59_unambiguous_partial (a b : TypeExpr) (ha : a.PlainNames) (hb : b.PlainNames) (s : Str) (h1 : a.pyName false = .ok s)
    (h2 : b.pyName false = .ok s) : a.bare = b.bare :=
  (shortName_nameOf ha h1).inj (shortName_nameOf hb h2)

/-- C59 with `force`, for classes with plain names: types with the same name are equal apart from annotations and the order of
`Optional`. -/
theorem C59_force_unambiguous_partial (a b : TypeExpr) (ha : a.PlainNames) (hb : b.PlainNames) (s : Str) (h1 : a.pyName true = .ok s)
    (h2 : b.pyName true = .ok s) : a.bareArgs.SameOpt b.bareArgs := by
  obtain ⟨ws, hw, e⟩ := pyName_words ha h1
  obtain ⟨ws', hw', e'⟩ := pyName_words hb h2
  have := joinWords_inj hw.ne_nil hw'.ne_nil hw.plain hw'.plain (e.symm.trans e')
  subst this
  exact hw.inj hw'

/-- C59 in full is false: a class may have the name of a collection, two dictionaries of different types may have the same name, and
the empty tuple has the name of the class of tuples. -/
theorem C59_violated :
    (TypeExpr.named c!"List__int").pyName true = (TypeExpr.generic c!"list" [.named c!"int"]).pyName true ∧
    (TypeExpr.generic c!"dict" [.named c!"A__B", .named c!"C"]).pyName true =
      (TypeExpr.generic c!"dict" [.named c!"A", .named c!"B__C"]).pyName true ∧
    (TypeExpr.generic c!"dict" [.named c!"A_", .named c!"B"]).pyName true =
      (TypeExpr.generic c!"dict" [.named c!"A", .named c!"_B"]).pyName true ∧
    (TypeExpr.generic c!"tuple" []).pyName false = (TypeExpr.named c!"tuple").pyName false := ⟨rfl, rfl, rfl, rfl⟩

/-! ### Examples -/

/-- `dict[str, Annotated[int, Tag()]]` and `Optional[int8]`. -/
def dictTagged : TypeExpr := .generic c!"dict" [.named c!"str", .annotated (.named c!"int") [⟨c!"Tag", []⟩]]
def optByte : TypeExpr := .union [.none, .annotated (.named c!"int") (auxInt c!"int8" true 1 (-128) 127).metas]

example : dictTagged.pyName true = .ok c!"Dict__str__int" ∧ dictTagged.pyName false = .error .typeError ∧
    optByte.pyName true = .ok c!"Optional__int8" := by with_unfolding_all exact ⟨rfl, rfl, rfl⟩

/-- Collections of collections have no name, not even with `force`. -/
example : (TypeExpr.generic c!"list" [.generic c!"list" [.named c!"int"]]).pyName true = .error .typeError := rfl

/-- Unlike `Optional[T]`, `Union` keeps `None`. -/
example : (TypeExpr.union [.named c!"int", .named c!"str", .none]).pyName true = .ok c!"Union__int__str__NoneType" := rfl

/-- The premises hold of both types. -/
example : dictTagged.PlainNames ∧ dictTagged.Applied ∧ optByte.PlainNames ∧ optByte.Applied := by
  have n1 : (TypeExpr.named c!"str").PlainNames := .named (plainNameB_plain (by decide)) (by decide) (by decide)
  have n2 : (TypeExpr.named c!"int").PlainNames := .named (plainNameB_plain (by decide)) (by decide) (by decide)
  have t1 : TypedAnnotations [⟨c!"Tag", []⟩] := by
    have : ∀ m ∈ [(⟨c!"Tag", []⟩ : Annotation)], ∀ a ∈ auxTypes, ∀ n ∈ a.metas, m.eq n = true → m = n := by decide +kernel
    exact this
  have t2 : TypedAnnotations (auxInt c!"int8" true 1 (-128) 127).metas := by
    have : ∀ m ∈ (auxInt c!"int8" true 1 (-128) 127).metas, ∀ a ∈ auxTypes, ∀ n ∈ a.metas, m.eq n = true → m = n := by decide +kernel
    exact this
  refine ⟨.generic (by simp) ?_, .generic ⟨fun _ => rfl, by decide, by decide⟩ ?_, .union (by simp) (by simp) ?_, .union (by simp) (by simp) ?_⟩ <;>
    intro t ht <;> simp only [List.mem_cons, List.not_mem_nil, or_false] at ht <;> rcases ht with rfl | rfl
  · exact n1
  · exact .annotated n2 rfl t1
  · exact .named
  · exact .annotated .named
  · exact .none
  · exact .annotated n2 rfl t2
  · exact .none
  · exact .annotated .named

/-- Two types with the same name that are equal apart from annotations. -/
example : (TypeExpr.generic c!"dict" [.named c!"str", .named c!"int"]).pyName true = dictTagged.pyName true ∧
    (TypeExpr.generic c!"dict" [.named c!"str", .named c!"int"]).bareArgs = dictTagged.bareArgs := by
  with_unfolding_all exact ⟨rfl, rfl⟩

end Verif
