import Verif.Lemmas.ClassBuildRead
import Verif.Props.C11_RoundTrip
import Verif.Props.C21_Union
import Verif.Props.C24_C25_LiteralEnum
/-!
# C11: items that may be `None`
-/
namespace Verif

/-- `None` in a list of optional members of an enumeration is written, but cannot be read: the enumeration comes first, and its
`ValueError` is not taken for a mismatch.  This is so for every enumeration without a member whose value is `None`. -/
theorem C11_optional_enum_fails (env : Env) (hk : env.Ok) (skip : Bool) (e : Nat) (ed : EnumDef) (he : env.enums[e]? = some ed)
    (hn : ∀ m ∈ ed.members, m.2 ≠ .none) :
    HasTy env (.list [.none]) (.list (.union [.enum e, .none])) ∧ Encodable (.list [.none]) ∧
      objectToJson env (.list [.none]) = .ok (.arr [.null]) ∧
      loads env skip (.list (.union [.enum e, .none])) (.arr [.null]) = .error .valueError := by
  have hu : Untagged env [.enum e, .none] := by rw [← discProps_nil_iff]; rfl
  have hs : ∀ t ∈ [Ty.enum e, .none], Supported env t := by
    intro t ht
    simp only [List.mem_cons, List.not_mem_nil, or_false] at ht
    rcases ht with rfl | rfl
    · exact ⟨_, by simp only [compile, tyKey, he, Option.map_some]; rfl⟩
    · exact ⟨_, rfl⟩
  have hsu : Supported env (.union [.enum e, .none]) := by
    obtain ⟨ds, hc, _⟩ := compile_untagged hu hs
    exact ⟨_, hc⟩
  have hunion : loads env skip (.union [.enum e, .none]) .null = .error .valueError := by
    rw [C21_error_iff env skip _ hu hs]
    refine .inr ⟨[], .enum e, [.none], rfl, by simp, by simp, ?_, by simp⟩
    rw [C25_unknown env hk skip e ed he .null (by simp)]
    intro name x s hm hs
    cases hs
    cases x <;> first | rfl | exact absurd rfl (hn _ hm)
  refine ⟨.list ?_, ?_, rfl, ?_⟩
  · intro w hw
    rw [List.mem_singleton] at hw
    subst hw
    exact .union (t := .none) (by simp) .none
  · refine .list fun w hw => ?_
    rw [List.mem_singleton] at hw
    subst hw
    exact .leaf rfl (by simp) (by simp) (by simp)
  · rw [loads_list_eq hsu]
    simp only [mapRes, hunion]

/-- An enumeration of this kind. -/
example : ∃ (env : Env) (ed : EnumDef), env.Ok ∧ env.enums[0]? = some ed ∧ ∀ m ∈ ed.members, m.2 ≠ .none :=
  ⟨⟨[{ module := c!"m", name := c!"E", members := [(c!"A", .str c!"a"), (c!"B", .str c!"b")] }], [], id⟩, _,
    ⟨by simp, by simp [EnumDef.Ok, Scalar.pyEq], by simp, fun _ => .refl _⟩, rfl, by simp⟩

end Verif
