import Verif.Lemmas.TypeName
/-!
# C47: type names are unambiguous

A class is known to the model by its simple name, which is the premise of the property (classes of the same name in two modules have
the same text).  `TypeExpr.Ok` only excludes expressions that `typing` cannot build, and classes named like a special form.
-/
namespace Verif

/-- C47 with `use_union_operator=True` (`X | Y`): different type expressions have different texts. -/
theorem C47_bars (pr : Char → Bool) (a b : TypeExpr) (ha : a.Ok) (hb : b.Ok) (h : a.fmt pr true = b.fmt pr true) : a = b := by
  have := (fmt_cancels pr true a ha).full b [] [] hb (by intro c hc; simp at hc) (by intro c hc; simp at hc) (by rw [h])
  exact this.1.2 rfl

/-- C47 with `use_union_operator=False` (`Union[X, Y]`): two type expressions have the same text exactly if they are equal up to
the order of the members of `Optional[T]`, that is, `Union[T, None]` and `Union[None, T]`. -/
theorem C47_brackets (pr : Char → Bool) (a b : TypeExpr) (ha : a.Ok) (hb : b.Ok) :
    a.fmt pr false = b.fmt pr false ↔ a.SameOpt b := by
  constructor
  · intro h
    have := (fmt_cancels pr false a ha).full b [] [] hb (by intro c hc; simp at hc) (by intro c hc; simp at hc) (by rw [h])
    exact this.1.1
  · exact fmt_sameOpt pr

/-- C47: `Optional` is written for exactly the unions of `None` and one other type. -/
theorem C47_optional (pr : Char → Bool) (t : TypeExpr) (ht : t.isNone = false) :
    (TypeExpr.union [t, .none]).fmt pr false = c!"Optional[" ++ (t.fmt pr false ++ c!"]") ∧
    (TypeExpr.union [.none, t]).fmt pr false = c!"Optional[" ++ (t.fmt pr false ++ c!"]") := by
  have hn : TypeExpr.none.isNone = true := rfl
  constructor <;> simp [TypeExpr.fmt, fmtSome_eq, optionalArgs, ht, hn, joinStr]

/-! ### Examples -/

/-- `dict[str, list[Optional[Color]]]`, `Union[Literal['a', 1, <Color.RED: 'r'>], tuple[int, ...], None]`. -/
def tyA : TypeExpr := .generic c!"dict" [.named c!"str", .generic c!"list" [.union [.named c!"Color", .none]]]
def tyB : TypeExpr := .union [.literal [.atom (.str c!"it's"), .atom (.int (-1)), .enum c!"Color" c!"RED" (.str c!"r")],
  .generic c!"tuple" [.named c!"int", .ellipsis], .none]

example : tyA.fmt (fun _ => true) false = c!"dict[str, list[Optional[Color]]]" := by decide +kernel
example : tyA.fmt (fun _ => true) true = c!"dict[str, list[Color | None]]" := by decide +kernel
example : tyB.fmt (fun _ => true) false = c!"Union[Literal[\"it's\", -1, <Color.RED: 'r'>], tuple[int, ...], None]" := by decide +kernel
example : tyB.fmt (fun _ => true) true = c!"Literal[\"it's\", -1, <Color.RED: 'r'>] | tuple[int, ...] | None" := by decide +kernel

/-- The premises hold of both. -/
example : tyA.Ok ∧ tyB.Ok := by
  constructor
  · refine .generic ⟨by decide, by decide⟩ (by decide) ?_
    intro t ht
    simp only [List.mem_cons, List.not_mem_nil, or_false] at ht
    rcases ht with rfl | rfl
    · exact .named ⟨by decide, by decide⟩ (by decide)
    · refine .generic ⟨by decide, by decide⟩ (by decide) ?_
      intro t ht
      simp only [List.mem_cons, List.not_mem_nil, or_false] at ht
      subst ht
      refine .union (by simp) (by simp) ?_ ?_
      · intro t ht
        simp only [List.mem_cons, List.not_mem_nil, or_false] at ht
        rcases ht with rfl | rfl <;> rfl
      · intro t ht
        simp only [List.mem_cons, List.not_mem_nil, or_false] at ht
        rcases ht with rfl | rfl
        · exact .named ⟨by decide, by decide⟩ (by decide)
        · exact .none
  · refine .union (by simp) (by simp) ?_ ?_
    · intro t ht
      simp only [List.mem_cons, List.not_mem_nil, or_false] at ht
      rcases ht with rfl | rfl | rfl <;> rfl
    · intro t ht
      simp only [List.mem_cons, List.not_mem_nil, or_false] at ht
      rcases ht with rfl | rfl | rfl
      · refine .literal ?_
        intro v hv
        simp only [List.mem_cons, List.not_mem_nil, or_false] at hv
        rcases hv with rfl | rfl | rfl
        · exact True.intro
        · exact True.intro
        · exact ⟨⟨by decide, by decide⟩, ⟨by decide, by decide⟩⟩
      · refine .generic ⟨by decide, by decide⟩ (by decide) ?_
        intro t ht
        simp only [List.mem_cons, List.not_mem_nil, or_false] at ht
        rcases ht with rfl | rfl
        · exact .named ⟨by decide, by decide⟩ (by decide)
        · exact .ellipsis
      · exact .none

/-- The text of `Union[T, None]` and `Union[None, T]` differs with bars. -/
example : (TypeExpr.union [.named c!"int", .none]).fmt (fun _ => true) true ≠
    (TypeExpr.union [.none, .named c!"int"]).fmt (fun _ => true) true := by decide +kernel

/-- A literal that looks like a list of literals is told apart by the escapes. -/
example : (TypeExpr.literal [.atom (.str c!"a', 'b")]).fmt (fun _ => true) false = c!"Literal[\"a', 'b\"]" ∧
    (TypeExpr.literal [.atom (.str c!"a"), .atom (.str c!"b")]).fmt (fun _ => true) false = c!"Literal['a', 'b']" := by
  decide +kernel

/-- The premise on names is needed: a class named `Any` has the text of `typing.Any`. -/
example : (TypeExpr.named c!"Any").fmt (fun _ => true) false = TypeExpr.any.fmt (fun _ => true) false := by decide

end Verif
