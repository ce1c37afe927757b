import Verif.Lemmas.ScopedName
import Verif.Props.C47_TypeName
/-!
# C83: texts of types that have names in them
-/
namespace Verif

/-- C83: a text is that of the type with some names replaced by what they stand for, and the names that remain are variables of the
context.  Partial: no name may stand for `None` or be directly within `Annotated`, and `type_transform` is without `Annotated`. -/
theorem C83_text_partial {sc : NameScope} (hsc : sc.Simple) (pr : Char → Bool) (op : Bool) (n : Nat) (t : NTy) (x : Str) (ht : t.Simple sc)
    (h : sc.str pr op n t = .ok x) : ∃ u, t.Expanded sc u ∧ x = (u.shown sc).fmt pr op ∧
      (sc.context ≠ none → ∀ s, u.Mentions s → ∃ o, sc.var s = some o) := by
  obtain ⟨u, hu⟩ := str_shown hsc n t x ht h
  exact ⟨u, hu.expanded, hu.text, hu.known⟩

/-- C83, names of the context: there is a text, and the names are in it as they are; recursive types are no problem. -/
theorem C83_kept_partial {sc : NameScope} (pr : Char → Bool) (op : Bool) {t : NTy} (ht : t.Closed sc) :
    ∃ N, ∀ n, N ≤ n → sc.str pr op n t = .ok ((t.shown sc).fmt pr op) :=
  str_closed ht

/-- C83, unambiguous: two such types have the same text only if they show the same names in the same places. -/
theorem C83_unambiguous_partial {sc : NameScope} (pr : Char → Bool) (op : Bool) {t u : NTy} (ht : t.Closed sc) (hu : u.Closed sc)
    (ht' : (t.shown sc).Ok) (hu' : (u.shown sc).Ok) (h : ∀ N, ∃ n, N ≤ n ∧ sc.str pr op n t = sc.str pr op n u) :
    (op = true → t.shown sc = u.shown sc) ∧ (op = false → (t.shown sc).SameOpt (u.shown sc)) := by
  obtain ⟨N, h1⟩ := str_closed (pr := pr) (op := op) ht
  obtain ⟨M, h2⟩ := str_closed (pr := pr) (op := op) hu
  obtain ⟨n, hn, h3⟩ := h (max N M)
  rw [h1 n (by omega), h2 n (by omega), Except.ok.injEq] at h3
  exact ⟨fun ho => C47_bars pr _ _ ht' hu' (ho ▸ h3), fun ho => (C47_brackets pr _ _ ht' hu').1 (ho ▸ h3)⟩

/-- C83, the function `python_type_to_str`: no context is used, so names are shown as they are given. -/
theorem C83_function (pr : Char → Bool) (op : Bool) (moduleOf : Str → List (Str × NTy)) (expr : Str → Res NTy) (ident : Str → Bool) {t : NTy}
    (ht : t.Closed ⟨none, expr, none, ident⟩) :
    ∃ N, ∀ n, N ≤ n → pythonTypeToStr pr op moduleOf expr ident n t = .ok ((t.shown ⟨none, expr, none, ident⟩).fmt pr op) := by
  cases ht with
  | named c =>
    refine ⟨1, fun n hn => ?_⟩
    obtain ⟨m, rfl⟩ : ∃ m, n = m + 1 := ⟨n - 1, by omega⟩
    rfl
  | _ => exact str_closed (by first | assumption | (constructor <;> assumption) | constructor)

/-- Without a context, texts that are not identifiers have no text. -/
theorem C83_context_fails (sc : NameScope) (pr : Char → Bool) (op : Bool) (n : Nat) (s : Str) (hc : sc.context = none)
    (hi : sc.ident s = false) : sc.str pr op (n + 1) (.text s) = .error .valueError := by
  simp [NameScope.str, hc, hi]

/-- The variables of the evaluating function: the text `typ` stands for itself, so that there is no end. -/
theorem C83_typ_fails (sc : NameScope) (pr : Char → Bool) (op : Bool) (vars : List (Str × NTy)) (hc : sc.context = some vars)
    (hv : lookupKey c!"typ" vars = none) : ∀ n, sc.str pr op n (.text c!"typ") = .error .recursion
  | 0 => rfl
  | n + 1 => by
    have he : sc.eval c!"typ" = .ok (.text c!"typ") := rfl
    simp only [NameScope.str, hc, hv, he, C83_typ_fails sc pr op vars hc hv n, Option.isSome_none, Bool.and_false]
    rfl

/-- A module with `class A`, `Tree = Union[int, "list[Tree]"]` and `Nodes = list["Nodes"]`. -/
def nodeScope (transform : Option (Str → Str)) : NameScope where
  context := some [(c!"A", .named c!"A"), (c!"Tree", .union [.named c!"int", .ref c!"list[Tree]"]), (c!"Nodes", .generic c!"list" [.text c!"Nodes"])]
  expr := fun s => if s = c!"list[Tree]" then .ok (.generic c!"list" [.union [.named c!"int", .ref c!"list[Tree]"]]) else .error .name
  transform := transform
  ident := fun s => s.all fun c => c.isAlphanum || c == '_'

/-- A type that refers to itself in an expression has no text: there is no end to it. -/
theorem C83_recursive_fails (f : Option (Str → Str)) (pr : Char → Bool) : ∀ n, (nodeScope f).str pr true n (.ref c!"list[Tree]") = .error .recursion
  | 0 => rfl
  | 1 => rfl
  | 2 => rfl
  | 3 => rfl
  | n + 4 => by
    have ih := C83_recursive_fails f pr (n + 1)
    have he : (nodeScope f).eval c!"list[Tree]" = .ok (.generic c!"list" [.union [.named c!"int", .ref c!"list[Tree]"]]) := rfl
    have hi : (nodeScope f).str pr true (n + 1) (.named c!"int") = .ok ((nodeScope f).className c!"int") := rfl
    have h1 : (nodeScope f).str pr true (n + 2) (.union [.named c!"int", .ref c!"list[Tree]"]) = .error .recursion := by
      rw [NameScope.str]
      simp only [if_true, List.map_cons, List.map_nil, hi, ih, strAll, wrapStr]
    have h2 : (nodeScope f).str pr true (n + 3) (.generic c!"list" [.union [.named c!"int", .ref c!"list[Tree]"]]) = .error .recursion := by
      rw [NameScope.str]
      simp only [List.map_cons, List.map_nil, h1, strAll, wrapStr]
    rw [NameScope.str]
    simp only [he, h2]
    rfl

/-- `type_transform` is applied to a class given by a forward reference, but not to one given by a text. -/
theorem C83_transform_fails (pr : Char → Bool) (op : Bool) :
    (nodeScope (some fun c => c!"m." ++ c)).str pr op 2 (.generic c!"list" [.named c!"A"]) = .ok c!"list[m.A]" ∧
    (nodeScope (some fun c => c!"m." ++ c)).str pr op 2 (.generic c!"list" [.ref c!"A"]) = .ok c!"list[m.A]" ∧
    (nodeScope (some fun c => c!"m." ++ c)).str pr op 2 (.generic c!"list" [.text c!"A"]) = .ok c!"list[A]" :=
  ⟨rfl, rfl, rfl⟩

/-! ### The hypotheses are met -/

example (pr : Char → Bool) : (nodeScope none).str pr true 5 (.generic c!"dict" [.named c!"str", .union [.ref c!"Nodes", .none]]) =
    .ok c!"dict[str, Nodes | None]" := rfl
example : (NTy.generic c!"dict" [.named c!"str", .union [.ref c!"Nodes", .none]]).Closed (nodeScope none) := by
  refine .generic _ _ fun t ht => ?_
  simp only [List.mem_cons, List.not_mem_nil, or_false] at ht
  rcases ht with rfl | rfl
  · exact .named _
  · refine .union _ fun t ht => ?_
    simp only [List.mem_cons, List.not_mem_nil, or_false] at ht
    rcases ht with rfl | rfl
    · exact .ref _ (.inr ⟨_, rfl, by simp⟩)
    · exact .none

/-- A module with `class A` in which `"list[A]"` can be evaluated. -/
def listScope : NameScope where
  context := some [(c!"A", .named c!"A")]
  expr := fun s => if s = c!"list[A]" then .ok (.generic c!"list" [.named c!"A"]) else .error .name
  transform := none
  ident := fun s => s.all fun c => c.isAlphanum || c == '_'

example : listScope.Simple := by
  intro s o h
  unfold NameScope.eval at h
  split at h
  · cases h; exact ⟨.text _, by simp⟩
  · split at h
    · cases h; exact ⟨.other, by simp⟩
    · split at h
      · rename_i o' ho
        cases h
        have := lookupKey_some_mem (show lookupKey s [(c!"A", NTy.named c!"A")] = some o from ho)
        simp only [List.mem_cons, Prod.mk.injEq, List.not_mem_nil, or_false] at this
        obtain ⟨_, rfl⟩ := this
        exact ⟨.named _, by simp⟩
      · simp only [listScope] at h
        split at h
        · cases h
          exact ⟨.generic _ _ fun t ht => by simp only [List.mem_singleton] at ht; subst ht; exact .named _, by simp⟩
        · cases h
example (pr : Char → Bool) : listScope.str pr false 5 (.union [.ref c!"list[A]", .text c!"A"]) = .ok c!"Union[list[A], A]" := rfl

end Verif
