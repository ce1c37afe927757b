import Verif.Lemmas.TypeName
/-!
# C58: annotated types are named unambiguously

`Annotated[T, …]` is written with all its annotations, in their order; the auxiliary types (`int8`, `float32`, …) are written by
their names, with the annotations that go beyond theirs.  The code looks for the annotations of an auxiliary type as a set, so that
their order and number is lost if they do not come first (`C58_violated`, `C58_repeated_violated`).
-/
namespace Verif

/-- C58: an annotated type is written as the name of an auxiliary type exactly if it is that type. -/
theorem C58_alias (pr : Char → Bool) (op : Bool) (t : TypeExpr) (ms : List Annotation) (ht : TypedAnnotations ms) (a : AuxType)
    (ha : a ∈ auxTypes) : (TypeExpr.annotated t ms).fmt pr op = a.name ↔ t = .named a.base ∧ ms = a.metas := by
  have key : ∀ {b : AuxType} {x : Str}, b ∈ auxTypes → c!"Annotated[" ++ x ≠ b.name := by
    intro b x hb e
    exact (auxName_isName hb).2 '[' (by rw [← e]; simp) (by decide)
  constructor
  · intro h
    simp only [TypeExpr.fmt, annotatedStr] at h
    cases he : auxExact t ms with
    | some b =>
      rw [he] at h
      obtain ⟨h1, h2, h3⟩ := auxExact_some ht he
      have := auxTypes_name_inj b h1 a ha h
      subst this
      exact ⟨h2, h3⟩
    | none =>
      rw [he] at h
      cases hw : auxWithin t ms with
      | some b => rw [hw] at h; exact absurd h (key ha)
      | none => rw [hw] at h; exact absurd h (key ha)
  · rintro ⟨h1, h2⟩
    cases he : auxExact t ms with
    | some b =>
      obtain ⟨k1, k2, k3⟩ := auxExact_some ht he
      have hi : ∀ a ∈ auxTypes, ∀ b ∈ auxTypes, a.base = b.base → a.metas = b.metas → a = b := by decide +kernel
      rw [h1] at k2
      rw [h2] at k3
      have := hi a ha b k1 (by simpa using k2) k3
      subst this
      simp only [TypeExpr.fmt, annotatedStr, he]
    | none => exact absurd h2 (auxExact_none he a ha h1)

/-- C58: the name of an auxiliary integer type tells the number of bits, and its annotations the numbers with so many bits. -/
theorem C58_integers (pr : Char → Bool) (op : Bool) : ∀ w ∈ [1, 2, 4, 8],
    (TypeExpr.annotated (.named c!"int") [⟨c!"Signed", [.bool true]⟩, ⟨c!"Storage", [.int (w : Nat)]⟩,
      ⟨c!"IntegerRange", [.int (-(2 ^ (8 * w - 1))), .int (2 ^ (8 * w - 1) - 1)]⟩]).fmt pr op = c!"int" ++ intStr ((8 * w : Nat) : Int) ∧
    (TypeExpr.annotated (.named c!"int") [⟨c!"Signed", [.bool false]⟩, ⟨c!"Storage", [.int (w : Nat)]⟩,
      ⟨c!"IntegerRange", [.int 0, .int (2 ^ (8 * w) - 1)]⟩]).fmt pr op = c!"uint" ++ intStr ((8 * w : Nat) : Int) := by
  have h : ∀ w ∈ [1, 2, 4, 8],
      (auxExact (.named c!"int") [⟨c!"Signed", [.bool true]⟩, ⟨c!"Storage", [.int (w : Nat)]⟩,
        ⟨c!"IntegerRange", [.int (-(2 ^ (8 * w - 1))), .int (2 ^ (8 * w - 1) - 1)]⟩]).map AuxType.name =
          some (c!"int" ++ intStr ((8 * w : Nat) : Int)) ∧
      (auxExact (.named c!"int") [⟨c!"Signed", [.bool false]⟩, ⟨c!"Storage", [.int (w : Nat)]⟩,
        ⟨c!"IntegerRange", [.int 0, .int (2 ^ (8 * w) - 1)]⟩]).map AuxType.name = some (c!"uint" ++ intStr ((8 * w : Nat) : Int)) := by
    decide +kernel
  intro w hw
  obtain ⟨h1, h2⟩ := h w hw
  rw [Option.map_eq_some_iff] at h1 h2
  obtain ⟨a, ea, na⟩ := h1
  obtain ⟨b, eb, nb⟩ := h2
  exact ⟨by simp only [TypeExpr.fmt, annotatedStr, ea, na], by simp only [TypeExpr.fmt, annotatedStr, eb, nb]⟩

/-- C58: annotations beyond those of an auxiliary type are written after its name, in their order. -/
theorem C58_extra (pr : Char → Bool) (op : Bool) (a : AuxType) (ha : a ∈ auxTypes) (rest : List Annotation) (hne : rest ≠ [])
    (ht : TypedAnnotations (a.metas ++ rest)) (ho : OrderlyAnnotations (.named a.base) (a.metas ++ rest)) :
    (TypeExpr.annotated (.named a.base) (a.metas ++ rest)).fmt pr op =
      c!"Annotated[" ++ (a.name ++ (c!", " ++ (joinStr c!", " (rest.map (Annotation.repr pr)) ++ c!"]"))) := by
  have pre : ∀ a ∈ auxTypes, ∀ b ∈ auxTypes, a.base = b.base →
      (a.metas.take b.metas.length = b.metas ∨ b.metas.take a.metas.length = a.metas) → a = b := by decide +kernel
  have uniq : ∀ {b : AuxType} {rest' : List Annotation}, b ∈ auxTypes → a.base = b.base →
      a.metas ++ rest = b.metas ++ rest' → a = b ∧ rest = rest' := by
    intro b rest' hb hbase e
    have : a = b := by
      refine pre a ha b hb hbase ?_
      rcases Nat.le_total b.metas.length a.metas.length with hl | hl
      · left
        have := congrArg (List.take b.metas.length) e
        rwa [List.take_append_of_le_length hl, List.take_append_of_le_length (Nat.le_refl _), List.take_length] at this
      · right
        have := congrArg (List.take a.metas.length) e
        rw [List.take_append_of_le_length hl, List.take_append_of_le_length (Nat.le_refl _), List.take_length] at this
        exact this.symm
    subst this
    exact ⟨rfl, List.append_cancel_left e⟩
  rcases annotated_cases pr op ht ho with ⟨b, hb, he, h1, h2, h3⟩ | ⟨b, hb, rest', he, h1, h2, h3⟩ | ⟨he, hw, h3⟩
  · have := uniq (rest' := []) hb (by simpa using h1) (by simpa using h2)
    exact absurd this.2 hne
  · obtain ⟨rfl, rfl⟩ := uniq hb (by simpa using h1) h2
    exact h3
  · exact absurd (fun m hm => by simp [hm]) (auxWithin_none hw a ha rfl)

/-- C58: other annotated types are written with the type and all annotations, in their order. -/
theorem C58_plain (pr : Char → Bool) (op : Bool) (t : TypeExpr) (ms : List Annotation) (hn : t ≠ .none) (ht : TypedAnnotations ms)
    (h : ∀ a ∈ auxTypes, t = .named a.base → ∃ m ∈ a.metas, m ∉ ms) :
    (TypeExpr.annotated t ms).fmt pr op =
      c!"Annotated[" ++ (t.fmt pr op ++ (c!", " ++ (joinStr c!", " (ms.map (Annotation.repr pr)) ++ c!"]"))) := by
  have ho : OrderlyAnnotations t ms := by
    intro a ha e hall
    obtain ⟨m, hm, hno⟩ := h a ha e
    exact absurd (hall m hm) hno
  rcases annotated_cases pr op ht ho with ⟨b, hb, he, h1, h2, h3⟩ | ⟨b, hb, rest', he, h1, h2, h3⟩ | ⟨he, hw, h3⟩
  · obtain ⟨m, hm, hno⟩ := h b hb h1
    exact absurd (h2 ▸ hm) hno
  · obtain ⟨m, hm, hno⟩ := h b hb h1
    exact absurd (by rw [h2]; simp [hm]) hno
  · have : t.head = t := by cases t <;> first | rfl | exact absurd rfl hn
    rw [h3, this]

/-- C58, for annotated types whose annotations are typed and come in the order of the auxiliary type if they include one: types with
the same text have the same annotations in the same order, and the annotated types are equal (without the union operator, up to
the order of `Optional`).  In full the statement is false (`C58_violated`). -/
theorem C58_unambiguous_partial (pr : Char → Bool) (op : Bool) (t u : TypeExpr) (ms ns : List Annotation)
    (ha : (TypeExpr.annotated t ms).Ok) (hb : (TypeExpr.annotated u ns).Ok)
    (h : (TypeExpr.annotated t ms).fmt pr op = (TypeExpr.annotated u ns).fmt pr op) : ms = ns ∧ t.SameOpt u ∧ (op = true → t = u) := by
  obtain ⟨⟨h1, h2⟩, _⟩ := (fmt_cancels pr op _ ha).full _ [] [] hb (by intro c hc; simp at hc) (by intro c hc; simp at hc) (by rw [h])
  cases h1 with
  | annotated hs => exact ⟨rfl, hs, fun e => by have := h2 e; simpa using this⟩

/-- C58: an annotated type never has the text of a type without annotations. -/
theorem C58_visible_partial (pr : Char → Bool) (op : Bool) (t u : TypeExpr) (ms : List Annotation) (ha : (TypeExpr.annotated t ms).Ok)
    (hu : u.Ok) (hx : u.isAnnotated = false) : (TypeExpr.annotated t ms).fmt pr op ≠ u.fmt pr op := by
  intro h
  obtain ⟨⟨h1, _⟩, _⟩ := (fmt_cancels pr op _ ha).full u [] [] hu (by intro c hc; simp at hc) (by intro c hc; simp at hc) (by rw [h])
  cases h1 with
  | annotated => simp [TypeExpr.isAnnotated] at hx

/-- `Annotated[float, Storage(4), Storage(8)]` and `Annotated[float, Storage(8), Storage(4)]`. -/
def twoStorages : TypeExpr := .annotated (.named c!"float") [⟨c!"Storage", [.int 4]⟩, ⟨c!"Storage", [.int 8]⟩]
def storagesTwo : TypeExpr := .annotated (.named c!"float") [⟨c!"Storage", [.int 8]⟩, ⟨c!"Storage", [.int 4]⟩]

/-- C58 in full is false: the annotations of two types with the same text come in different orders. -/
theorem C58_violated (pr : Char → Bool) (op : Bool) : twoStorages.fmt pr op = storagesTwo.fmt pr op ∧
    twoStorages.fmt pr op = c!"Annotated[float32, Storage(8)]" ∧ twoStorages ≠ storagesTwo := by
  refine ⟨rfl, rfl, ?_⟩
  simp [twoStorages, storagesTwo]

/-- C58 in full is false: the name of an auxiliary type is written without annotations if there are only its own in another order
or repeatedly.  (`Annotated[float32, ]` is not a type for Python.) -/
theorem C58_repeated_violated (pr : Char → Bool) (op : Bool) (n : Nat) :
    (TypeExpr.annotated (.named c!"float") (List.replicate (n + 2) ⟨c!"Storage", [.int 4]⟩)).fmt pr op =
      c!"Annotated[float32, ]" := by
  have hs : ∀ n, List.filter (fun m => !Annotation.isIn m [⟨c!"Storage", [.int 4]⟩])
      (List.replicate n (⟨c!"Storage", [.int 4]⟩ : Annotation)) = [] := by
    intro n
    rw [List.filter_eq_nil_iff]
    intro m hm
    rw [(List.mem_replicate.1 hm).2]
    decide
  have h1 : auxExact (.named c!"float") (List.replicate (n + 2) ⟨c!"Storage", [.int 4]⟩) = none := by
    rfl
  have h2 : auxWithin (.named c!"float") (List.replicate (n + 2) ⟨c!"Storage", [.int 4]⟩) =
      some ⟨c!"float32", c!"float", [⟨c!"Storage", [.int 4]⟩]⟩ := by
    rfl
  simp only [TypeExpr.fmt, annotatedStr, h1, h2, hs]
  rfl

/-! ### Examples -/

/-- `Annotated[list[Optional[int8]], MinLength(1), Tag("a, b", None)]`. -/
def listTagged : TypeExpr := .annotated (.generic c!"list" [.union [.annotated (.named c!"int") (auxInt c!"int8" true 1 (-128) 127).metas, .none]])
  [⟨c!"MinLength", [.int 1]⟩, ⟨c!"Tag", [.str c!"a, b", .none]⟩]

example : listTagged.fmt (fun _ => true) false = c!"Annotated[list[Optional[int8]], MinLength(1), Tag('a, b', None)]" := by decide +kernel
example : listTagged.fmt (fun _ => true) true = c!"Annotated[list[int8 | None], MinLength(1), Tag('a, b', None)]" := by decide +kernel

/-- `Annotated[int8, Tag("x")]`. -/
def byteTagged : TypeExpr := .annotated (.named c!"int") ((auxInt c!"int8" true 1 (-128) 127).metas ++ [⟨c!"Tag", [.str c!"x"]⟩])

example : byteTagged.fmt (fun _ => true) false = c!"Annotated[int8, Tag('x')]" := by decide +kernel

/-- The premises hold of both. -/
example : listTagged.Ok ∧ byteTagged.Ok := by
  have int8Ok : ∀ rest : List Annotation, rest = [] ∨ rest = [⟨c!"Tag", [.str c!"x"]⟩] →
      (TypeExpr.annotated (.named c!"int") ((auxInt c!"int8" true 1 (-128) 127).metas ++ rest)).Ok := by
    intro rest hrest
    refine .annotated (.named ⟨by decide, by decide⟩ (by decide)) rfl rfl (by simp) ?_ ?_ ?_
    · have : ∀ rest ∈ [[], [(⟨c!"Tag", [.str c!"x"]⟩ : Annotation)]], ∀ m ∈ (auxInt c!"int8" true 1 (-128) 127).metas ++ rest,
          m.name ≠ [] ∧ ∀ c ∈ m.name, c ∉ notInNames := by decide +kernel
      exact this rest (by simpa using hrest)
    · have : ∀ rest ∈ [[], [(⟨c!"Tag", [.str c!"x"]⟩ : Annotation)]], ∀ m ∈ (auxInt c!"int8" true 1 (-128) 127).metas ++ rest,
          ∀ a ∈ auxTypes, ∀ n ∈ a.metas, m.eq n = true → m = n := by decide +kernel
      exact this rest (by simpa using hrest)
    · have : ∀ rest ∈ [[], [(⟨c!"Tag", [.str c!"x"]⟩ : Annotation)]], ∀ a ∈ auxTypes, c!"int" = a.base →
          (∀ m ∈ a.metas, m ∈ (auxInt c!"int8" true 1 (-128) 127).metas ++ rest) → (auxInt c!"int8" true 1 (-128) 127).metas = a.metas ∧
            ∀ m ∈ rest, m ∉ a.metas := by decide +kernel
      intro a ha e h
      obtain ⟨h1, h2⟩ := this rest (by simpa using hrest) a ha (by simpa using e) h
      exact ⟨rest, by rw [h1], h2⟩
  refine ⟨?_, int8Ok _ (Or.inr rfl)⟩
  refine .annotated (.generic ⟨by decide, by decide⟩ (by decide) ?_) rfl rfl (by simp) ?_ ?_ ?_
  · intro t ht
    simp only [List.mem_singleton] at ht
    subst ht
    refine .union (by simp) (by simp) ?_ ?_
    · intro t ht
      simp only [List.mem_cons, List.not_mem_nil, or_false] at ht
      rcases ht with rfl | rfl <;> rfl
    · intro t ht
      simp only [List.mem_cons, List.not_mem_nil, or_false] at ht
      rcases ht with rfl | rfl
      · exact int8Ok [] (Or.inl rfl)
      · exact .none
  · have : ∀ m ∈ [(⟨c!"MinLength", [.int 1]⟩ : Annotation), ⟨c!"Tag", [.str c!"a, b", .none]⟩],
        m.name ≠ [] ∧ ∀ c ∈ m.name, c ∉ notInNames := by decide +kernel
    exact this
  · have : ∀ m ∈ [(⟨c!"MinLength", [.int 1]⟩ : Annotation), ⟨c!"Tag", [.str c!"a, b", .none]⟩],
        ∀ a ∈ auxTypes, ∀ n ∈ a.metas, m.eq n = true → m = n := by decide +kernel
    exact this
  · intro a _ e
    simp at e

/-- The premise on annotations is needed: for Python `Signed(1) == Signed(True)`. -/
example : (TypeExpr.annotated (.named c!"int") [⟨c!"Signed", [.int 1]⟩, ⟨c!"Storage", [.int 1]⟩,
    ⟨c!"IntegerRange", [.int (-128), .int 127]⟩]).fmt (fun _ => true) false = c!"int8" := by decide +kernel

end Verif
