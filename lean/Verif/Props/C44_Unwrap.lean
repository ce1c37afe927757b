import Verif.Lemmas.Inspection
/-!
# C44: helpers that unwrap types
-/
namespace Verif

/-- The members of `ts` other than `None`, in order. -/
def WithoutNone (ts rest : List Ty) : Prop := rest.Sublist ts ∧ ∀ t, t ∈ rest ↔ t ∈ ts ∧ t ≠ .none

/-- `u` is the union of the members `rest` with the annotations `ms`: a single member stands for itself, and its own
annotations come first. -/
def IsUnionWith (u : Ty) (rest : List Ty) (ms : List Meta) : Prop :=
  (2 ≤ rest.length ∧ Ty.Parts u (.union rest) ms) ∨
  (∃ w core ns, rest = [w] ∧ Ty.Parts w core ns ∧ Ty.Parts u core (ns ++ ms))

/-- C44 in full for a type `t`. -/
def C44_statement (t : Ty) : Prop :=
  -- is_type_optional and is_type_union decide the documented shapes
  (isTypeOptional false t = true ↔ ∃ ts ms, Ty.Parts t (.union ts) ms ∧ .none ∈ ts) ∧
  (isTypeOptional true t = true ↔ ∃ w ms, Ty.Parts t (.union [w, .none]) ms ∨ Ty.Parts t (.union [.none, w]) ms) ∧
  (isTypeUnion t = true ↔
    ∃ ts ms, Ty.Parts t (.union ts) ms ∧ ¬ ∃ w, ts = [w, .none] ∨ ts = [.none, w]) ∧
  -- unwrap_optional_type removes exactly None and keeps the annotations
  (∀ ts ms, Ty.Parts t (.union ts) ms → .none ∈ ts → ∃ u rest, unwrapOptionalType t = .ok u ∧ WithoutNone ts rest ∧
    IsUnionWith u rest ms ∧ ∀ env v, HasTy env v t ↔ v = .none ∨ HasTy env v u) ∧
  -- unwrap_union_types gives the members of a union
  (∀ ts ms, Ty.Parts t (.union ts) ms → isTypeUnion t = true → unwrapUnionTypes t = .ok ts) ∧
  -- rewrapping transforms the type inside and keeps the annotations
  (∀ core ms f u, Ty.Parts t core ms → f core = .ok u → (∀ w ns, u ≠ .annotated w ns) →
    ∃ r, rewrapAnnotated f t = .ok r ∧ r.unwrapAnn = u ∧ ∀ p, getAnnotation p r = ms.find? p)

theorem parts_fun {t core core' : Ty} {ms ms' : List Meta} (h : Ty.Parts t core ms) (h' : Ty.Parts t core' ms') :
    core = core' ∧ ms = ms' := by
  cases h with
  | annotated => cases h' with
    | annotated => exact ⟨rfl, rfl⟩
    | plain h => exact absurd rfl (h _ _)
  | plain h => cases h' with
    | annotated => exact absurd rfl (h _ _)
    | plain => exact ⟨rfl, rfl⟩

theorem parts_exists (t : Ty) : ∃ ms, Ty.Parts t t.unwrapAnn ms := by
  cases t <;> first | exact ⟨_, .annotated⟩ | exact ⟨[], .plain (by intro u ms h; cases h)⟩

theorem parts_core {t core : Ty} {ms : List Meta} (h : Ty.Parts t core ms) : t.unwrapAnn = core := by
  obtain ⟨ms', h'⟩ := parts_exists t
  exact (parts_fun h' h).1

theorem isNone_iff (t : Ty) : t.isNone = true ↔ t = .none := by
  cases t <;> simp [Ty.isNone]

theorem any_none (ts : List Ty) : ts.any Ty.isNone = true ↔ Ty.none ∈ ts := by
  rw [List.any_eq_true]
  constructor
  · rintro ⟨t, ht, h⟩; rw [isNone_iff] at h; subst h; exact ht
  · intro h; exact ⟨_, h, rfl⟩

theorem hasTy_none (env : Env) (v : Val) : HasTy env v .none ↔ v = .none :=
  ⟨fun h => by cases h; rfl, fun h => h ▸ .none⟩

theorem hasTy_parts {t core : Ty} {ms : List Meta} (h : Ty.Parts t core ms) (env : Env) (v : Val) :
    HasTy env v t ↔ HasTy env v core := by
  cases h with
  | annotated => exact ⟨fun h => by cases h with | annotated h => exact h, .annotated⟩
  | plain => exact Iff.rfl

theorem unionArgs_iff (t : Ty) (ts : List Ty) : t.unionArgs = some ts ↔ t = .union ts := by
  cases t <;> simp [Ty.unionArgs]

theorem two_with_none {ts : List Ty} (h2 : ts.length = 2) (hn : Ty.none ∈ ts) : ∃ w, ts = [w, .none] ∨ ts = [.none, w] := by
  match ts, h2 with
  | [a, b], _ =>
    simp only [List.mem_cons, List.not_mem_nil, or_false] at hn
    rcases hn with rfl | rfl
    · exact ⟨b, .inr rfl⟩
    · exact ⟨a, .inl rfl⟩

/-- `is_type_optional` decides whether a union, annotated or not, has the member `None`. -/
theorem C44_optional (t : Ty) :
    isTypeOptional false t = true ↔ ∃ ts ms, Ty.Parts t (.union ts) ms ∧ .none ∈ ts := by
  obtain ⟨ms, hp⟩ := parts_exists t
  unfold isTypeOptional
  constructor
  · intro h
    cases hu : t.unwrapAnn.unionArgs with
    | none => rw [hu] at h; cases h
    | some ts =>
      rw [hu] at h
      rw [unionArgs_iff] at hu
      rw [hu] at hp
      exact ⟨ts, ms, hp, (any_none ts).1 (by simpa using h)⟩
  · rintro ⟨ts, ms', h1, h2⟩
    rw [parts_core h1]
    simpa [Ty.unionArgs] using (any_none ts).2 h2

/-- `is_type_optional(..., strict=True)` decides whether the type is `Optional[T]`. -/
theorem C44_strict (t : Ty) : isTypeOptional true t = true ↔
    ∃ w ms, Ty.Parts t (.union [w, .none]) ms ∨ Ty.Parts t (.union [.none, w]) ms := by
  obtain ⟨ms, hp⟩ := parts_exists t
  unfold isTypeOptional
  constructor
  · intro h
    cases hu : t.unwrapAnn.unionArgs with
    | none => rw [hu] at h; cases h
    | some ts =>
      rw [hu] at h
      rw [unionArgs_iff] at hu
      rw [hu] at hp
      by_cases hl : ts.length = 2
      · simp only [hl, ne_eq, not_true_eq_false, decide_false, Bool.and_false, Bool.false_eq_true, if_false] at h
        obtain ⟨w, rfl | rfl⟩ := two_with_none hl ((any_none ts).1 h)
        · exact ⟨w, ms, .inl hp⟩
        · exact ⟨w, ms, .inr hp⟩
      · simp [hl] at h
  · rintro ⟨w, ms', h | h⟩ <;> rw [parts_core h] <;> simp [Ty.unionArgs, Ty.isNone]

/-- `is_type_union` decides whether the type is a union other than `Optional[T]`. -/
theorem C44_union (t : Ty) (ht : t.Norm) : isTypeUnion t = true ↔
    ∃ ts ms, Ty.Parts t (.union ts) ms ∧ ¬ ∃ w, ts = [w, .none] ∨ ts = [.none, w] := by
  obtain ⟨ms, hp⟩ := parts_exists t
  have key : ∀ ts, 2 ≤ ts.length → ((decide (2 < ts.length) || !ts.any Ty.isNone) = true ↔
      ¬ ∃ w, ts = [w, .none] ∨ ts = [.none, w]) := by
    intro ts h2
    constructor
    · rintro h ⟨w, rfl | rfl⟩ <;> simp [Ty.isNone] at h
    · intro h
      by_cases hl : 2 < ts.length
      · simp [hl]
      · have : ts.length = 2 := by omega
        have hn : ¬ Ty.none ∈ ts := fun hn => h (two_with_none this hn)
        rw [← any_none] at hn
        simp only [Bool.not_eq_true] at hn
        simp [hn]
  unfold isTypeUnion
  constructor
  · intro h
    cases hu : t.unwrapAnn.unionArgs with
    | none => rw [hu] at h; cases h
    | some ts =>
      rw [hu] at h
      rw [unionArgs_iff] at hu
      rw [hu] at hp
      exact ⟨ts, ms, hp, (key ts ((ht _ _ hp).2 ts rfl).1).1 h⟩
  · rintro ⟨ts, ms', h1, h2⟩
    have hl := ((ht _ _ h1).2 ts rfl).1
    rw [parts_core h1]
    exact (key ts hl).2 h2

theorem parts_mkAnnotated {w core : Ty} {ns : List Meta} (h : Ty.Parts w core ns) (ms : List Meta) :
    Ty.Parts (mkAnnotated w ms) core (ns ++ ms) := by
  cases h with
  | annotated => exact .annotated
  | plain h =>
    have : mkAnnotated w ms = .annotated w ms := by
      cases w <;> first | rfl | exact absurd rfl (h _ _)
    rw [this]; exact .annotated

/-- `unwrap_optional_type` removes exactly `None` and keeps the annotations: the values of the type are `None` and those of the
result. -/
theorem C44_unwrap (t : Ty) (ht : t.Norm) (ts : List Ty) (ms : List Meta) (hp : Ty.Parts t (.union ts) ms)
    (hn : Ty.none ∈ ts) : ∃ u rest, unwrapOptionalType t = .ok u ∧ WithoutNone ts rest ∧ IsUnionWith u rest ms ∧
      ∀ env v, HasTy env v t ↔ v = .none ∨ HasTy env v u := by
  obtain ⟨h2, hnd, -⟩ := (ht _ _ hp).2 ts rfl
  let rest := ts.filter (fun t => !t.isNone)
  have hmem : ∀ t, t ∈ rest ↔ t ∈ ts ∧ t ≠ .none := by
    intro t
    simp only [rest, List.mem_filter, Bool.not_eq_true', ne_eq]
    rw [← Bool.not_eq_true, isNone_iff]
  have hw : WithoutNone ts rest := ⟨List.filter_sublist, hmem⟩
  have hne : rest ≠ [] := by
    intro h0
    have hall : ∀ t ∈ ts, t = .none := by
      intro t h
      by_cases h' : t = .none
      · exact h'
      · have := (hmem t).2 ⟨h, h'⟩; rw [h0] at this; simp at this
    match ts, h2 with
    | a :: b :: _, _ =>
      have ha := hall a (by simp)
      have hb := hall b (by simp)
      rw [ha, hb] at hnd
      simp at hnd
  have hvals : ∀ env v, HasTy env v (.union ts) ↔ v = .none ∨ ∃ w ∈ rest, HasTy env v w := by
    intro env v
    constructor
    · intro h
      cases h with
      | @union _ _ w h1 h2 =>
        by_cases hwn : w = .none
        · subst hwn; exact .inl ((hasTy_none env v).1 h2)
        · exact .inr ⟨w, (hmem w).2 ⟨h1, hwn⟩, h2⟩
    · rintro (rfl | ⟨w, h1, h2⟩)
      · exact .union hn .none
      · exact .union ((hmem w).1 h1).1 h2
  -- the union of the remaining members
  have hmk : ∃ u, mkUnion rest = .ok u ∧ (∀ env v, HasTy env v u ↔ ∃ w ∈ rest, HasTy env v w) ∧
      ((2 ≤ rest.length ∧ u = .union rest) ∨ rest = [u]) := by
    cases hr : rest with
    | nil => exact absurd hr hne
    | cons a l =>
      cases l with
      | nil => exact ⟨a, rfl, fun env v => by simp, .inr rfl⟩
      | cons b l =>
        refine ⟨.union (a :: b :: l), rfl, fun env v => ⟨?_, ?_⟩, .inl ⟨by simp, rfl⟩⟩
        · intro h; cases h with | union h1 h2 => exact ⟨_, h1, h2⟩
        · rintro ⟨w, h1, h2⟩; exact .union h1 h2
  obtain ⟨u, hu, huv, hcase⟩ := hmk
  have hout : ∃ r, unwrapOptionalType t = .ok r ∧ ∀ core ns, Ty.Parts u core ns → Ty.Parts r core (ns ++ ms) := by
    cases hp with
    | annotated =>
      refine ⟨mkAnnotated u ms, ?_, fun core ns h => parts_mkAnnotated h ms⟩
      change (match mkUnion rest with | .error e => Except.error e | .ok u => Except.ok (mkAnnotated u ms)) = _
      rw [hu]
    | plain =>
      exact ⟨u, hu, fun core ns h => by simpa using h⟩
  obtain ⟨r, hr, hparts⟩ := hout
  obtain ⟨ns, hup⟩ := parts_exists u
  have hrp := hparts _ _ hup
  refine ⟨r, rest, hr, hw, ?_, fun env v => ?_⟩
  · rcases hcase with ⟨hl, rfl⟩ | h1
    · exact .inl ⟨hl, hparts _ [] (.plain (by intro u ms h; cases h))⟩
    · exact .inr ⟨u, _, ns, h1, hup, hrp⟩
  · rw [hasTy_parts hp, hvals, hasTy_parts hrp, ← hasTy_parts hup, huv]

/-- Other types are refused by `unwrap_optional_type` and `unwrap_union_types`. -/
theorem C44_refused (t : Ty) (h : ∀ ts ms, ¬ Ty.Parts t (.union ts) ms) :
    unwrapOptionalType t = .error .typeError ∧ unwrapUnionTypes t = .error .typeError := by
  cases t with
  | union ts => exact absurd (.plain (by intro u ms h; cases h)) (h ts [])
  | annotated u ms =>
    cases u with
    | union ts => exact absurd .annotated (h ts ms)
    | _ => exact ⟨rfl, rfl⟩
  | _ => exact ⟨rfl, rfl⟩

/-- Transforming a type inside its annotations keeps them, and the transformed type can be unwrapped again. -/
theorem C44_rewrap (t core : Ty) (ms : List Meta) (f : Ty → Res Ty) (u : Ty) (hp : Ty.Parts t core ms)
    (hf : f core = .ok u) (hu : ∀ w ns, u ≠ .annotated w ns) :
    ∃ r, rewrapAnnotated f t = .ok r ∧ r.unwrapAnn = u ∧ ∀ p, getAnnotation p r = ms.find? p := by
  have hupl : u.unwrapAnn = u ∧ ∀ p, getAnnotation p u = none := by
    cases u <;> first | exact ⟨rfl, fun _ => rfl⟩ | exact absurd rfl (hu _ _)
  cases hp with
  | annotated =>
    have hm : mkAnnotated u ms = .annotated u ms := by
      cases u <;> first | rfl | exact absurd rfl (hu _ _)
    refine ⟨.annotated u ms, ?_, rfl, fun p => rfl⟩
    simp only [rewrapAnnotated, hf, hm]
  | plain h =>
    have : rewrapAnnotated f t = f t := by
      cases t <;> first | rfl | exact absurd rfl (h _ _)
    exact ⟨u, by rw [this, hf], hupl.1, fun p => by simp [hupl.2]⟩

/-- C44 in part: the full statement for types that are not annotated unions.  For those only the clause about
`unwrap_union_types` is missing, see `C44_violated`; the other clauses are `C44_optional`, `C44_strict`, `C44_union`,
`C44_unwrap` and `C44_rewrap`. -/
theorem C44_partial (t : Ty) (ht : t.Norm) (hna : ∀ ts ms, t ≠ .annotated (.union ts) ms) : C44_statement t := by
  refine ⟨C44_optional t, C44_strict t, C44_union t ht, fun ts ms => C44_unwrap t ht ts ms, ?_,
    fun core ms f u => C44_rewrap t core ms f u⟩
  intro ts ms hp _
  cases hp with
  | annotated => exact absurd rfl (hna _ _)
  | plain => rfl

/-- The full statement is false: `is_type_union` accepts an annotated union, `unwrap_union_types` raises `TypeError`. -/
theorem C44_violated (ms : List Meta) : ¬ C44_statement (.annotated (.union [.int, .str]) ms) ∧
    isTypeUnion (.annotated (.union [.int, .str]) ms) = true ∧
    unwrapUnionTypes (.annotated (.union [.int, .str]) ms) = .error .typeError := by
  refine ⟨fun h => ?_, rfl, rfl⟩
  have := h.2.2.2.2.1 _ _ .annotated rfl
  cases this

/-! ### Examples -/

/-- `Annotated[Optional[Annotated[int, MaxLength(3)]], Alias("x")]`. -/
def optExample : Ty := .annotated (.union [.annotated .int [.maxLength 3], .none]) [.alias c!"x"]

example : optExample.Norm := by
  intro core ms h
  cases h with
  | annotated =>
    refine ⟨fun u ns _ => by simp, fun ts hts => ?_⟩
    cases hts
    refine ⟨by simp, by simp, ?_⟩
    intro t ht us
    simp at ht
    rcases ht with rfl | rfl <;> simp
  | plain h => exact absurd rfl (h _ _)

/-- The annotations of the member come first. -/
example : unwrapOptionalType optExample = .ok (.annotated .int [.maxLength 3, .alias c!"x"]) := rfl

example : unwrapOptionalType (.union [.int, .none, .str]) = .ok (.union [.int, .str]) := rfl

end Verif
