import Verif.Spec.Buildable
import Verif.Lemmas.RebuildNode
/-!
# Types are made from buildable schemas
-/
namespace Verif

/-- A union has two different members. -/
def Splits (t : Ty) : Prop := ∀ us, t = .union us → ∃ a b r, us = a :: b :: r ∧ Ty.same a b = false

/-- The module of the type can be set. -/
def MovableTy (cfg : BuildCfg) (t : Ty) : Prop := ∀ st, ∃ st', setModule cfg st t = .ok st' ∧ st'.attrs = st.attrs

/-- Known definitions are attributes of the module. -/
def Knows (cfg : BuildCfg) (Known : Str → Prop) (attrs : List (Str × Ty)) : Prop :=
  ∀ n, Known n → ∃ t, lookupKey n attrs = some t ∧ Splits t ∧ MovableTy cfg t

/-- A type is made from the node. -/
def Builds (cfg : BuildCfg) (Known : Str → Prop) (d : Bool) (j : Json) (n : TNode) : Prop :=
  ∀ ctx st, '\x00' ∉ ctx → Knows cfg Known st.attrs → ∃ D st', nodeToTypedef cfg n ctx st = .ok (D, st') ∧
    Knows cfg Known st'.attrs ∧ Splits D.ty ∧ (d = false → D.dflt = Option.none) ∧ (Movable j → MovableTy cfg D.ty)

variable {cfg : BuildCfg} {Known : Str → Prop}

theorem Knows.set {attrs : List (Str × Ty)} {ctx : Str} {t : Ty} (h : Knows cfg Known attrs) (h1 : Splits t)
    (h2 : MovableTy cfg t) : Knows cfg Known (upsert ctx t attrs) := by
  intro n hn
  obtain ⟨u, hu, h3⟩ := h n hn
  by_cases he : n = ctx
  · subst he; exact ⟨t, by simp [lookupKey_upsert], h1, h2⟩
  · exact ⟨u, by rw [lookupKey_upsert]; simp [hu, Ne.symm he], h3⟩

theorem movable_cls (c : Nat) : MovableTy cfg (.cls c) := fun _ => ⟨_, rfl, rfl⟩
theorem movable_enum (c : Nat) : MovableTy cfg (.enum c) := fun _ => ⟨_, rfl, rfl⟩
theorem movable_annotated (t : Ty) (ms : List Meta) : MovableTy cfg (.annotated t ms) := fun _ => ⟨_, rfl, rfl⟩
theorem movable_literal (ls : List Lit) : MovableTy cfg (.literal ls) := fun _ => ⟨_, rfl, rfl⟩
theorem movable_union (ts : List Ty) : MovableTy cfg (.union ts) := fun _ => ⟨_, rfl, rfl⟩

/-! ### Unions -/

theorem dedup_prefix (ts seen : List Ty) : ∃ r, dedupTys seen ts = seen ++ r := by
  induction ts generalizing seen with
  | nil => exact ⟨[], by simp [dedupTys]⟩
  | cons t ts ih =>
    unfold dedupTys
    split
    · exact ih seen
    · obtain ⟨r, hr⟩ := ih (seen ++ [t])
      exact ⟨t :: r, by rw [hr]; simp⟩

theorem dedup_pairwise {ts seen : List Ty} (h : seen.Pairwise fun a b => Ty.same a b = false) :
    (dedupTys seen ts).Pairwise fun a b => Ty.same a b = false := by
  induction ts generalizing seen with
  | nil => exact h
  | cons t ts ih =>
    unfold dedupTys
    split
    · exact ih h
    · rename_i hn
      refine ih (List.pairwise_append.2 ⟨h, by simp, ?_⟩)
      intro a ha b hb
      rw [List.mem_singleton] at hb
      subst hb
      simp only [List.any_eq_true, not_exists, not_and, Bool.not_eq_true] at hn
      exact hn a ha

/-- A union is made of types whose unions have different members. -/
theorem pyUnion_splits {ts : List Ty} (hne : ts ≠ []) (hs : ∀ t ∈ ts, Splits t) :
    ∃ u, pyUnion ts = .ok u ∧ Splits u ∧ ((∀ t ∈ ts, MovableTy cfg t) → MovableTy cfg u) := by
  cases ts with
  | nil => exact absurd rfl hne
  | cons t ts =>
    have hpw := dedup_pairwise (ts := flattenUnions (t :: ts)) (seen := []) .nil
    by_cases hu : ∃ us, t = .union us
    · obtain ⟨us, rfl⟩ := hu
      obtain ⟨a, b, r, rfl, hab⟩ := hs _ (by simp) us rfl
      have e : flattenUnions (.union (a :: b :: r) :: ts) = a :: b :: (r ++ flattenUnions ts) := by simp [flattenUnions]
      have e2 : ∃ q, dedupTys [] (flattenUnions (.union (a :: b :: r) :: ts)) = a :: b :: q := by
        rw [e]
        obtain ⟨q, hq⟩ := dedup_prefix (r ++ flattenUnions ts) [a, b]
        refine ⟨q, ?_⟩
        simp only [dedupTys, List.any_nil, Bool.false_eq_true, if_false, List.nil_append, List.any_cons, hab, Bool.or_false]
        exact hq
      obtain ⟨q, hq⟩ := e2
      refine ⟨.union (a :: b :: q), by simp [pyUnion, hq], ?_, fun _ => movable_union _⟩
      intro us hus
      cases hus
      exact ⟨a, b, q, rfl, hab⟩
    · have e : flattenUnions (t :: ts) = t :: flattenUnions ts := by
        unfold flattenUnions
        rw [List.flatMap_cons]
        cases t with
        | union us => exact absurd ⟨us, rfl⟩ hu
        | _ => rfl
      have e2 : ∃ q, dedupTys [] (flattenUnions (t :: ts)) = t :: q := by
        rw [e]
        obtain ⟨q, hq⟩ := dedup_prefix (flattenUnions ts) [t]
        exact ⟨q, by simpa [dedupTys] using hq⟩
      obtain ⟨q, hq⟩ := e2
      rw [hq] at hpw
      cases q with
      | nil =>
        exact ⟨t, by simp [pyUnion, hq], fun us h => absurd ⟨us, h⟩ hu, fun h => h t (by simp)⟩
      | cons b q =>
        refine ⟨.union (t :: b :: q), by simp [pyUnion, hq], ?_, fun _ => movable_union _⟩
        intro us hus
        cases hus
        exact ⟨t, b, q, rfl, (List.pairwise_cons.1 hpw).1 b (by simp)⟩

/-! ### Keywords -/

theorem kvBool_none {k : Str} {kvs : List (Str × Json)} (h : Absent k kvs) : kvBool k kvs = Option.none := by
  unfold Absent at h; simp [kvBool, h]
theorem kvInt_none {k : Str} {kvs : List (Str × Json)} (h : Absent k kvs) : kvInt k kvs = Option.none := by
  unfold Absent at h; simp [kvInt, h]
theorem kvStr_none {k : Str} {kvs : List (Str × Json)} (h : Absent k kvs) : kvStr k kvs = Option.none := by
  unfold Absent at h; simp [kvStr, h]
theorem kvStrs_none {k : Str} {kvs : List (Str × Json)} (h : Absent k kvs) : kvStrs k kvs = Option.none := by
  unfold Absent at h; simp [kvStrs, h]
theorem kvInts_none {k : Str} {kvs : List (Str × Json)} (h : Absent k kvs) : kvInts k kvs = Option.none := by
  unfold Absent at h; simp [kvInts, h]
theorem kvFloat_none {k : Str} {kvs : List (Str × Json)} (h : Absent k kvs) : kvFloat k kvs = Option.none := by
  unfold Absent at h; simp [kvFloat, h]

theorem absent_or {k : Str} {kvs : List (Str × Json)} (h : ¬ Absent k kvs) : ∃ x, lookupKey k kvs = some x := by
  unfold Absent at h
  cases hl : lookupKey k kvs with
  | none => exact absurd hl h
  | some x => exact ⟨x, rfl⟩

theorem kvBool_some {k : Str} {kvs : List (Str × Json)} (hh : ∀ x, lookupKey k kvs = some x → KwKind.bool.Holds x)
    (h : ¬ Absent k kvs) : ∃ b, kvBool k kvs = some b := by
  obtain ⟨x, hx⟩ := absent_or h
  obtain ⟨b, rfl⟩ := hh x hx
  exact ⟨b, by simp [kvBool, hx]⟩
theorem kvInt_some {k : Str} {kvs : List (Str × Json)} (hh : ∀ x, lookupKey k kvs = some x → KwKind.int.Holds x)
    (h : ¬ Absent k kvs) : ∃ b, kvInt k kvs = some b := by
  obtain ⟨x, hx⟩ := absent_or h
  obtain ⟨b, rfl⟩ := hh x hx
  exact ⟨b, by simp [kvInt, hx]⟩
theorem kvStr_some {k : Str} {kvs : List (Str × Json)} (hh : ∀ x, lookupKey k kvs = some x → KwKind.str.Holds x)
    (h : ¬ Absent k kvs) : ∃ b, kvStr k kvs = some b := by
  obtain ⟨x, hx⟩ := absent_or h
  obtain ⟨b, rfl⟩ := hh x hx
  exact ⟨b, by simp [kvStr, hx]⟩
theorem kvInts_some {k : Str} {kvs : List (Str × Json)} (hh : ∀ x, lookupKey k kvs = some x → KwKind.ints.Holds x)
    (h : ¬ Absent k kvs) : ∃ vs, kvInts k kvs = some vs := by
  obtain ⟨x, hx⟩ := absent_or h
  obtain ⟨xs, rfl, hxs⟩ := hh x hx
  obtain ⟨ss, _, h2, _⟩ := ints_all2 hxs
  exact ⟨ss, by simp [kvInts, hx, h2]⟩

theorem kvStr_eq {k : Str} {kvs : List (Str × Json)} {s : Str} : kvStr k kvs = some s ↔ lookupKey k kvs = some (.str s) := by
  unfold kvStr
  split
  · rename_i s' h; simp [h]
  · rename_i h
    constructor
    · intro h; cases h
    · intro h'; exact absurd h' (h s)

/-- What is said of a schema without `$ref` and `oneOf`. -/
theorem movable_typed {kvs : List (Str × Json)} {T : Str} (h : Movable (.obj kvs)) (ht : HasType T kvs)
    (hr : Absent c!"$ref" kvs) (ho : Absent c!"oneOf" kvs) :
    T = c!"object" ∨ ¬ Absent c!"const" kvs ∨ (∃ f, (T, f) ∈ movableFormats ∧ lookupKey c!"format" kvs = some (.str f)) ∨
      (T = c!"integer" ∧ (¬ Absent c!"enum" kvs ∨ (¬ Absent c!"minimum" kvs ∧ ¬ Absent c!"maximum" kvs))) ∨
      (T = c!"string" ∧ ¬ HasFormat (textFormats.map (·.1)) kvs ∧ (¬ Absent c!"enum" kvs ∨ ¬ Absent c!"maxLength" kvs)) := by
  have same : ∀ S, HasType S kvs → S = T := by
    intro S hS
    unfold HasType at hS ht
    rw [hS] at ht
    cases ht
    rfl
  cases h with
  | ref h => exact absurd hr h
  | object h => exact .inl (same _ h).symm
  | const h => exact .inr (.inl h)
  | format h1 h2 h3 => cases same _ h2; exact .inr (.inr (.inl ⟨_, h1, h3⟩))
  | integer h1 h2 => exact .inr (.inr (.inr (.inl ⟨(same _ h1).symm, h2⟩)))
  | text h1 h2 h3 => exact .inr (.inr (.inr (.inr ⟨(same _ h1).symm, h2, h3⟩)))
  | oneOf h _ => unfold Absent at ho; rw [ho] at h; cases h

/-! ### Leaves -/

theorem splits_of {t : Ty} (h : ∀ us, t ≠ .union us) : Splits t := fun us he => absurd he (h us)

theorem ref_builds {d : Bool} {kvs : List (Str × Json)} {n : Str} (hn : WordName cfg n) (hk : Known n) :
    Builds cfg Known d (.obj kvs) (.ref (defRef n)) := by
  intro ctx st _ h
  obtain ⟨t, h1, h2, h3⟩ := h n hk
  exact ⟨⟨t, Option.none⟩, st, by simp only [nodeToTypedef, refTypedef, defRef, refTarget_word hn.1 hn.2, h1], h, h2, fun _ => rfl,
    fun _ => h3⟩

theorem bool_builds {d : Bool} {kvs : List (Str × Json)} (h : Keywords boolKeywords [c!"type"] kvs) (ht : HasType c!"boolean" kvs)
    (hd : ¬ Absent c!"const" kvs ∨ DefaultAllowed d kvs) :
    Builds cfg Known d (.obj kvs) (.bool (kvBool c!"const" kvs) (kvBool c!"default" kvs)) := by
  intro ctx st _ hk
  simp only [nodeToTypedef, boolTypedef]
  by_cases hc : Absent c!"const" kvs
  · rw [kvBool_none hc]
    have hm : Movable (.obj kvs) → False := by
      intro hm
      rcases movable_typed hm ht (h.absent _ (by decide)) (h.absent _ (by decide)) with he | he | ⟨f, he, _⟩ | ⟨he, _⟩ | ⟨he, _⟩
      · cases he
      · exact he hc
      · simp [movableFormats] at he
      · cases he
      · cases he
    cases hx : kvBool c!"default" kvs with
    | none => exact ⟨⟨.bool, Option.none⟩, st, rfl, hk, splits_of (by simp), fun _ => rfl, fun h => absurd (hm h) id⟩
    | some b =>
      refine ⟨⟨.bool, some (.bool b)⟩, st, rfl, hk, splits_of (by simp), fun hd' => ?_, fun h => absurd (hm h) id⟩
      rcases hd with hd | hd | hd
      · exact absurd hc hd
      · rw [hd'] at hd; cases hd
      · rw [kvBool_none hd] at hx; cases hx
  · obtain ⟨b, hb⟩ := kvBool_some (h.holds (by decide) (by decide)) hc
    rw [hb]
    exact ⟨⟨.literal [.bool b], Option.none⟩, st, rfl, hk, splits_of (by simp), fun _ => rfl, fun _ => movable_literal _⟩

theorem foldl_ok (vs : List Int) (h : vs ≠ []) : ∃ lo hi, minList vs = .ok lo ∧ maxList vs = .ok hi := by
  cases vs with
  | nil => exact absurd rfl h
  | cons v vs => exact ⟨_, _, rfl, rfl⟩

theorem int_builds {d : Bool} {kvs : List (Str × Json)} (h : Keywords intKeywords [c!"type"] kvs) (ht : HasType c!"integer" kvs)
    (he : lookupKey c!"enum" kvs ≠ some (.arr [])) (hd : ¬ Absent c!"const" kvs ∨ DefaultAllowed d kvs) :
    Builds cfg Known d (.obj kvs) (.int (kvStr c!"format" kvs) (kvInt c!"const" kvs) (kvInt c!"default" kvs) (kvInts c!"enum" kvs)
      (kvInt c!"minimum" kvs) (kvInt c!"maximum" kvs)) := by
  intro ctx st _ hk
  simp only [nodeToTypedef, intTypedef]
  by_cases hc : Absent c!"const" kvs
  · have key : ∃ T, intNodeType { format := kvStr c!"format" kvs, const := kvInt c!"const" kvs, enum := kvInts c!"enum" kvs, minimum := kvInt c!"minimum" kvs, maximum := kvInt c!"maximum" kvs } = .ok T ∧ (∀ i, T ≠ .lit i) ∧ (Movable (.obj kvs) → T ≠ .int) := by
      unfold intNodeType
      simp only [kvInt_none hc]
      split
      · exact ⟨_, rfl, by simp, by simp⟩
      rename_i f1
      split
      · exact ⟨_, rfl, by simp, by simp⟩
      rename_i f2
      split
      · exact ⟨_, rfl, by simp, by simp⟩
      rename_i f3
      have hr : ∀ lo hi, (∀ i, rangeToType lo hi ≠ .lit i) ∧ rangeToType lo hi ≠ .int := by
        intro lo hi; unfold rangeToType; split
        · simp
        · split <;> simp
      by_cases hen : Absent c!"enum" kvs
      · rw [kvInts_none hen]
        simp only
        by_cases hlo : Absent c!"minimum" kvs ∨ Absent c!"maximum" kvs
        · have : ∀ f lo hi, Movable (.obj kvs) → f → lo → hi → False := by
            intro _ _ _ hm _ _ _
            rcases movable_typed hm ht (h.absent _ (by decide)) (h.absent _ (by decide)) with he | he | ⟨f, he, hf⟩ | ⟨_, he⟩ | ⟨he, _⟩
            · cases he
            · exact he hc
            · simp [movableFormats] at he
              have hf := kvStr_eq.2 hf
              rcases he with rfl | rfl | rfl
              · exact f1 hf
              · exact f2 hf
              · exact f3 hf
            · rcases he with he | ⟨h1, h2⟩
              · exact he hen
              · rcases hlo with hlo | hlo
                · exact h1 hlo
                · exact h2 hlo
            · cases he
          refine ⟨.int, ?_, by simp, fun hm => absurd (this True True True hm trivial trivial trivial) id⟩
          rcases hlo with hlo | hlo
          · rw [kvInt_none hlo]
          · rw [kvInt_none hlo]; cases kvInt c!"minimum" kvs <;> rfl
        · obtain ⟨lo, h1⟩ := kvInt_some (h.holds (k := c!"minimum") (by decide) (by decide)) (fun h => hlo (.inl h))
          obtain ⟨hi, h2⟩ := kvInt_some (h.holds (k := c!"maximum") (by decide) (by decide)) (fun h => hlo (.inr h))
          rw [h1, h2]
          exact ⟨_, rfl, (hr lo hi).1, fun _ => (hr lo hi).2⟩
      · obtain ⟨x, hx⟩ := absent_or hen
        obtain ⟨xs, rfl, hxs⟩ := h.holds (k := c!"enum") (K := .ints) (by decide) (by decide) x hx
        obtain ⟨ss, h1, h2, _⟩ := ints_all2 hxs
        have : kvInts c!"enum" kvs = some ss := by simp [kvInts, hx, h2]
        rw [this]
        have hne : ss ≠ [] := by
          rintro rfl
          rw [h1] at hx
          exact he hx
        obtain ⟨lo, hi, h3, h4⟩ := foldl_ok ss hne
        simp only [h3, h4]
        exact ⟨_, rfl, (hr lo hi).1, fun _ => (hr lo hi).2⟩
    obtain ⟨T, h1, h2, h3⟩ := key
    rw [h1]
    have hty : Splits T.toTy ∧ (Movable (.obj kvs) → MovableTy cfg T.toTy) := by
      cases T with
      | lit i => exact absurd rfl (h2 i)
      | int => exact ⟨splits_of (by simp [IntType.toTy]), fun hm => absurd rfl (h3 hm)⟩
      | _ => exact ⟨splits_of (by simp [IntType.toTy]), fun _ => movable_annotated _ _⟩
    cases hx : kvInt c!"default" kvs with
    | none =>
      refine ⟨⟨T.toTy, Option.none⟩, st, ?_, hk, hty.1, fun _ => rfl, hty.2⟩
      cases T with
      | lit i => exact absurd rfl (h2 i)
      | _ => rfl
    | some b =>
      refine ⟨⟨T.toTy, some (.int b)⟩, st, ?_, hk, hty.1, fun hd' => ?_, hty.2⟩
      · cases T with
        | lit i => exact absurd rfl (h2 i)
        | _ => rfl
      · rcases hd with hd | hd | hd
        · exact absurd hc hd
        · rw [hd'] at hd; cases hd
        · rw [kvInt_none hd] at hx; cases hx
  · obtain ⟨b, hb⟩ := kvInt_some (h.holds (by decide) (by decide)) hc
    rw [hb]
    exact ⟨⟨.literal [.int b], Option.none⟩, st, rfl, hk, splits_of (by simp), fun _ => rfl, fun _ => movable_literal _⟩

theorem num_builds {d : Bool} {kvs : List (Str × Json)} (h : Keywords numKeywords [c!"type"] kvs) (ht : HasType c!"number" kvs)
    (hc : Absent c!"const" kvs)
    (hf : HasFormat [c!"float32", c!"float64"] kvs ∨
        (Absent c!"multipleOf" kvs ∧ (Absent c!"exclusiveMinimum" kvs ∨ Absent c!"exclusiveMaximum" kvs)))
    (hd : DefaultAllowed d kvs) :
    Builds cfg Known d (.obj kvs) (.num (kvStr c!"format" kvs) (kvFloat c!"const" kvs) (kvFloat c!"default" kvs)
      (kvFloat c!"exclusiveMinimum" kvs) (kvFloat c!"exclusiveMaximum" kvs) (kvFloat c!"multipleOf" kvs)) := by
  intro ctx st _ hk
  simp only [nodeToTypedef, numTypedef, kvFloat_none hc]
  have key : ∃ T, numberType (kvStr c!"format" kvs) (kvFloat c!"exclusiveMinimum" kvs) (kvFloat c!"exclusiveMaximum" kvs)
      (kvFloat c!"multipleOf" kvs) = .ok T ∧ (T = .float ∨ ∃ ms, T = .annotated .float ms) ∧ (Movable (.obj kvs) → T ≠ .float) := by
    unfold numberType
    split
    · exact ⟨_, rfl, .inr ⟨_, rfl⟩, by simp⟩
    rename_i f1
    split
    · exact ⟨_, rfl, .inr ⟨_, rfl⟩, by simp⟩
    rename_i f2
    rcases hf with ⟨f, hf, he⟩ | ⟨hm, hx⟩
    · have he := kvStr_eq.2 he
      simp only [List.mem_cons, List.not_mem_nil, or_false] at hf
      rcases hf with rfl | rfl
      · exact absurd he f1
      · exact absurd he f2
    · have e1 : integerDigits (kvFloat c!"exclusiveMinimum" kvs) (kvFloat c!"exclusiveMaximum" kvs) = .ok false := by
        unfold integerDigits
        rcases hx with hx | hx
        · rw [kvFloat_none hx]
        · rw [kvFloat_none hx]; cases kvFloat c!"exclusiveMinimum" kvs <;> rfl
      rw [e1, kvFloat_none hm]
      refine ⟨.float, rfl, .inl rfl, fun hm => ?_⟩
      rcases movable_typed hm ht (h.absent _ (by decide)) (h.absent _ (by decide)) with he | he | ⟨f, he, hf⟩ | ⟨he, _⟩ | ⟨he, _⟩
      · cases he
      · exact absurd hc he
      · simp [movableFormats] at he
        have hf := kvStr_eq.2 hf
        rcases he with rfl | rfl
        · exact absurd hf f1
        · exact absurd hf f2
      · cases he
      · cases he
  obtain ⟨T, h1, h2, h3⟩ := key
  rw [h1]
  have hty : Splits T ∧ (Movable (.obj kvs) → MovableTy cfg T) := by
    rcases h2 with rfl | ⟨ms, rfl⟩
    · exact ⟨splits_of (by simp), fun hm => absurd rfl (h3 hm)⟩
    · exact ⟨splits_of (by simp), fun _ => movable_annotated _ _⟩
  cases hx : kvFloat c!"default" kvs with
  | none => exact ⟨⟨T, Option.none⟩, st, rfl, hk, hty.1, fun _ => rfl, hty.2⟩
  | some b =>
    refine ⟨⟨T, some (.float b)⟩, st, ?_, hk, hty.1, fun hd' => ?_, hty.2⟩
    · rcases h2 with rfl | ⟨ms, rfl⟩ <;> rfl
    · rcases hd with hd | hd
      · rw [hd'] at hd; cases hd
      · rw [kvFloat_none hd] at hx; cases hx

theorem formatType_table {f : Str} {t : Ty} (h : (f, t) ∈ textFormats) : formatType (some f) = some t := by
  simp only [textFormats, List.mem_cons, List.not_mem_nil, or_false, Prod.mk.injEq] at h
  rcases h with ⟨rfl, rfl⟩ | ⟨rfl, rfl⟩ | ⟨rfl, rfl⟩ | ⟨rfl, rfl⟩ | ⟨rfl, rfl⟩ | ⟨rfl, rfl⟩ | ⟨rfl, rfl⟩ <;> rfl

theorem formatType_other {kvs : List (Str × Json)} (h : ¬ HasFormat (textFormats.map (·.1)) kvs) :
    formatType (kvStr c!"format" kvs) = Option.none := by
  have : ∀ f ∈ textFormats.map (·.1), kvStr c!"format" kvs ≠ some f := fun f hf he => h ⟨f, hf, kvStr_eq.1 he⟩
  simp only [textFormats, List.map_cons, List.map_nil, List.mem_cons, List.not_mem_nil, or_false, forall_eq_or_imp, forall_eq] at this
  obtain ⟨h1, h2, h3, h4, h5, h6, h7⟩ := this
  unfold formatType
  rw [if_neg h1, if_neg h2, if_neg h3, if_neg h4, if_neg h5, if_neg h6, if_neg h7]

theorem str_builds {d : Bool} {kvs : List (Str × Json)} (h : Keywords strKeywords [c!"type"] kvs) (ht : HasType c!"string" kvs)
    (hs : TextSchema cfg d kvs) :
    Builds cfg Known d (.obj kvs) (.str (kvStr c!"format" kvs) (kvStr c!"const" kvs) (kvStr c!"default" kvs)
      (kvStrs c!"enum" kvs) (kvInt c!"maxLength" kvs)) := by
  intro ctx st h0 hk
  simp only [nodeToTypedef, strTypedef]
  by_cases hc : Absent c!"const" kvs
  · rw [kvStr_none hc]
    simp only
    have mv := fun hm => movable_typed hm ht (h.absent c!"$ref" (by decide)) (h.absent c!"oneOf" (by decide))
    cases hs with
    | const hs => exact absurd hc hs
    | @format f t hf he hd hx =>
      rw [kvStr_eq.2 he]
      simp only [stringType, formatType_table hf]
      have hm : Movable (.obj kvs) → MovableTy cfg t := by
        intro hm
        rcases mv hm with hm | hm | ⟨g, hm, hg⟩ | ⟨hm, _⟩ | ⟨_, hm, _⟩
        · cases hm
        · exact absurd hc hm
        · rw [he] at hg
          cases hg
          simp [movableFormats] at hm
          have e := formatType_table hf
          rcases hm with rfl | rfl | rfl
          · cases e; exact fun _ => ⟨_, rfl, rfl⟩
          · cases e; exact fun _ => ⟨_, rfl, rfl⟩
          · cases e; exact fun _ => ⟨_, rfl, rfl⟩
        · cases hm
        · exact absurd ⟨f, List.mem_map.2 ⟨_, hf, rfl⟩, he⟩ hm
      have hsp : Splits t := by
        refine splits_of fun us hu => ?_
        subst hu
        simp [textFormats] at hf
      cases hdv : kvStr c!"default" kvs with
      | none => exact ⟨⟨t, Option.none⟩, st, rfl, hk, hsp, fun _ => rfl, hm⟩
      | some s =>
        obtain ⟨v, hv⟩ := hx _ (kvStr_eq.1 hdv) st.env
        refine ⟨⟨t, some v⟩, st, ?_, hk, hsp, fun hd' => ?_, hm⟩
        · simp only [typeWithDefault, jsonToValue, Option.map_some, hv]
        · rcases hd with hd | hd
          · rw [hd'] at hd; cases hd
          · rw [kvStr_none hd] at hdv; cases hdv
    | @enum vs hf he hn hl hd =>
      have hkv : kvStrs c!"enum" kvs = some vs := by simp only [kvStrs, he]; exact allSome_strs vs
      rw [hkv, kvStr_none hd]
      simp only [stringType, formatType_other hf, makeEnum, if_neg h0, enum_node hl hn]
      exact ⟨_, _, rfl, hk.set (splits_of (by simp)) (movable_enum _), splits_of (by simp), fun _ => rfl, fun _ => movable_enum _⟩
    | text hf he hl hd =>
      rw [kvStrs_none he]
      have key : ∃ T, stringType cfg ctx st (kvStr c!"format" kvs) Option.none (kvInt c!"maxLength" kvs) = .ok (T, st) ∧ (T = .str ∨ ∃ ms, T = .annotated .str ms) ∧ (Movable (.obj kvs) → T ≠ .str) := by
        simp only [stringType, formatType_other hf]
        by_cases hm : Absent c!"maxLength" kvs
        · rw [kvInt_none hm]
          refine ⟨.str, rfl, .inl rfl, fun hv => ?_⟩
          rcases mv hv with hv | hv | ⟨g, hv, hg⟩ | ⟨hv, _⟩ | ⟨_, _, hv⟩
          · cases hv
          · exact absurd hc hv
          · simp [movableFormats] at hv
            refine absurd ⟨g, ?_, hg⟩ hf
            rcases hv with rfl | rfl | rfl <;> decide
          · cases hv
          · rcases hv with hv | hv
            · exact absurd he hv
            · exact absurd hm hv
        · obtain ⟨i, hi⟩ := kvInt_some (h.holds (by decide) (by decide)) hm
          obtain ⟨x, hx⟩ := absent_or hm
          obtain ⟨i', rfl⟩ := h.holds (k := c!"maxLength") (K := .int) (by decide) (by decide) x hx
          have : i = i' := by simp only [kvInt, hx] at hi; cases hi; rfl
          subst this
          have := hl i hx
          cases i with
          | negSucc n => exact absurd this (by simp)
          | ofNat n => rw [hi]; exact ⟨_, rfl, .inr ⟨_, rfl⟩, by simp⟩
      obtain ⟨T, h1, h2, h3⟩ := key
      rw [h1]
      have hty : Splits T ∧ (Movable (.obj kvs) → MovableTy cfg T) := by
        rcases h2 with rfl | ⟨ms, rfl⟩
        · exact ⟨splits_of (by simp), fun hm => absurd rfl (h3 hm)⟩
        · exact ⟨splits_of (by simp), fun _ => movable_annotated _ _⟩
      cases hdv : kvStr c!"default" kvs with
      | none => exact ⟨⟨T, Option.none⟩, st, rfl, hk, hty.1, fun _ => rfl, hty.2⟩
      | some s =>
        refine ⟨⟨T, some (.str s)⟩, st, ?_, hk, hty.1, fun hd' => ?_, hty.2⟩
        · rcases h2 with rfl | ⟨ms, rfl⟩ <;> rfl
        · rcases hd with hd | hd
          · rw [hd'] at hd; cases hd
          · rw [kvStr_none hd] at hdv; cases hdv
  · obtain ⟨b, hb⟩ := kvStr_some (h.holds (by decide) (by decide)) hc
    rw [hb]
    exact ⟨⟨.literal [.str b], Option.none⟩, st, rfl, hk, splits_of (by simp), fun _ => rfl, fun _ => movable_literal _⟩

/-! ### Containers -/

theorem arr_builds {d : Bool} {kvs : List (Str × Json)} {x : Json} {n : TNode}
    (h : Keywords [(c!"format", .str)] [c!"type", c!"items"] kvs) (ht : HasType c!"array" kvs) (hn : Builds cfg Known false x n) :
    Builds cfg Known d (.obj kvs) (.arr n) := by
  intro ctx st h0 hk
  obtain ⟨D, st', h1, h2, h3, h4, h5⟩ := hn ctx st h0 hk
  refine ⟨⟨.list D.ty, Option.none⟩, st', ?_, h2, splits_of (by simp), fun _ => rfl, fun hm => ?_⟩
  · simp only [nodeToTypedef, h1, listTypedef, h4 rfl]; rfl
  · rcases movable_typed hm ht (h.absent _ (by decide)) (h.absent _ (by decide)) with hm | hm | ⟨g, hm, hg⟩ | ⟨hm, _⟩ | ⟨hm, _⟩
    · cases hm
    · exact absurd (h.absent _ (by decide)) hm
    · simp [movableFormats] at hm
    · cases hm
    · cases hm

theorem props_build {ctx : Str} (h0 : '\x00' ∉ ctx) (req : List Str) : ∀ (xs : List (Str × Json)) (ns : List (Str × TNode)) (st : BuildSt),
    All2 (fun x n => n.1 = x.1 ∧ FieldName cfg x.1 ∧ Builds cfg Known true x.2 n.2) xs ns → Knows cfg Known st.attrs →
    ∃ fs st', propTypedefs cfg ns ctx req st = .ok (fs, st') ∧ Knows cfg Known st'.attrs ∧ fs.map (·.name) = xs.map (·.1) := by
  intro xs ns st h
  induction h generalizing st with
  | nil => intro hk; exact ⟨[], st, by simp [propTypedefs], hk, rfl⟩
  | @cons x n xs ns h _ ih =>
    intro hk
    obtain ⟨x, j⟩ := x
    obtain ⟨m, n⟩ := n
    obtain ⟨he, hf, hb⟩ := h
    simp only at he hf hb
    subst he
    have hnul : '\x00' ∉ propContext ctx m := by
      simp only [propContext, List.mem_append, not_or]
      exact ⟨⟨h0, by decide⟩, identifier_nul hf.identifier⟩
    obtain ⟨D, st1, h1, h2, h3, _, _⟩ := hb (propContext ctx m) st hnul hk
    obtain ⟨fs, st2, h4, h5, h6⟩ := ih st1 h2
    have hpf : ∃ f, propField req m D = .ok f ∧ f.name = m := by
      unfold propField
      split
      · rename_i e he
        exfalso
        split at he
        · cases he
        · obtain ⟨u, hu, _⟩ := pyUnion_splits (cfg := cfg) (ts := [.none, D.ty]) (by simp) (by
            intro t ht
            simp only [List.mem_cons, List.not_mem_nil, or_false] at ht
            rcases ht with rfl | rfl
            · exact splits_of (by simp)
            · exact h3)
          rw [hu] at he; cases he
      · exact ⟨_, rfl, rfl⟩
    obtain ⟨f, hf1, hf2⟩ := hpf
    exact ⟨f :: fs, st2, by simp only [propTypedefs, h1, hf1, h4], h5, by simp [hf2, h6]⟩

theorem obj_makes {xs : List (Str × Json)} {ns : List (Str × TNode)} {req : Option (List Str)}
    (hn : (xs.map (·.1)).Nodup)
    (h : All2 (fun x n => n.1 = x.1 ∧ FieldName cfg x.1 ∧ Builds cfg Known true x.2 n.2) xs ns) :
    ∀ ctx st, '\x00' ∉ ctx → Knows cfg Known st.attrs → ∃ fs st',
      nodeToTypedef cfg (.obj (some ns) (some false) req) ctx st = .ok (⟨.cls st'.env.classes.length, Option.none⟩,
        ⟨{ st'.env with classes := st'.env.classes ++ [{ module := cfg.modName, name := ctx, kind := .dataclass false, fields := defaultsLast fs }] },
          upsert ctx (.cls st'.env.classes.length) st'.attrs, st'.patched⟩) ∧
      propTypedefs cfg ns ctx (req.getD []) st = .ok (fs, st') ∧
      Knows cfg Known st'.attrs ∧ fs.map (·.name) = xs.map (·.1) := by
  intro ctx st h0 hk
  obtain ⟨fs, st', h1, h2, h3⟩ := props_build h0 (req.getD []) xs ns st h hk
  have hperm := defaultsLast_perm fs
  have hcheck : checkFieldNames cfg [] ((defaultsLast fs).map (·.name)) = .ok () := by
    have hp := (hperm.map (·.name))
    refine checkFieldNames_ok _ _ (hp.nodup_iff.2 (by rw [h3]; exact hn)) (by simp) fun n hm => ?_
    have hm := hp.mem_iff.1 hm
    rw [h3] at hm
    obtain ⟨x, hx, rfl⟩ := List.mem_map.1 hm
    obtain ⟨m, _, _, hf, _⟩ := h.mem_left hx
    exact ⟨hf.identifier, hf.keyword, hf.ordinary⟩
  refine ⟨fs, st', ?_, h1, h2, h3⟩
  simp only [nodeToTypedef, ne_eq, not_true_eq_false, if_false, h1, makeDataclass, hcheck, if_neg h0, defaultsLast_ordered,
    Bool.not_true, Bool.false_eq_true]

theorem obj_builds {d : Bool} {j : Json} {xs : List (Str × Json)} {ns : List (Str × TNode)} {req : Option (List Str)}
    (hn : (xs.map (·.1)).Nodup)
    (h : All2 (fun x n => n.1 = x.1 ∧ FieldName cfg x.1 ∧ Builds cfg Known true x.2 n.2) xs ns) :
    Builds cfg Known d j (.obj (some ns) (some false) req) := by
  intro ctx st h0 hk
  obtain ⟨fs, st', h1, _, h2, _⟩ := obj_makes (req := req) hn h ctx st h0 hk
  exact ⟨_, _, h1, h2.set (splits_of (by simp)) (movable_cls _), splits_of (by simp), fun _ => rfl, fun _ => movable_cls _⟩

theorem members_build {ctx : Str} (h0 : '\x00' ∉ ctx) : ∀ (xs : List Json) (ns : List TNode) (st : BuildSt),
    All2 (fun x n => Builds cfg Known false x n) xs ns → Knows cfg Known st.attrs →
    ∃ ds st', memberTypedefs cfg ns ctx st = .ok (ds, st') ∧ Knows cfg Known st'.attrs ∧
      All2 (fun x (D : TypeDef) => Splits D.ty ∧ D.dflt = Option.none ∧ (Movable x → MovableTy cfg D.ty)) xs ds := by
  intro xs ns st h
  induction h generalizing st with
  | nil => intro hk; exact ⟨[], st, by simp [memberTypedefs], hk, .nil⟩
  | cons h _ ih =>
    intro hk
    obtain ⟨D, st1, h1, h2, h3, h4, h5⟩ := h ctx st h0 hk
    obtain ⟨ds, st2, h6, h7, h8⟩ := ih st1 h2
    exact ⟨D :: ds, st2, by simp only [memberTypedefs, h1, h6], h7, .cons ⟨h3, h4 rfl, h5⟩ h8⟩

theorem oneOf_builds {d : Bool} {kvs : List (Str × Json)} {xs : List Json} {ns : List TNode} (h : Keywords [] [c!"oneOf"] kvs)
    (hx : lookupKey c!"oneOf" kvs = some (.arr xs)) (hne : xs ≠ []) (hn : All2 (fun x n => Builds cfg Known false x n) xs ns) :
    Builds cfg Known d (.obj kvs) (.oneOf ns) := by
  intro ctx st h0 hk
  obtain ⟨ds, st', h1, h2, h3⟩ := members_build h0 xs ns st hn hk
  have hds : ds.map (·.ty) ≠ [] := by
    cases h3 with
    | nil => exact absurd rfl hne
    | cons _ _ => simp
  obtain ⟨u, h4, h5, h6⟩ := pyUnion_splits (cfg := cfg) hds (by
    intro t ht
    obtain ⟨D, hD, rfl⟩ := List.mem_map.1 ht
    obtain ⟨x, _, h, _⟩ := h3.mem_right hD
    exact h)
  refine ⟨⟨u, Option.none⟩, st', ?_, h2, h5, fun _ => rfl, fun hm => h6 fun t ht => ?_⟩
  · simp only [nodeToTypedef, h1, unionTypedef, h4]
    rw [if_neg]
    simp only [List.any_eq_true, not_exists, not_and]
    intro D hD
    obtain ⟨x, _, _, h, _⟩ := h3.mem_right hD
    simp [h]
  · obtain ⟨D, hD, rfl⟩ := List.mem_map.1 ht
    obtain ⟨x, hxm, _, _, hmv⟩ := h3.mem_right hD
    apply hmv
    have hr : ∀ k, k ∉ [c!"oneOf", c!"title", c!"description"] → Absent k kvs := fun k hk => h.absent k (by
      simpa [textKeywords] using hk)
    cases hm with
    | ref hm => exact absurd (hr _ (by decide)) hm
    | object hm => have := hr c!"type" (by decide); unfold Absent at this; unfold HasType at hm; rw [this] at hm; cases hm
    | const hm => exact absurd (hr _ (by decide)) hm
    | format _ hm _ => have := hr c!"type" (by decide); unfold Absent at this; unfold HasType at hm; rw [this] at hm; cases hm
    | integer hm _ => have := hr c!"type" (by decide); unfold Absent at this; unfold HasType at hm; rw [this] at hm; cases hm
    | text hm _ _ => have := hr c!"type" (by decide); unfold Absent at this; unfold HasType at hm; rw [this] at hm; cases hm
    | oneOf hm hall => rw [hx] at hm; cases hm; exact hall x hxm

/-- Types are made from buildable schemas. -/
theorem node_builds {d : Bool} {j : Json} (h : Makeable cfg Known d j) : ∃ n, ReadAs j n ∧ Builds cfg Known d j n := by
  induction h with
  | ref h1 h2 h3 h4 => exact ⟨_, ref_readAs h1 h2, ref_builds h3 h4⟩
  | bool h1 h2 h3 => exact ⟨_, bool_readAs h1 h2, bool_builds h1 h2 h3⟩
  | int h1 h2 h3 h4 => exact ⟨_, int_readAs h1 h2, int_builds h1 h2 h3 h4⟩
  | num h1 h2 h3 h4 h5 => exact ⟨_, num_readAs h1 h2, num_builds h1 h2 h3 h4 h5⟩
  | str h1 h2 h3 => exact ⟨_, str_readAs h1 h2, str_builds h1 h2 h3⟩
  | arr h1 h2 h3 _ ih =>
    obtain ⟨n, h4, h5⟩ := ih
    exact ⟨_, arr_readAs h1 h2 h3 h4, arr_builds h1 h2 h5⟩
  | @obj d kvs xs h1 h2 h3 h4 h5 h6 _ ih =>
    have : ∃ ns, All2 (fun x (n : Str × TNode) => n.1 = x.1 ∧ ReadAs x.2 n.2 ∧ FieldName cfg x.1 ∧ Builds cfg Known true x.2 n.2) xs ns :=
      all2_of_each fun x hx => by
        obtain ⟨n, h7, h8⟩ := ih x hx
        exact ⟨(x.1, n), rfl, h7, h6 x hx, h8⟩
    obtain ⟨ns, hns⟩ := this
    have hr := obj_readAs h1 h2 h4 h5 (hns.imp fun x n h => ⟨h.1, h.2.1⟩)
    have e : kvBool c!"additionalProperties" kvs = some false := by simp [kvBool, h3]
    rw [e] at hr
    exact ⟨_, hr, obj_builds h5 (hns.imp fun x n h => ⟨h.1, h.2.2⟩)⟩
  | @oneOf d kvs xs h1 h2 h3 _ ih =>
    have : ∃ ns, All2 (fun x n => ReadAs x n ∧ Builds cfg Known false x n) xs ns := all2_of_each fun x hx => ih x hx
    obtain ⟨ns, hns⟩ := this
    exact ⟨_, oneOf_readAs h1 h2 (hns.imp fun x n h => h.1), oneOf_builds h1 h2 h3 (hns.imp fun x n h => h.2)⟩

/-! ### Documents -/

theorem definitions_build : ∀ (pre ds : List (Str × Json)),
    (∀ l x r, ds = l ++ x :: r → Makeable cfg (· ∈ (pre ++ l).map (·.1)) false x.2 ∧ Movable x.2 ∧ '\x00' ∉ x.1) →
    ∃ ns, ReadAsD ds ns ∧ ∀ st, Knows cfg (· ∈ pre.map (·.1)) st.attrs →
      ∃ st', buildDefinitions cfg ns st = .ok st' ∧ Knows cfg (· ∈ (pre ++ ds).map (·.1)) st'.attrs := by
  intro pre ds
  induction ds generalizing pre with
  | nil => exact fun _ => ⟨[], .nil, fun st hk => ⟨st, rfl, by simpa using hk⟩⟩
  | cons x ds ih =>
    intro h
    obtain ⟨h1, h2, h3⟩ := h [] x ds rfl
    obtain ⟨n, h4, h5⟩ := node_builds h1
    simp only [List.append_nil] at h5
    obtain ⟨m, j⟩ := x
    simp only at h2 h3 h4 h5
    obtain ⟨ns, h6, h7⟩ := ih (pre ++ [(m, j)]) fun l y r he => by
      have := h ((m, j) :: l) y r (by simp [he])
      simpa using this
    refine ⟨(m, n) :: ns, .cons ⟨rfl, h4⟩ h6, fun st hk => ?_⟩
    obtain ⟨D, st1, g1, g2, g3, g4, g5⟩ := h5 m st h3 hk
    obtain ⟨st2, g6, g7⟩ := g5 h2 st1
    have hk2 : Knows cfg (· ∈ (pre ++ [(m, j)]).map (·.1)) (upsert m D.ty st2.attrs) := by
      intro q hq
      rw [g7]
      by_cases he : q = m
      · subst he; exact ⟨D.ty, by simp [lookupKey_upsert], g3, g5 h2⟩
      · refine (g2.set g3 (g5 h2)) q ?_
        simp only [List.map_append, List.map_cons, List.map_nil, List.mem_append, List.mem_singleton] at hq
        rcases hq with hq | hq
        · exact hq
        · exact absurd hq he
    obtain ⟨st3, g8, g9⟩ := h7 { st2 with attrs := upsert m D.ty st2.attrs } hk2
    refine ⟨st3, ?_, by simpa using g9⟩
    simp only [buildDefinitions, g1, g4 rfl, g6]
    exact g8

theorem document_builds {name : Str} {kvs : List (Str × Json)} (h : BuildableDocument cfg name kvs) (env : Env) :
    ∃ c st cd xs, schemaToType cfg name (.obj kvs) ⟨env, [], []⟩ = .ok (.cls c, st) ∧ st.env.classes[c]? = some cd ∧
      cd.name = name ∧ cd.module = cfg.modName ∧ cd.kind = .dataclass false ∧
      lookupKey c!"properties" kvs = some (.obj xs) ∧ (cd.fields.map (·.name)).Perm (xs.map (·.1)) := by
  obtain ⟨m, hm⟩ := h.schema
  obtain ⟨xs, hp, hn, hf, hx⟩ := h.props
  have : ∃ ds nds, DefsRead kvs nds ∧ ds = schemaDefs (.obj kvs) ∧ ∃ st', buildDefinitions cfg (nds.getD []) ⟨env, [], []⟩ = .ok st' ∧
      Knows cfg (· ∈ ds.map (·.1)) st'.attrs := by
    rcases h.defs with hd | ⟨ds, hd, hnd, hds⟩
    · refine ⟨[], Option.none, .absent hd, ?_, _, rfl, by intro n hn; cases hn⟩
      unfold Absent at hd
      simp [schemaDefs, hd]
    · obtain ⟨ns, h1, h2⟩ := definitions_build (cfg := cfg) [] ds (by simpa using hds)
      obtain ⟨st', h3, h4⟩ := h2 ⟨env, [], []⟩ (by intro n hn; cases hn)
      exact ⟨ds, some ns, .some hd hnd h1, by simp [schemaDefs, hd], st', h3, by simpa using h4⟩
  obtain ⟨ds, nds, h1, rfl, st1, h2, h3⟩ := this
  have : ∃ ns, All2 (fun x (n : Str × TNode) => n.1 = x.1 ∧ ReadAs x.2 n.2 ∧ FieldName cfg x.1 ∧
      Builds cfg (· ∈ (schemaDefs (.obj kvs)).map (·.1)) true x.2 n.2) xs ns :=
    all2_of_each fun x hm => by
      obtain ⟨n, h7, h8⟩ := node_builds (hx x hm)
      exact ⟨(x.1, n), rfl, h7, hf x hm, h8⟩
  obtain ⟨ns, hns⟩ := this
  have htop := top_read h.words h.type hm hp hn (hns.imp fun x n h => ⟨h.1, h.2.1⟩) h1
  have e : kvBool c!"additionalProperties" kvs = some false := by simp [kvBool, h.closed]
  rw [e] at htop
  obtain ⟨fs, st2, g1, g2, g3, g4⟩ := obj_makes (req := kvStrs c!"required" kvs) hn (hns.imp fun x n h => ⟨h.1, h.2.2⟩) name st1 h.nul h3
  refine ⟨st2.env.classes.length,
    ⟨{ st2.env with classes := st2.env.classes ++ [{ module := cfg.modName, name, kind := .dataclass false, fields := defaultsLast fs }] },
      upsert name (.cls st2.env.classes.length) st2.attrs, st2.patched⟩, { module := cfg.modName, name, kind := .dataclass false, fields := defaultsLast fs }, xs, ?_, ?_,
    rfl, rfl, rfl, hp, g4 ▸ (defaultsLast_perm fs).map _⟩
  · simp only [schemaToType, htop, h2, g1]
  · simp

end Verif
