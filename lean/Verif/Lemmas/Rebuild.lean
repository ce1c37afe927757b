import Verif.Spec.Rebuild
import Verif.Lemmas.NodeRead
import Verif.Lemmas.Mirror
import Verif.Lemmas.ClassBuildNames
import Verif.Lemmas.ClassBuildPlain
import Verif.Props.C39_C45_Enums
/-!
# Classes made again from their schemas
-/
namespace Verif

/-! ### Plain types -/

/-- Keywords that annotations add to the schema of a type. -/
def AddedKw (t : Ty) (k : Str) (x : Json) : Prop :=
  (t ∈ [Ty.int, .float] ∧ k = c!"format" ∧ ∃ f, x = .str f) ∨
  (t = .int ∧ (k = c!"minimum" ∨ k = c!"maximum") ∧ ∃ i, x = .int i) ∨
  (t ∈ [Ty.str, .datetime, .date, .time, .timedelta, .uuid] ∧ (k = c!"minLength" ∨ k = c!"maxLength") ∧ ∃ n : Nat, x = .int n)

/-- A schema with keywords added by annotations. -/
structure Decorated (t : Ty) (base s : Sch) : Prop where
  added : ∀ k x, lookupKey k s = some x → lookupKey k base = some x ∨ AddedKw t k x
  same : ∀ k ∈ base.map (·.1), lookupKey k s = lookupKey k base

theorem Decorated.refl {t : Ty} {s : Sch} : Decorated t s s := ⟨fun _ _ h => .inl h, fun _ _ => rfl⟩

theorem Decorated.set {t : Ty} {base s : Sch} (h : Decorated t base s) {k : Str} {x : Json} (hx : AddedKw t k x)
    (hk : k ∉ base.map (·.1)) : Decorated t base (upsert k x s) := by
  constructor
  · intro l y hy
    rw [lookupKey_upsert] at hy
    split at hy
    · rename_i e; cases hy; subst e; exact .inr hx
    · exact h.added l y hy
  · intro l hl
    rw [lookupKey_upsert, if_neg (by rintro rfl; exact hk hl)]
    exact h.same l hl

theorem Decorated.withMeta {cfg : SchemaCfg} {t : Ty} {base : Sch} (ht : t ∈ rebuiltTys) (hb : simpleSchema t = some base) :
    ∀ (ms : List Meta) (s : Sch), (∀ m ∈ ms, MetaAllowed t m) → Decorated t base s → Decorated t base (withMeta cfg s ms) := by
  have keys : ∀ k ∈ [c!"minimum", c!"maximum", c!"minLength", c!"maxLength"], k ∉ base.map (·.1) := by
    simp only [rebuiltTys, List.mem_cons, List.not_mem_nil, or_false] at ht
    rcases ht with rfl | rfl | rfl | rfl | rfl | rfl | rfl | rfl | rfl <;> (cases hb; decide)
  intro ms
  induction ms with
  | nil => intro s _ h; exact h
  | cons m ms ih =>
    intro s hm h
    have hm1 := hm m (by simp)
    refine ih _ (fun m hm' => hm m (by simp [hm'])) ?_
    cases m with
    | intRange lo hi =>
      exact (h.set (.inr (.inl ⟨hm1, .inl rfl, lo, rfl⟩)) (keys _ (by simp))).set (.inr (.inl ⟨hm1, .inr rfl, hi, rfl⟩))
        (keys _ (by simp))
    | precision => exact hm1.elim
    | minLength n => exact h.set (.inr (.inr ⟨hm1, .inl rfl, n, rfl⟩)) (keys _ (by simp))
    | maxLength n => exact h.set (.inr (.inr ⟨hm1, .inr rfl, n, rfl⟩)) (keys _ (by simp))
    | _ => exact h

/-- The node of the schema of a plain type gives the type again, apart from annotations. -/
def PlainNode (cfg : BuildCfg) (A : Env) (t : Ty) (n : TNode) : Prop :=
  ∃ u, (∀ B, Mirror A B t u) ∧ Piece u ∧ u.alias = Option.none ∧ ∀ ctx st, nodeToTypedef cfg n ctx st = .ok (⟨u, Option.none⟩, st)

theorem bool_node {cfg : BuildCfg} {A : Env} {s : Sch} (h : Decorated .bool [(c!"type", js c!"boolean")] s) :
    ∃ n, ReadAs (.obj s) n ∧ PlainNode cfg A .bool n := by
  have hk : ∀ k x, lookupKey k s = some x → k = c!"type" := by
    intro k x hx
    rcases h.added k x hx with h | h
    · exact Classical.byContradiction fun hk => by simp [lookupKey, Ne.symm hk] at h
    · simp [AddedKw] at h
  have hn : ∀ k, k ≠ c!"type" → lookupKey k s = Option.none := by
    intro k hk'
    cases hl : lookupKey k s with
    | none => rfl
    | some x => exact absurd (hk k x hl) hk'
  refine ⟨_, bool_readAs (fun k x hx hne => absurd (hk k x hx) (by simpa using hne)) (h.same _ (by simp)), .bool,
    fun B => .leaf (by simp [plainTys]), ⟨rfl, rfl, rfl⟩, rfl, fun ctx st => ?_⟩
  simp only [kvBool, hn c!"const" (by decide), hn c!"default" (by decide)]
  rfl

theorem int_node {cfg : BuildCfg} {A : Env} {s : Sch} (h : Decorated .int [(c!"type", js c!"integer")] s) :
    ∃ n, ReadAs (.obj s) n ∧ PlainNode cfg A .int n := by
  have hk : ∀ k x, lookupKey k s = some x → k = c!"type" ∨ (k = c!"format" ∧ ∃ f, x = .str f) ∨
      ((k = c!"minimum" ∨ k = c!"maximum") ∧ ∃ i, x = .int i) := by
    intro k x hx
    rcases h.added k x hx with h | h
    · exact .inl (Classical.byContradiction fun hk => by simp [lookupKey, Ne.symm hk] at h)
    · rcases h with ⟨_, h⟩ | ⟨_, h⟩ | ⟨h, _⟩
      · exact .inr (.inl h)
      · exact .inr (.inr h)
      · simp at h
  have hn : ∀ k ∈ [c!"const", c!"default", c!"enum"], lookupKey k s = Option.none := by
    intro k hk'
    cases hl : lookupKey k s with
    | none => rfl
    | some x =>
      exfalso
      have key : ∀ k ∈ [c!"const", c!"default", c!"enum"], ¬ (k = c!"type" ∨ k = c!"format" ∨ k = c!"minimum" ∨ k = c!"maximum") := by
        decide
      exact key k hk' (by rcases hk k x hl with h | ⟨h, _⟩ | ⟨h | h, _⟩ <;> simp [h])
  have hr := int_readAs (kvs := s) (fun k x hx hne => by
    rcases hk k x hx with rfl | ⟨rfl, h⟩ | ⟨rfl | rfl, h⟩
    · simp at hne
    · exact ⟨.str, by decide, h⟩
    · exact ⟨.int, by decide, h⟩
    · exact ⟨.int, by decide, h⟩) (h.same _ (by simp))
  have e : ∃ T, intNodeType ⟨kvStr c!"format" s, kvInt c!"const" s, kvInts c!"enum" s, kvInt c!"minimum" s,
      kvInt c!"maximum" s⟩ = .ok T ∧ T ∈ [IntType.int16, .int32, .int64, .int] := by
    simp only [kvInt, kvInts, hn c!"const" (by decide), hn c!"enum" (by decide), intNodeType]
    split
    · exact ⟨_, rfl, by simp⟩
    split
    · exact ⟨_, rfl, by simp⟩
    split
    · exact ⟨_, rfl, by simp⟩
    split
    · refine ⟨_, rfl, ?_⟩
      unfold rangeToType
      repeat' split
      all_goals simp
    · exact ⟨_, rfl, by simp⟩
  obtain ⟨T, hT, hm⟩ := e
  refine ⟨_, hr, T.toTy, ?_, ?_, ?_, ?_⟩
  · intro B
    have leaf : Mirror A B .int .int := .leaf (by simp [plainTys])
    simp only [List.mem_cons, List.not_mem_nil, or_false] at hm
    rcases hm with rfl | rfl | rfl | rfl
    · exact .annotatedR leaf
    · exact .annotatedR leaf
    · exact .annotatedR leaf
    · exact leaf
  · simp only [List.mem_cons, List.not_mem_nil, or_false] at hm
    rcases hm with rfl | rfl | rfl | rfl <;> exact ⟨rfl, rfl, rfl⟩
  · simp only [List.mem_cons, List.not_mem_nil, or_false] at hm
    rcases hm with rfl | rfl | rfl | rfl <;> rfl
  · intro ctx st
    simp only [nodeToTypedef, intTypedef, hT]
    have hd : kvInt c!"default" s = Option.none := by simp only [kvInt, hn c!"default" (by decide)]
    rw [hd]
    simp only [List.mem_cons, List.not_mem_nil, or_false] at hm
    rcases hm with rfl | rfl | rfl | rfl <;> rfl

theorem float_node {cfg : BuildCfg} {A : Env} {s : Sch} (h : Decorated .float [(c!"type", js c!"number")] s) :
    ∃ n, ReadAs (.obj s) n ∧ PlainNode cfg A .float n := by
  have hk : ∀ k x, lookupKey k s = some x → k = c!"type" ∨ (k = c!"format" ∧ ∃ f, x = .str f) := by
    intro k x hx
    rcases h.added k x hx with h | h
    · exact .inl (Classical.byContradiction fun hk => by simp [lookupKey, Ne.symm hk] at h)
    · rcases h with ⟨_, h⟩ | ⟨h, _⟩ | ⟨h, _⟩
      · exact .inr h
      · cases h
      · simp at h
  have hn : ∀ k, k ≠ c!"type" → k ≠ c!"format" → lookupKey k s = Option.none := by
    intro k h1 h2
    cases hl : lookupKey k s with
    | none => rfl
    | some x => exact (hk k x hl).elim (fun h => absurd h h1) fun h => absurd h.1 h2
  have hr := num_readAs (kvs := s) (fun k x hx hne => by
    rcases hk k x hx with rfl | ⟨rfl, h⟩
    · simp at hne
    · exact ⟨.str, by decide, h⟩) (h.same _ (by simp))
  simp only [kvFloat, hn c!"const" (by decide) (by decide), hn c!"default" (by decide) (by decide),
    hn c!"exclusiveMinimum" (by decide) (by decide), hn c!"exclusiveMaximum" (by decide) (by decide),
    hn c!"multipleOf" (by decide) (by decide)] at hr
  refine ⟨_, hr, ?_⟩
  have leaf : ∀ B, Mirror A B .float .float := fun B => .leaf (by simp [plainTys])
  generalize kvStr c!"format" s = f
  by_cases h1 : f = some c!"float32"
  · subst h1; exact ⟨_, fun B => .annotatedR (leaf B), ⟨rfl, rfl, rfl⟩, rfl, fun ctx st => rfl⟩
  by_cases h2 : f = some c!"float64"
  · subst h2; exact ⟨_, fun B => .annotatedR (leaf B), ⟨rfl, rfl, rfl⟩, rfl, fun ctx st => rfl⟩
  refine ⟨.float, leaf, ⟨rfl, rfl, rfl⟩, rfl, fun ctx st => ?_⟩
  simp only [nodeToTypedef, numTypedef, numberType, if_neg h1, if_neg h2]
  rfl

/-- Formats of texts. -/
def textBase (f : Option Str) : Sch :=
  (c!"type", js c!"string") :: (match f with | some f => [(c!"format", js f)] | Option.none => [])

theorem text_node {cfg : BuildCfg} {A : Env} {s : Sch} {t : Ty} {f : Option Str} (hf : (f = Option.none ∧ t = .str) ∨ formatType f = some t)
    (ht : t ∈ [Ty.str, .datetime, .date, .time, .timedelta, .uuid]) (h : Decorated t (textBase f) s) :
    ∃ n, ReadAs (.obj s) n ∧ PlainNode cfg A t n := by
  have hk : ∀ k x, lookupKey k s = some x → k = c!"type" ∨ (k = c!"format" ∧ ∃ f, x = .str f) ∨
      ((k = c!"minLength" ∨ k = c!"maxLength") ∧ ∃ n : Nat, x = .int n) := by
    intro k x hx
    rcases h.added k x hx with h | h
    · unfold textBase at h
      by_cases h1 : c!"type" = k
      · exact .inl h1.symm
      · cases f with
        | none => simp [lookupKey, h1] at h
        | some f =>
          by_cases h2 : c!"format" = k
          · refine .inr (.inl ⟨h2.symm, f, ?_⟩)
            subst h2
            have : lookupKey c!"format" [(c!"type", js c!"string"), (c!"format", js f)] = some (js f) := rfl
            rw [this] at h; cases h; rfl
          · simp [lookupKey, h1, h2] at h
    · rcases h with ⟨h, _⟩ | ⟨h, _⟩ | ⟨_, h⟩
      · simp only [List.mem_cons, List.not_mem_nil, or_false] at h
        rcases h with rfl | rfl <;> simp at ht
      · subst h; simp at ht
      · exact .inr (.inr h)
  have hn : ∀ k ∈ [c!"const", c!"default", c!"enum"], lookupKey k s = Option.none := by
    intro k hk'
    cases hl : lookupKey k s with
    | none => rfl
    | some x =>
      exfalso
      have key : ∀ k ∈ [c!"const", c!"default", c!"enum"], ¬ (k = c!"type" ∨ k = c!"format" ∨ k = c!"minLength" ∨ k = c!"maxLength") := by
        decide
      exact key k hk' (by rcases hk k x hl with h | ⟨h, _⟩ | ⟨h | h, _⟩ <;> simp [h])
  have hr := str_readAs (kvs := s) (fun k x hx hne => by
    rcases hk k x hx with rfl | ⟨rfl, h⟩ | ⟨rfl | rfl, n, h⟩
    · simp at hne
    · exact ⟨.str, by decide, h⟩
    · exact ⟨.int, by decide, _, h⟩
    · exact ⟨.int, by decide, _, h⟩) (h.same _ (by simp [textBase]))
  have hfmt : kvStr c!"format" s = f := by
    cases f with
    | none =>
      simp only [kvStr]
      cases hl : lookupKey c!"format" s with
      | none => rfl
      | some x =>
        exfalso
        rcases h.added _ x hl with h | h
        · cases h
        · rcases h with ⟨h, _⟩ | ⟨_, h | h, _⟩ | ⟨_, h | h, _⟩
          · simp only [List.mem_cons, List.not_mem_nil, or_false] at h
            rcases h with rfl | rfl <;> simp at ht
          all_goals exact absurd h (by decide)
    | some f =>
      simp only [kvStr]
      rw [h.same c!"format" (by simp [textBase])]
      rfl
  simp only [kvStr, kvStrs, hn c!"const" (by decide), hn c!"default" (by decide), hn c!"enum" (by decide)] at hr
  refine ⟨_, hr, ?_⟩
  have leaf : ∀ B, Mirror A B t t := fun B => .leaf (by
    simp only [List.mem_cons, List.not_mem_nil, or_false] at ht
    rcases ht with rfl | rfl | rfl | rfl | rfl | rfl <;> simp [plainTys])
  have piece : Piece t ∧ t.alias = Option.none := by
    simp only [List.mem_cons, List.not_mem_nil, or_false] at ht
    rcases ht with rfl | rfl | rfl | rfl | rfl | rfl <;> exact ⟨⟨rfl, rfl, rfl⟩, rfl⟩
  simp only [kvStr] at hfmt
  rw [hfmt]
  rcases hf with ⟨rfl, rfl⟩ | hf
  · have hml : kvInt c!"maxLength" s = Option.none ∨ ∃ n : Nat, kvInt c!"maxLength" s = some (n : Int) := by
      simp only [kvInt]
      cases hl : lookupKey c!"maxLength" s with
      | none => exact .inl rfl
      | some x =>
        rcases hk _ x hl with h | ⟨h, _⟩ | ⟨_, n, rfl⟩
        · exact absurd h (by decide)
        · exact absurd h (by decide)
        · exact .inr ⟨n, rfl⟩
    rcases hml with h | ⟨n, h⟩ <;> rw [h]
    · exact ⟨.str, leaf, piece.1, rfl, fun ctx st => rfl⟩
    · exact ⟨.annotated .str [.maxLength n], fun B => .annotatedR (leaf B), ⟨rfl, rfl, rfl⟩, rfl, fun ctx st => rfl⟩
  · refine ⟨t, leaf, piece.1, piece.2, fun ctx st => ?_⟩
    simp only [nodeToTypedef, strTypedef, stringType, hf]
    rfl

theorem plain_node {cfg : BuildCfg} {A : Env} {t : Ty} {base s : Sch} (ht : t ∈ rebuiltTys) (hb : simpleSchema t = some base)
    (h : Decorated t base s) : ∃ n, ReadAs (.obj s) n ∧ PlainNode cfg A t n := by
  simp only [rebuiltTys, List.mem_cons, List.not_mem_nil, or_false] at ht
  rcases ht with rfl | rfl | rfl | rfl | rfl | rfl | rfl | rfl | rfl <;> cases hb
  · exact bool_node h
  · exact int_node h
  · exact float_node h
  · exact text_node (f := Option.none) (.inl ⟨rfl, rfl⟩) (by simp) h
  · exact text_node (f := some c!"date-time") (.inr rfl) (by simp) h
  · exact text_node (f := some c!"date") (.inr rfl) (by simp) h
  · exact text_node (f := some c!"time") (.inr rfl) (by simp) h
  · exact text_node (f := some c!"duration") (.inr rfl) (by simp) h
  · exact text_node (f := some c!"uuid") (.inr rfl) (by simp) h

theorem simple_node {cfg : BuildCfg} {scfg : SchemaCfg} {A : Env} {t : Ty} {ms : List Meta} {base : Sch} (ht : t ∈ rebuiltTys)
    (hm : ∀ m ∈ ms, MetaAllowed t m) (hb : simpleSchema t = some base) :
    (auxFormat t ms = Option.none → ∃ n, ReadAs (.obj (withMeta scfg base ms)) n ∧ PlainNode cfg A t n) ∧
    ∀ fmt, auxFormat t ms = some fmt → ∃ n, ReadAs (.obj (upsert c!"format" (js fmt) base)) n ∧ PlainNode cfg A t n := by
  refine ⟨fun _ => plain_node ht hb (Decorated.withMeta ht hb ms _ hm .refl), fun fmt hf => plain_node ht hb ?_⟩
  have hit : t = .int ∨ t = .float := by
    unfold auxFormat at hf
    split at hf
    · exact .inl rfl
    · exact .inr rfl
    · cases hf
  refine Decorated.set .refl (.inl ⟨by rcases hit with rfl | rfl <;> simp, rfl, _, rfl⟩) ?_
  rcases hit with rfl | rfl <;> cases hb <;> decide

theorem literal_node {cfg : BuildCfg} {A : Env} {l : Lit} {s : Sch} (h1 : ∀ e m, l ≠ Lit.enum e m) (h2 : l ≠ .none)
    (hs : litSchema l = .ok s) : ∃ n, ReadAs (.obj s) n ∧ PlainNode cfg A (.literal [l]) n := by
  have fin : ∀ n, ReadAs (.obj s) n → (∀ ctx st, nodeToTypedef cfg n ctx st = .ok (⟨.literal [l], Option.none⟩, st)) →
      ∃ n, ReadAs (.obj s) n ∧ PlainNode cfg A (.literal [l]) n :=
    fun n hr hn => ⟨n, hr, _, fun B => .literal h1 h2, ⟨rfl, rfl, rfl⟩, rfl, hn⟩
  have keys : ∀ {T : Str} {y : Json} {table : List (Str × KwKind)} {K : KwKind}, s = [(c!"type", js T), (c!"const", y)] →
      (c!"const", K) ∈ table → K.Holds y → Keywords table [c!"type"] s := by
    intro T y table K hs hK hy k x hx hne
    subst hs
    by_cases hc : c!"const" = k
    · subst hc
      have : lookupKey c!"const" [(c!"type", js T), (c!"const", y)] = some y := rfl
      rw [this] at hx; cases hx
      exact ⟨K, by simp [hK], hy⟩
    · simp only [List.mem_singleton] at hne
      simp [lookupKey, hc, Ne.symm hne] at hx
  cases l with
  | none => exact absurd rfl h2
  | enum e m => exact absurd rfl (h1 e m)
  | bool b =>
    cases hs
    exact fin _ (bool_readAs (keys rfl (K := .bool) (by decide) ⟨b, rfl⟩) rfl) fun ctx st => rfl
  | int i =>
    cases hs
    exact fin _ (int_readAs (keys rfl (K := .int) (by decide) ⟨i, rfl⟩) rfl) fun ctx st => rfl
  | str x =>
    cases hs
    exact fin _ (str_readAs (keys rfl (K := .str) (by decide) ⟨x, rfl⟩) rfl) fun ctx st => rfl

end Verif
