import Verif.Lemmas.Heap
import Verif.Lemmas.PyEq
import Verif.Model.Serializer
/-!
# C24: literal types; C25: enumerations
-/
namespace Verif

/-! ### C25 -/

/-- Lookup by value: the result is the first member whose value equals the data (by Python `==`). -/
theorem C25_lookup (env : Env) (hk : env.Ok) (skip : Bool) (e : Nat) (ed : EnumDef) (he : env.enums[e]? = some ed)
    (j : Json) (v : Val) :
    loads env skip (.enum e) j = .ok v ↔
      ∃ s m name x, j.scalar = some s ∧ ed.members[m]? = some (name, x) ∧ s.pyEq x = true ∧ v = .enum e m ∧
        ∀ (k : Nat) y, k < m → ed.members[k]? = some y → s.pyEq y.2 = false := by
  rw [loads_enum hk skip he]
  unfold enumLookup
  simp only [he]
  cases hj : j.scalar with
  | none => simp
  | some s =>
    simp only
    cases hf : ed.members.findIdx? (fun m => s.pyEq m.2) with
    | some i =>
      obtain ⟨⟨name, x⟩, h1, h2⟩ := findIdx?_some hf
      have hlt : ∀ (k : Nat) y, k < i → ed.members[k]? = some y → s.pyEq y.2 = false := by
        intro k y hk' hy
        obtain ⟨hl, e1⟩ := List.getElem?_eq_some_iff.1 hy
        have := (List.findIdx?_eq_some_iff_getElem.1 hf).2.2 k hk'
        rw [← e1]; simpa using this
      constructor
      · intro h
        cases h
        exact ⟨s, i, name, x, rfl, h1, h2, rfl, hlt⟩
      · rintro ⟨s', m, name', x', hs, h3, h4, rfl, h5⟩
        cases hs
        rcases Nat.lt_trichotomy m i with h | h | h
        · have := hlt m _ h h3
          simp only at this
          rw [h4] at this; cases this
        · rw [h]
        · have := h5 i _ h h1
          simp only at this h2
          rw [h2] at this; cases this
    | none =>
      have := findIdx?_none hf
      constructor
      · intro h
        simp only at h
        split at h <;> cases h
      · rintro ⟨s', m, name', x', hs, h3, h4, rfl, h5⟩
        cases hs
        have := this _ (List.mem_of_getElem? h3)
        simp only at this
        rw [h4] at this; cases this

/-- `ValueError` exactly if no member value equals the data (NaN excepted, whose lookup goes by object identity). -/
theorem C25_unknown (env : Env) (hk : env.Ok) (skip : Bool) (e : Nat) (ed : EnumDef) (he : env.enums[e]? = some ed)
    (j : Json) (hj : j ≠ .float .nan) :
    loads env skip (.enum e) j = .error .valueError ↔
      ∀ name x s, (name, x) ∈ ed.members → j.scalar = some s → s.pyEq x = false := by
  rw [loads_enum hk skip he]
  unfold enumLookup
  simp only [he]
  cases hs : j.scalar with
  | none => simp
  | some s =>
    simp only
    have hnan : s ≠ .float .nan := by
      rintro rfl
      cases j <;> simp [Json.scalar] at hs
      exact hj (by rw [hs])
    cases hf : ed.members.findIdx? (fun m => s.pyEq m.2) with
    | some i =>
      obtain ⟨⟨name, x⟩, h1, h2⟩ := findIdx?_some hf
      constructor
      · intro h; cases h
      · intro h
        have := h name x s (List.mem_of_getElem? h1) rfl
        simp only at h2
        rw [h2] at this; cases this
    | none =>
      simp only [hnan, false_and, if_false, true_iff]
      intro name x s' hm hs'
      cases hs'
      exact findIdx?_none hf _ hm

/-- Every member survives serialization and deserialization.  Missing: enumerations with `to_json`, for which it is false (see
`C25_to_json_fails`), and members whose value is NaN, which are found by object identity. -/
theorem C25_roundtrip_partial (env : Env) (hk : env.Ok) (skip : Bool) (e : Nat) (ed : EnumDef) (he : env.enums[e]? = some ed)
    (hto : ed.toJson = none) (m : Nat) (name : Str) (x : Scalar) (hm : ed.members[m]? = some (name, x))
    (hx : x ≠ .float .nan) :
    ∃ j, objectToJson env (.enum e m) = .ok j ∧ loads env skip (.enum e) j = .ok (.enum e m) := by
  refine ⟨x.toJson, ?_, ?_⟩
  · simp [objectToJson, dumps, typeOf, serCreate, createWith, he, gen, genD, genShape, genEnum, hto, enumValue, hm]
  · rw [C25_lookup env hk skip e ed he]
    have hsc : x.toJson.scalar = some x := by cases x <;> rfl
    refine ⟨x, m, name, x, hsc, hm, Scalar.pyEq_refl x hx, rfl, ?_⟩
    intro k y hkm hy
    obtain ⟨h1, e1⟩ := List.getElem?_eq_some_iff.1 hy
    obtain ⟨h2, e2⟩ := List.getElem?_eq_some_iff.1 hm
    have := List.pairwise_iff_getElem.1 (hk.enums ed (List.mem_of_getElem? he)) k m h1 h2 hkm
    rw [e1, e2] at this
    rw [Scalar.pyEq_symm]; exact this

/-- Enumeration used in examples: string, integer and `None` values. -/
private def exE : EnumDef :=
  { module := c!"m", name := c!"E", members := [(c!"A", .str c!"a"), (c!"B", .int 2), (c!"C", .none)] }
private def exEnv : Env := ⟨[exE], [], id⟩
private theorem exEnv_ok : exEnv.Ok :=
  ⟨by simp [exEnv], by simp [exEnv, EnumDef.Ok, exE, Scalar.pyEq, Scalar.asInt], by simp [exEnv], fun _ => .refl _⟩

example : exEnv.enums[0]? = some exE ∧ exE.toJson = none ∧ exE.members[1]? = some (c!"B", .int 2) := ⟨rfl, rfl, rfl⟩
example : loads exEnv false (.enum 0) (.str c!"a") = .ok (.enum 0 0) := rfl
example : loads exEnv false (.enum 0) (.str c!"b") = .error .valueError := rfl
/-- An enumeration with a method `to_json` that writes names instead of values. -/
private def exNamed : EnumDef :=
  { module := c!"m", name := c!"N", members := [(c!"A", .int 1)], toJson := some fun _ => .ok (.str c!"A") }

/-- The round trip fails for an enumeration with `to_json`: the method decides what is written, but members are looked up by
value. -/
theorem C25_to_json_fails (skip : Bool) : ∃ (env : Env) (ed : EnumDef), env.Ok ∧ env.enums[0]? = some ed ∧
    ed.members = [(c!"A", .int 1)] ∧ objectToJson env (.enum 0 0) = .ok (.str c!"A") ∧
    loads env skip (.enum 0) (.str c!"A") = .error .valueError :=
  ⟨⟨[exNamed], [], id⟩, exNamed,
    ⟨by simp, by simp [EnumDef.Ok, exNamed], by simp, fun _ => .refl _⟩, rfl, rfl, rfl, by cases skip <;> rfl⟩

/-- "Equals" is Python equality: `2.0` finds the member with value `2`. -/
example : loads exEnv false (.enum 0) (.float (.fin false 1 1)) = .ok (.enum 0 1) := rfl

/-! ### C24 -/

/-- The JSON value is the literal: same type and same value.  For an enumeration member it is the value of the member. -/
def LitIs (env : Env) : Lit → Json → Prop
  | .none, j => j = .null
  | .bool b, j => j = .bool b
  | .int i, j => j = .int i
  | .str s, j => j = .str s
  | .enum e m, j => ∃ ed s, env.enums[e]? = some ed ∧ j.scalar = some s ∧
      ed.members.findIdx? (fun p => s.pyEq p.2) = some m

/-- All literals have the same type. -/
def SameType (ls : List Lit) : Prop := ∃ t, ls ≠ [] ∧ ∀ l ∈ ls, l.ty = t

/-- Literals only refer to enumerations of the program. -/
def LitsKnown (env : Env) (ls : List Lit) : Prop := ∀ e m, Lit.enum e m ∈ ls → ∃ ed, env.enums[e]? = some ed

theorem sameTy_iff (a b : Lit) : a.sameTy b = true ↔ a.ty = b.ty := by
  cases a <;> cases b <;> simp [Lit.sameTy, Lit.ty]

theorem uniform_iff (l : Lit) (r : List Lit) : r.all (fun m => l.sameTy m) = true ↔ SameType (l :: r) := by
  simp only [List.all_eq_true, sameTy_iff]
  constructor
  · intro h; refine ⟨l.ty, by simp, ?_⟩
    intro x hx
    rcases List.mem_cons.1 hx with rfl | hx
    · rfl
    · exact (h x hx).symm
  · rintro ⟨t, _, h⟩ x hx
    rw [h l (by simp), h x (by simp [hx])]

theorem litDeser_ok {env : Env} {l : Lit} (h : ∀ e m, l = .enum e m → ∃ ed, env.enums[e]? = some ed) :
    ∃ d, litDeser env l = .ok d ∧ compile env l.ty = .ok d := by
  cases l with
  | enum e m =>
    obtain ⟨ed, he⟩ := h e m rfl
    simp [litDeser, Lit.ty, compile, tyKey, he]
  | _ => simp [litDeser, Lit.ty, compile]

theorem compile_literal {env : Env} {ls : List Lit} (hs : SameType ls) (hk : LitsKnown env ls) :
    ∃ l r d, ls = l :: r ∧ compile env l.ty = .ok d ∧ compile env (.literal ls) = .ok (.literal ls d) := by
  cases ls with
  | nil => obtain ⟨_, h, _⟩ := hs; exact absurd rfl h
  | cons l r =>
    obtain ⟨d, h1, h2⟩ := litDeser_ok (env := env) (l := l) (fun e m he => hk e m (by simp [he]))
    refine ⟨l, r, d, rfl, h2, ?_⟩
    simp only [compile, compileLit]
    rw [if_pos ((uniform_iff l r).2 hs), h1]

/-- Literals of mixed types, and only those, are refused with `TypeError` when the reader or the writer is created. -/
theorem C24_mixed (env : Env) (ls : List Lit) (hk : LitsKnown env ls) :
    (¬ SameType ls ↔ compile env (.literal ls) = .error .typeError) ∧
    (¬ SameType ls ↔ serCreate env (.literal ls) = .error .typeError) ∧
    (¬ SameType ls → ∀ skip j, loads env skip (.literal ls) j = .error .typeError) := by
  have hcomp : ¬ SameType ls ↔ compile env (.literal ls) = .error .typeError := by
    constructor
    · intro h
      cases ls with
      | nil => rfl
      | cons l r =>
        simp only [compile, compileLit]
        rw [if_neg (fun hu => h ((uniform_iff l r).1 hu))]
    · intro h hs
      obtain ⟨l, r, d, _, _, h2⟩ := compile_literal hs hk
      rw [h2] at h; cases h
  refine ⟨hcomp, ?_, ?_⟩
  · have hu : litsUniform ls = true ↔ SameType ls := by
      cases ls with
      | nil => simp [litsUniform, SameType]
      | cons l r => exact uniform_iff l r
    simp only [serCreate, createWith]
    constructor
    · intro h; rw [if_neg (fun hc => h (hu.1 hc))]
    · intro h hs; rw [if_pos (hu.2 hs)] at h; cases h
  · intro h skip j
    simp [loads, hcomp.1 h]

theorem litMem_iff (vals : List Lit) (v : Val) (h : ∀ l ∈ vals, ∀ l' : Lit, v = l'.toVal → l.ty = l'.ty)
    (hv : ∃ l' : Lit, v = l'.toVal) : litMem vals v = true ↔ ∃ l ∈ vals, v = l.toVal := by
  obtain ⟨l', rfl⟩ := hv
  unfold litMem
  simp only [List.any_eq_true]
  constructor
  · rintro ⟨l, hl, hm⟩
    refine ⟨l, hl, ?_⟩
    have ht := h l hl l' rfl
    cases l <;> cases l' <;> simp [Lit.ty] at ht <;>
      simp_all [Lit.toVal, Lit.scalar, Val.scalar, Scalar.pyEq, Scalar.asInt]
    rename_i b b'
    cases b <;> cases b' <;> simp_all
  · rintro ⟨l, hl, he⟩
    refine ⟨l, hl, ?_⟩
    rw [he]
    cases l <;> simp [Lit.toVal, Lit.scalar, Val.scalar, Scalar.pyEq, Scalar.asInt]

theorem toVal_inj {a b : Lit} (h : a.toVal = b.toVal) : a = b := by
  cases a <;> cases b <;> simp_all [Lit.toVal]

/-- A JSON value read as the type of a literal. -/
theorem loads_litTy {env : Env} (hk : env.Ok) (skip : Bool) (l : Lit)
    (hl : ∀ e m, l = .enum e m → ∃ ed, env.enums[e]? = some ed) (j : Json)
    (hb : ∀ i b, l = .int i → j ≠ .bool b) (v : Val) :
    loads env skip l.ty j = .ok v ↔ ∃ l' : Lit, l'.ty = l.ty ∧ LitIs env l' j ∧ v = l'.toVal := by
  cases l with
  | enum e m =>
    obtain ⟨ed, he⟩ := hl e m rfl
    simp only [Lit.ty]
    rw [loads_enum hk skip he]
    unfold enumLookup
    simp only [he]
    cases hj : j.scalar with
    | none =>
      constructor
      · intro h; cases h
      · rintro ⟨l', h1, h2, rfl⟩
        cases l' <;> simp at h1
        subst h1
        simp [LitIs, hj] at h2
    | some s =>
      simp only
      cases hf : ed.members.findIdx? (fun m => s.pyEq m.2) with
      | some i =>
        constructor
        · intro h; cases h
          exact ⟨.enum e i, rfl, ⟨ed, s, he, hj, hf⟩, rfl⟩
        · rintro ⟨l', h1, h2, rfl⟩
          cases l' <;> simp at h1
          subst h1
          obtain ⟨ed', s', h3, h4, h5⟩ := h2
          rw [he] at h3; cases h3
          rw [hj] at h4; cases h4
          rw [hf] at h5; cases h5
          rfl
      | none =>
        constructor
        · intro h
          simp only at h
          split at h <;> cases h
        · rintro ⟨l', h1, h2, rfl⟩
          cases l' <;> simp at h1
          subst h1
          obtain ⟨ed', s', h3, h4, h5⟩ := h2
          rw [he] at h3; cases h3
          rw [hj] at h4; cases h4
          rw [hf] at h5; cases h5
  | none =>
    simp only [Lit.ty]
    constructor
    · intro h
      cases j <;> cases h
      exact ⟨.none, rfl, rfl, rfl⟩
    · rintro ⟨l', h1, h2, rfl⟩
      cases l' <;> simp at h1
      cases h2; rfl
  | bool b =>
    simp only [Lit.ty]
    constructor
    · intro h
      cases j <;> cases h
      exact ⟨.bool _, rfl, rfl, rfl⟩
    · rintro ⟨l', h1, h2, rfl⟩
      cases l' <;> simp at h1
      cases h2; rfl
  | int i =>
    simp only [Lit.ty]
    constructor
    · intro h
      cases j with
      | bool b => exact absurd rfl (hb i b rfl)
      | int k => cases h; exact ⟨.int _, rfl, rfl, rfl⟩
      | _ => cases h
    · rintro ⟨l', h1, h2, rfl⟩
      cases l' <;> simp at h1
      cases h2; rfl
  | str s =>
    simp only [Lit.ty]
    constructor
    · intro h
      cases j <;> cases h
      exact ⟨.str _, rfl, rfl, rfl⟩
    · rintro ⟨l', h1, h2, rfl⟩
      cases l' <;> simp at h1
      cases h2; rfl

/-- Literal types accept exactly the listed values and return them.  Excepted: booleans where integers are listed, see
`C24_bool_as_int`. -/
theorem C24_accepts_iff_partial (env : Env) (hk : env.Ok) (skip : Bool) (ls : List Lit) (hs : SameType ls)
    (hl : LitsKnown env ls) (j : Json) (hb : ∀ i b, Lit.int i ∈ ls → j ≠ .bool b) (v : Val) :
    loads env skip (.literal ls) j = .ok v ↔ ∃ l ∈ ls, LitIs env l j ∧ v = l.toVal := by
  obtain ⟨l, r, d, rfl, h1, h2⟩ := compile_literal hs hl
  have hmain := loads_litTy hk skip l (fun e m he => hl e m (by simp [he])) j (fun i b he => hb i b (by simp [he]))
  have hty : ∀ x ∈ l :: r, x.ty = l.ty := by
    obtain ⟨t, _, h⟩ := hs
    intro x hx; rw [h x hx, h l (by simp)]
  rw [loads_of_compile h2, parse_literal]
  simp only [loads_of_compile h1] at hmain
  constructor
  · intro h
    split at h
    · cases h
    · rename_i w hw
      obtain ⟨l', h3, h4, rfl⟩ := (hmain w).1 hw
      split at h
      · rename_i hm
        cases h
        obtain ⟨x, hx, he⟩ := (litMem_iff (l :: r) l'.toVal
          (fun x hx y hy => by rw [← toVal_inj hy, hty x hx, h3]) ⟨l', rfl⟩).1 hm
        rw [toVal_inj he] at h4 ⊢
        exact ⟨x, hx, h4, rfl⟩
      · cases h
  · rintro ⟨x, hx, h3, rfl⟩
    rw [(hmain x.toVal).2 ⟨x, hty x hx, h3, rfl⟩]
    simp only
    rw [if_pos]
    exact (litMem_iff (l :: r) x.toVal
          (fun y hy z hz => by rw [← toVal_inj hz, hty x hx, hty y hy]) ⟨x, rfl⟩).2 ⟨x, hx, rfl⟩

/-- The error for a value that is not listed: `JsonTypeError` for literals that are not enumeration members. -/
theorem C24_rejects (env : Env) (hk : env.Ok) (skip : Bool) (ls : List Lit) (hs : SameType ls)
    (hne : ∀ e m, Lit.enum e m ∉ ls) (j : Json) (hb : ∀ i b, Lit.int i ∈ ls → j ≠ .bool b)
    (h : ¬ ∃ l ∈ ls, LitIs env l j) : loads env skip (.literal ls) j = .error .jsonType := by
  have hl : LitsKnown env ls := fun e m hm => absurd hm (hne e m)
  have hno := fun v => C24_accepts_iff_partial env hk skip ls hs hl j hb v
  obtain ⟨l, r, d, rfl, h1, h2⟩ := compile_literal hs hl
  rw [loads_of_compile h2, parse_literal] at hno ⊢
  rw [parse_eq] at hno ⊢
  cases hp : parseD env (fullHeap env skip) j (kidsOf env (fullHeap env skip) j) d with
  | ok v =>
    rw [hp] at hno
    simp only at hno ⊢
    split
    · rename_i hm
      rw [if_pos hm] at hno
      obtain ⟨x, hx, hy, _⟩ := (hno v).1 rfl
      exact absurd ⟨x, hx, hy⟩ h
    · rfl
  | error e =>
    simp only
    have : e = .jsonType := by
      cases l with
      | enum e m => exact absurd (by simp) (hne e m)
      | none => cases h1; cases j <;> cases hp; all_goals rfl
      | bool b => cases h1; cases j <;> cases hp; all_goals rfl
      | int i => cases h1; cases j <;> cases hp; all_goals rfl
      | str s => cases h1; cases j <;> cases hp; all_goals rfl
    rw [this]

/-- The full claim fails: `Literal[1]` accepts `true` (and returns `1`). -/
theorem C24_bool_as_int (env : Env) (skip : Bool) :
    loads env skip (.literal [.int 1, .int 2]) (.bool true) = .ok (.int 1) ∧
      ¬ ∃ l ∈ [Lit.int 1, Lit.int 2], LitIs env l (.bool true) := by
  refine ⟨rfl, ?_⟩
  rintro ⟨l, hl, h⟩
  simp only [List.mem_cons, List.not_mem_nil, or_false] at hl
  rcases hl with rfl | rfl <;> simp [LitIs] at h

example : SameType [Lit.enum 0 0, Lit.enum 0 2] ∧ LitsKnown exEnv [Lit.enum 0 0, Lit.enum 0 2] ∧
    loads exEnv false (.literal [.enum 0 0, .enum 0 2]) (.str c!"a") = .ok (.enum 0 0) ∧
    loads exEnv false (.literal [.enum 0 0, .enum 0 2]) (.int 2) = .error .jsonType := by
  refine ⟨⟨.enum 0, by simp, by simp [Lit.ty]⟩, ?_, rfl, rfl⟩
  intro e m h
  simp at h
  rcases h with ⟨rfl, _⟩ | ⟨rfl, _⟩ <;> exact ⟨exE, rfl⟩

example : SameType [Lit.str c!"a", .str c!"b"] ∧ ¬ SameType [Lit.str c!"a", .int 1] ∧
    loads exEnv false (.literal [.str c!"a", .str c!"b"]) (.str c!"b") = .ok (.str c!"b") := by
  refine ⟨⟨.str, by simp, by simp [Lit.ty]⟩, ?_, rfl⟩
  rintro ⟨t, _, h⟩
  have h1 := h (.str c!"a") (by simp)
  have h2 := h (.int 1) (by simp)
  rw [← h2] at h1; cases h1

end Verif
