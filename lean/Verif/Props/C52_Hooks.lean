import Verif.Lemmas.Hooks
/-!
# C52: methods `to_json` and `from_json` decide alone
-/
namespace Verif

/-! ### Writing -/

/-- C52, writing: wherever an object of a class with `to_json` is written, inside other values or not, the data at its position
is what the method returns for it. -/
theorem C52_to_json (env : Env) (t : Ty) (v w : Val) (j : Json) (p : List JStep) (c : Nat) (cd : ClassDef) (f : Val → Res Json)
    (h : dumps env t v = .ok j) (hp : WrittenAt env t v p (.cls c) w) (hc : env.classes[c]? = some cd)
    (hf : cd.toJson = some f) : ∃ x, j.at p = some x ∧ f w = .ok x := by
  unfold dumps at h
  split at h
  · cases h
  obtain ⟨x, h1, h2⟩ := written_at hp h
  refine ⟨x, h1, ?_⟩
  rw [gen_eq] at h2
  simpa only [genD, genShape, genCls, hc, hf] using h2

/-- The same for members of enumerations with `to_json`. -/
theorem C52_to_json_enum (env : Env) (t : Ty) (v : Val) (j : Json) (p : List JStep) (e e' m : Nat) (ed : EnumDef)
    (f : Nat → Res Json) (h : dumps env t v = .ok j) (hp : WrittenAt env t v p (.enum e) (.enum e' m))
    (he : env.enums[e]? = some ed) (hf : ed.toJson = some f) : ∃ x, j.at p = some x ∧ f m = .ok x := by
  unfold dumps at h
  split at h
  · cases h
  obtain ⟨x, h1, h2⟩ := written_at hp h
  refine ⟨x, h1, ?_⟩
  rw [gen_eq] at h2
  simp only [genD, genShape, genEnum, he, hf] at h2
  split at h2
  · exact h2
  · cases h2

/-- C52, nothing else counts: fields of classes with `to_json` have no influence, neither on the result nor on errors, so that
for example their types need not be serializable. -/
theorem C52_to_json_alone (env env' : Env) (h : SameButHooked env env') (t : Ty) (v : Val) :
    dumps env' t v = dumps env t v ∧ objectToJson env' v = objectToJson env v := by
  have key : ∀ u, dumps env' u v = dumps env u v := by
    intro u
    unfold dumps
    rw [h.serCreate, h.gen]
  exact ⟨key t, key (typeOf v)⟩

/-! ### Reading -/

/-- C52, reading: wherever data is read as a class with `from_json` other than a named tuple, inside other data or not, the value
at its position is what the method returns for the data.  Missing: named tuples, for which it is false, see below. -/
theorem C52_from_json_partial (env : Env) (hk : env.Ok) (skip : Bool) (t : Ty) (j y : Json) (v : Val) (p : List JStep)
    (q : List VStep) (c : Nat) (cd : ClassDef) (f : Json → Res Val) (hj : j.Wf) (h : loads env skip t j = .ok v)
    (hp : ReadAt env skip t j p q (.cls c) y) (hc : env.classes[c]? = some cd) (hf : cd.fromJson = some f)
    (hn : ∀ typed, cd.kind ≠ .namedTuple typed) : ∃ w, j.at p = some y ∧ v.at q = some w ∧ f y = .ok w := by
  obtain ⟨w, h1, h2, h3⟩ := read_at hk hp hj h
  refine ⟨w, h1, h2, ?_⟩
  have hcu : cd.custom = true := by
    unfold ClassDef.custom
    split
    · rename_i b hb; exact absurd hb (hn b)
    · rw [hf]; rfl
  rw [loads_custom hk skip hc hcu hf] at h3
  exact h3

/-- Its errors are the errors of reading: a class with `from_json` refuses exactly what the method refuses. -/
theorem C52_from_json_error_partial (env : Env) (hk : env.Ok) (skip : Bool) (j : Json) (c : Nat) (cd : ClassDef)
    (f : Json → Res Val) (hc : env.classes[c]? = some cd) (hf : cd.fromJson = some f)
    (hn : ∀ typed, cd.kind ≠ .namedTuple typed) : loads env skip (.cls c) j = f j := by
  refine loads_custom hk skip hc ?_ hf j
  unfold ClassDef.custom
  split
  · rename_i b hb; exact absurd hb (hn b)
  · rw [hf]; rfl

/-! ### Cases -/

/-- A temperature, written as text with its unit. -/
def tempCls : ClassDef :=
  { module := c!"m", name := c!"Temp", kind := .dataclass false,
    -- the type of the field has no serializer of its own
    fields := [⟨c!"degrees", .int, false, .missing, false⟩, ⟨c!"other", .dict .other .int, false, .missing, false⟩],
    toJson := some fun v => match v with
      | .obj _ [(_, .int i), _] => .ok (.str (intStr i ++ c!" C"))
      | _ => .error .attribute,
    fromJson := some fun j => match j with
      | .str s => .ok (.obj 0 [(c!"text", .str s)])
      | _ => .error .valueError }

/-- A log of temperatures. -/
def logCls : ClassDef :=
  { module := c!"m", name := c!"Log", kind := .dataclass false,
    fields := [⟨c!"items", .list (.union [.none, .cls 0]), false, .missing, false⟩,
      ⟨c!"by_name", .dict .str (.cls 0), false, .missing, false⟩] }

/-- A named tuple with both methods. -/
def pairCls : ClassDef :=
  { module := c!"m", name := c!"Pair", kind := .namedTuple true, fields := [⟨c!"a", .int, false, .missing, false⟩],
    toJson := some fun _ => .ok (.str c!"pair"), fromJson := some fun _ => .ok (.obj 2 [(c!"a", .int 0)]) }

/-- The program of the examples. -/
def hookEnv : Env := ⟨[], [tempCls, logCls, pairCls], id⟩

/-- A temperature. -/
def temp (i : Int) : Val := .obj 0 [(c!"degrees", .int i), (c!"other", .dict [])]

/-- A log. -/
def logVal : Val := .obj 1 [(c!"items", .list [temp 1, temp (-20)]), (c!"by_name", .dict [(.str c!"x", temp 3)])]

/-- The log in JSON. -/
def logJson : Json :=
  .obj [(c!"items", .arr [.str c!"1 C", .str c!"-20 C"]), (c!"by_name", .obj [(c!"x", .str c!"3 C")])]

theorem log_written : dumps hookEnv (.cls 1) logVal = .ok logJson := by with_unfolding_all rfl

/-- Two positions at which temperatures are written. -/
theorem log_at : WrittenAt hookEnv (.cls 1) logVal [.key c!"items", .idx 1] (.cls 0) (temp (-20)) ∧
    WrittenAt hookEnv (.cls 1) logVal [.key c!"by_name", .key c!"x"] (.cls 0) (temp 3) := by
  constructor
  · refine WrittenAt.cls (cd := logCls) (f := logCls.fields[0]) (c' := 1) rfl rfl (by decide) (by simp) ?_ rfl (by simp) ?_
    · intro g hg
      simp only [logCls, List.mem_cons, List.not_mem_nil, or_false] at hg
      rcases hg with rfl | rfl
      · intro _; rfl
      · intro h; exact absurd h (by decide)
    · exact .list (x := temp (-20)) rfl (.union .here)
  · refine WrittenAt.cls (cd := logCls) (f := logCls.fields[1]) (c' := 1) rfl rfl (by decide) (by simp) ?_ rfl (by simp) ?_
    · intro g hg
      simp only [logCls, List.mem_cons, List.not_mem_nil, or_false] at hg
      rcases hg with rfl | rfl
      · intro h; exact absurd h (by decide)
      · intro _; rfl
    · refine .dict (kv := (.str c!"x", temp 3)) ⟨by simp, rfl, ?_⟩ .here
      intro kv' hkv' _
      simpa using hkv'

/-- The hypotheses of `C52_to_json` are met. -/
example : ∃ x, logJson.at [.key c!"items", .idx 1] = some x ∧ x = .str c!"-20 C" := by
  obtain ⟨x, h1, h2⟩ := C52_to_json hookEnv _ _ _ _ _ 0 tempCls _ log_written log_at.1 rfl rfl
  refine ⟨x, h1, ?_⟩
  have : (Except.ok (.str c!"-20 C") : Res Json) = .ok x := h2
  cases this
  rfl

/-- Temperatures without fields. -/
def bareTempCls : ClassDef := { tempCls with fields := [] }

/-- The program with temperatures without fields. -/
def bareEnv : Env := ⟨[], [bareTempCls, logCls, pairCls], id⟩

theorem bareEnv_same : SameButHooked hookEnv bareEnv where
  enums := rfl
  length := rfl
  classes := by
    intro c cd cd' h1 h2
    match c with
    | 0 => cases h1; cases h2; exact .inr ⟨_, rfl, rfl⟩
    | 1 => cases h1; cases h2; exact .inl rfl
    | 2 => cases h1; cases h2; exact .inl rfl
    | _ + 3 => cases h1

/-- The hypotheses of `C52_to_json_alone` are met by a class whose fields are taken away. -/
example : dumps bareEnv (.cls 1) logVal = .ok logJson :=
  (C52_to_json_alone hookEnv bareEnv bareEnv_same (.cls 1) logVal).1.trans log_written

theorem hookEnv_ok : hookEnv.Ok where
  keys := by decide
  enums := by intro ed h; cases h
  fields := by
    intro cd h
    simp only [hookEnv, List.mem_cons, List.not_mem_nil, or_false] at h
    rcases h with rfl | rfl | rfl <;> decide
  setOrder := fun l => .refl l

/-- The hypotheses of `C52_from_json_partial` are met. -/
example : ∃ v w, loads hookEnv false (.cls 1) logJson = .ok v ∧ v.at [.attr c!"by_name", .key (.str c!"x")] = some w ∧
    w = .obj 0 [(c!"text", .str c!"3 C")] := by
  have hl : ∃ v, loads hookEnv false (.cls 1) logJson = .ok v := ⟨_, by with_unfolding_all rfl⟩
  obtain ⟨v, hl⟩ := hl
  have hw : logJson.Wf := by
    refine .obj (by decide) fun kv hkv => ?_
    simp only [List.mem_cons, List.not_mem_nil, or_false] at hkv
    rcases hkv with rfl | rfl
    · refine .arr fun x hx => ?_
      simp only [List.mem_cons, List.not_mem_nil, or_false] at hx
      rcases hx with rfl | rfl <;> exact .str
    · refine .obj (by decide) fun kv hkv => ?_
      simp only [List.mem_cons, List.not_mem_nil, or_false] at hkv
      subst hkv
      exact .str
  have hp : ReadAt hookEnv false (.cls 1) logJson [.key c!"by_name", .key c!"x"] [.attr c!"by_name", .key (.str c!"x")] (.cls 0)
      (.str c!"3 C") := by
    refine ReadAt.cls (cd := logCls) (f := logCls.fields[1]) rfl rfl (by simp [ClassDef.hints, logCls]) rfl (by simp) ?_
    exact .dict (k := .str) (key := .str c!"x") rfl rfl rfl .here
  obtain ⟨w, _, h2, h3⟩ := C52_from_json_partial hookEnv hookEnv_ok false _ _ _ _ _ _ 0 tempCls _ hw hl hp rfl rfl
    (by intro b h; cases h)
  refine ⟨v, w, hl, h2, ?_⟩
  have : (Except.ok (.obj 0 [(c!"text", .str c!"3 C")]) : Res Val) = .ok w := h3
  cases this
  rfl

/-- C52 fails for named tuples: `to_json` is used but `from_json` is not, so that what is written cannot be read. -/
theorem C52_named_tuple_fails : ∃ f, pairCls.fromJson = some f ∧ f (.str c!"pair") = .ok (.obj 2 [(c!"a", .int 0)]) ∧
    dumps hookEnv (.cls 2) (.obj 2 [(c!"a", .int 0)]) = .ok (.str c!"pair") ∧
    loads hookEnv false (.cls 2) (.str c!"pair") = .error .jsonType :=
  ⟨_, rfl, rfl, by with_unfolding_all rfl, by with_unfolding_all rfl⟩

end Verif
