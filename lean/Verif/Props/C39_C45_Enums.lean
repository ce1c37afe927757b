import Verif.Lemmas.EnumBuild
import Verif.Lemmas.Catalog
/-!
# C39, C45: enumerations created from schemas and by extension
-/
namespace Verif

/-! ## C39 -/

/-- C39, full statement: from different strings an enumeration is made whose members have exactly these values, under
names that consist of word characters, are not reserved and are all different. -/
def C39_statement (uni : Char → Bool) (context : Str) (vs : List Str) : Prop :=
  ∃ ms, enumFromSchema uni context vs = .ok ms ∧ (∀ s, s ∈ ms.map (·.2) ↔ ∃ v ∈ vs, s = .str v) ∧
    (ms.map (·.1)).Nodup ∧ ∀ m ∈ ms, (∀ c ∈ m.1, isWordChar uni c = true) ∧ isDunder m.1 = false ∧ isSunder m.1 = false

/-- C39: every name has word characters only and is not reserved (`__dunder__` or `_sunder_`), whatever the value. -/
theorem C39_names (uni : Char → Bool) (v : Str) :
    (∀ c ∈ enumSafeName uni v, isWordChar uni c = true) ∧ isDunder (enumSafeName uni v) = false ∧
    isSunder (enumSafeName uni v) = false :=
  ⟨enumSafeName_chars uni v, (enumSafeName_legal uni v).1, (enumSafeName_legal uni v).2⟩

/-- C39: a value made of word characters that does not begin with an underscore is its own name. -/
theorem C39_identity (uni : Char → Bool) (v : Str) (h : ∀ c ∈ v, isWordChar uni c = true) (h' : v.take 1 ≠ c!"_") :
    enumSafeName uni v = v := by
  have : v.map (fun c => if isWordChar uni c then c else '_') = v := by
    conv => rhs; rw [← List.map_id v]
    apply List.map_congr_left
    intro c hc
    simp [h c hc]
  unfold enumSafeName
  simp only [this]
  rw [if_neg]
  intro hh
  rcases v with _ | ⟨a, v⟩
  · simp at hh
  · simp only [Bool.or_eq_true, Bool.and_eq_true, decide_eq_true_eq] at hh
    rcases hh with hh | hh
    · simp only [List.take_succ_cons, List.cons.injEq] at hh
      exact h' (by simp [hh.1])
    · exact h' hh.1

/-- The last of the strings that have its name. -/
def LastOfName (uni : Char → Bool) (vs : List Str) (v : Str) : Prop :=
  ∃ pre post, vs = pre ++ v :: post ∧ ∀ w ∈ post, enumSafeName uni w ≠ enumSafeName uni v

theorem lookupKey_lastOfName (uni : Char → Bool) (vs : List Str) (n : Str) (s : Scalar) :
    lookupKey n (updateAll [] (vs.map (fun v => (enumSafeName uni v, Scalar.str v)))) = some s ↔
      ∃ v, LastOfName uni vs v ∧ n = enumSafeName uni v ∧ s = .str v := by
  have hnil : lookupKey n (updateAll [] (vs.map (fun v => (enumSafeName uni v, Scalar.str v)))) =
      lookupKey n (vs.map (fun v => (enumSafeName uni v, Scalar.str v))).reverse := by
    rw [updateAll_last]
    cases lookupKey n (vs.map (fun v => (enumSafeName uni v, Scalar.str v))).reverse <;> rfl
  rw [hnil]
  clear hnil
  induction vs using snocRec with
  | nil =>
    simp only [List.map_nil, List.reverse_nil, lookupKey, LastOfName]
    constructor
    · intro h; cases h
    · rintro ⟨v, ⟨pre, post, h, -⟩, -⟩
      simp at h
  | snoc vs w ih =>
    simp only [List.map_append, List.map_cons, List.map_nil, List.reverse_append, List.reverse_cons, List.reverse_nil,
      List.nil_append, List.singleton_append, lookupKey]
    by_cases h : enumSafeName uni w = n
    · simp only [h, if_true, Option.some.injEq]
      constructor
      · rintro rfl
        exact ⟨w, ⟨vs, [], rfl, by simp⟩, h.symm, rfl⟩
      · rintro ⟨v, ⟨pre, post, h1, h2⟩, h3, rfl⟩
        rcases List.eq_nil_or_concat post with rfl | ⟨post', d, rfl⟩
        · obtain ⟨-, h5⟩ := List.append_inj' h1 rfl
          cases h5; rfl
        · have h1 : vs ++ [w] = (pre ++ v :: post') ++ [d] := by rw [h1]; simp
          obtain ⟨-, h5⟩ := List.append_inj' h1 rfl
          cases h5
          exact absurd (h.trans h3) (h2 w (by simp))
    · simp only [h, if_false, ih]
      constructor
      · rintro ⟨v, ⟨pre, post, rfl, h2⟩, rfl, rfl⟩
        refine ⟨v, ⟨pre, post ++ [w], by simp, ?_⟩, rfl, rfl⟩
        intro u hu
        rcases List.mem_append.1 hu with hu | hu
        · exact h2 u hu
        · simp only [List.mem_singleton] at hu
          subst hu
          exact h
      · rintro ⟨v, ⟨pre, post, h1, h2⟩, rfl, rfl⟩
        rcases List.eq_nil_or_concat post with rfl | ⟨post', d, rfl⟩
        · obtain ⟨-, h5⟩ := List.append_inj' h1 rfl
          cases h5
          exact absurd rfl h
        · have h1 : vs ++ [w] = (pre ++ v :: post') ++ [d] := by rw [h1]; simp
          obtain ⟨rfl, -⟩ := List.append_inj' h1 rfl
          exact ⟨v, ⟨pre, post', rfl, fun u hu => h2 u (by simp [hu])⟩, rfl, rfl⟩

/-- C39, values kept: if the names are not empty, not `mro` and not private to the enumeration (`_Name__x`), the enumeration
is created and its members are the last value of each name, under this name. -/
theorem C39_exact (uni : Char → Bool) (context : Str) (vs : List Str)
    (hl : ∀ v ∈ vs, enumSafeName uni v ≠ [] ∧ enumSafeName uni v ≠ c!"mro" ∧
      isPrivate context (enumSafeName uni v) = false) :
    ∃ ms, enumFromSchema uni context vs = .ok ms ∧ (ms.map (·.1)).Nodup ∧
      ∀ n s, (n, s) ∈ ms ↔ ∃ v, LastOfName uni vs v ∧ n = enumSafeName uni v ∧ s = .str v := by
  have hnd := updateAll_nodup ([] : List (Str × Scalar)) (vs.map (fun v => (enumSafeName uni v, Scalar.str v))) (by simp)
  have hmem : ∀ n s, (n, s) ∈ updateAll [] (vs.map (fun v => (enumSafeName uni v, Scalar.str v))) ↔
      ∃ v, LastOfName uni vs v ∧ n = enumSafeName uni v ∧ s = .str v := by
    intro n s
    rw [mem_iff_lookupKey hnd, lookupKey_lastOfName]
  have hin : ∀ v, LastOfName uni vs v → v ∈ vs := by
    rintro v ⟨pre, post, rfl, -⟩; simp
  refine ⟨_, ?_, hnd, hmem⟩
  unfold enumFromSchema
  have hl1 : ∀ m ∈ updateAll [] (vs.map (fun v => (enumSafeName uni v, Scalar.str v))),
      isMember context m.1 = .ok true := by
    rintro ⟨n, s⟩ hm
    obtain ⟨v, hv, rfl, -⟩ := (hmem n s).1 hm
    exact isMember_of_public (enumSafeName_legal uni v).1 (enumSafeName_legal uni v).2 (hl v (hin v hv)).2.2
  have hl2 : ∀ m ∈ updateAll [] (vs.map (fun v => (enumSafeName uni v, Scalar.str v))), m.1 ≠ c!"mro" ∧ m.1 ≠ [] := by
    rintro ⟨n, s⟩ hm
    obtain ⟨v, hv, rfl, -⟩ := (hmem n s).1 hm
    exact ⟨(hl v (hin v hv)).2.1, (hl v (hin v hv)).1⟩
  rcases pyEnumUnique_legal hl1 hl2 with ⟨-, h⟩ | ⟨h, -⟩
  · exact h
  · refine absurd ?_ h
    have hnd' := List.pairwise_map.1 hnd
    refine List.Pairwise.imp_of_mem ?_ hnd'
    rintro ⟨n, s⟩ ⟨n', s'⟩ h1 h2 hne
    obtain ⟨v, -, rfl, rfl⟩ := (hmem n s).1 h1
    obtain ⟨v', -, rfl, rfl⟩ := (hmem n' s').1 h2
    simp only [Scalar.pyEq, decide_eq_false_iff_not]
    rintro rfl
    exact hne rfl

/-- C39 in part: the statement holds, with members in the given order, if the names are different from each other, not
empty, not `mro`, and not private to the enumeration (`_Name__x`).  Missing: these four cases, see `C39_violated`. -/
theorem C39_partial (uni : Char → Bool) (context : Str) (vs : List Str) (hvs : vs.Nodup)
    (hn : (vs.map (enumSafeName uni)).Nodup)
    (hl : ∀ v ∈ vs, enumSafeName uni v ≠ [] ∧ enumSafeName uni v ≠ c!"mro" ∧
      isPrivate context (enumSafeName uni v) = false) :
    C39_statement uni context vs ∧
    enumFromSchema uni context vs = .ok (vs.map (fun v => (enumSafeName uni v, Scalar.str v))) := by
  have hkeys : (vs.map (fun v => (enumSafeName uni v, Scalar.str v))).map (·.1) = vs.map (enumSafeName uni) := by simp
  have hok : enumFromSchema uni context vs = .ok (vs.map (fun v => (enumSafeName uni v, Scalar.str v))) := by
    unfold enumFromSchema
    rw [updateAll_nil _ (by rw [hkeys]; exact hn)]
    have hl1 : ∀ m ∈ vs.map (fun v => (enumSafeName uni v, Scalar.str v)), isMember context m.1 = .ok true := by
      intro m hm
      obtain ⟨v, hv, rfl⟩ := List.mem_map.1 hm
      exact isMember_of_public (enumSafeName_legal uni v).1 (enumSafeName_legal uni v).2 (hl v hv).2.2
    have hl2 : ∀ m ∈ vs.map (fun v => (enumSafeName uni v, Scalar.str v)), m.1 ≠ c!"mro" ∧ m.1 ≠ [] := by
      intro m hm
      obtain ⟨v, hv, rfl⟩ := List.mem_map.1 hm
      exact ⟨(hl v hv).2.1, (hl v hv).1⟩
    rcases pyEnumUnique_legal hl1 hl2 with ⟨-, h⟩ | ⟨h, -⟩
    · exact h
    · refine absurd ?_ h
      rw [List.pairwise_map]
      exact hvs.imp (fun {a b} hab => by simp [Scalar.pyEq, hab])
  refine ⟨⟨_, hok, ?_, by rw [hkeys]; exact hn, ?_⟩, hok⟩
  · intro s
    simp [eq_comm]
  · intro m hm
    obtain ⟨v, hv, rfl⟩ := List.mem_map.1 hm
    exact C39_names uni v

/-- C39 is violated in general: values with the same name overwrite each other, the empty string and `mro` raise
`ValueError`, and a name that is private to the enumeration is dropped. -/
theorem C39_violated (uni : Char → Bool) :
    enumFromSchema uni c!"Color" [c!"a b", c!"a-b"] = .ok [(c!"a_b", .str c!"a-b")] ∧
    enumFromSchema uni c!"Color" [c!"__x", c!"v__x"] = .ok [(c!"v__x", .str c!"v__x")] ∧
    enumFromSchema uni c!"Color" [[]] = .error .valueError ∧
    enumFromSchema uni c!"Color" [c!"mro"] = .error .valueError ∧
    enumFromSchema uni c!"Color" [c!"_Color__x"] = .ok [] ∧
    ¬ C39_statement uni c!"Color" [c!"a b", c!"a-b"] := by
  refine ⟨rfl, rfl, rfl, rfl, rfl, ?_⟩
  rintro ⟨ms, h1, h2, -⟩
  have : ms = [(c!"a_b", .str c!"a-b")] := by
    have h : enumFromSchema uni c!"Color" [c!"a b", c!"a-b"] = .ok [(c!"a_b", .str c!"a-b")] := rfl
    rw [h] at h1
    cases h1; rfl
  subst this
  have := (h2 (.str c!"a b")).2 ⟨c!"a b", by simp, rfl⟩
  simp at this

/-! ## C45 -/

/-- Name and value are in the combination of two enumerations: the extending one, and the source where it is not
overridden. -/
def Combined (source extend : List (Str × Scalar)) (n : Str) (v : Scalar) : Prop :=
  (n, v) ∈ extend ∨ ((n, v) ∈ source ∧ n ∉ extend.map (·.1))

/-- Two members of the combination have equal values. -/
def Clash (source extend : List (Str × Scalar)) : Prop :=
  ∃ n v n' v', Combined source extend n v ∧ Combined source extend n' v' ∧ n ≠ n' ∧ v.pyEq v' = true

/-- C45, full statement, for enumerations with different names of members. -/
def C45_statement (name : Str) (source extend : List (Str × Scalar)) : Prop :=
  (∀ ms, extendEnum name source extend = .ok ms → (ms.map (·.1)).Nodup ∧
    ∀ n v, (n, v) ∈ ms ↔ Combined source extend n v) ∧
  (∀ e, extendEnum name source extend = .error e ↔ e = .valueError ∧ Clash source extend)

/-- The name can be the name of a member in a class of the given name: it is none of the reserved forms. -/
def LegalName (cls n : Str) : Prop :=
  isDunder n = false ∧ isSunder n = false ∧ isPrivate cls n = false ∧ n ≠ c!"mro" ∧ n ≠ []

/-- C45 in part: the statement holds, and the members of the source come first, if all names are legal for members of a
class with the name of the extending class.  Missing: members of the source that are private to this name, see
`C45_violated`. -/
theorem C45_partial (name : Str) (source extend : List (Str × Scalar)) (hs : (source.map (·.1)).Nodup)
    (he : (extend.map (·.1)).Nodup) (hl : ∀ n ∈ source.map (·.1) ++ extend.map (·.1), LegalName name n) :
    C45_statement name source extend ∧
    ∀ ms, extendEnum name source extend = .ok ms →
      ms.map (·.1) = source.map (·.1) ++ (extend.map (·.1)).filter (fun n => n ∉ source.map (·.1)) := by
  have hkeys : (updateAll (updateAll [] source) extend).map (·.1) =
      source.map (·.1) ++ (extend.map (·.1)).filter (fun n => n ∉ source.map (·.1)) := by
    rw [updateAll_nil source hs, updateAll_keys _ _ he]
    congr 1
    exact List.filter_congr (fun x _ => by simp)
  have hnd := updateAll_nodup (updateAll [] source) extend (updateAll_nodup [] source (by simp))
  have hmem : ∀ n v, (n, v) ∈ updateAll (updateAll [] source) extend ↔ Combined source extend n v := by
    intro n v
    rw [mem_iff_lookupKey hnd, updateAll_lookup _ _ he, updateAll_nil source hs]
    unfold Combined
    rw [mem_iff_lookupKey he, mem_iff_lookupKey hs, ← lookupKey_none_iff']
    cases lookupKey n extend <;> simp
  have hpair : ¬ (updateAll (updateAll [] source) extend).Pairwise (fun a b => a.2.pyEq b.2 = false) ↔
      Clash source extend := by
    constructor
    · intro h
      refine Classical.byContradiction fun hc => h ?_
      refine List.Pairwise.imp_of_mem ?_ (List.pairwise_map.1 hnd)
      rintro ⟨n, v⟩ ⟨n', v'⟩ h1 h2 hne
      cases hb : v.pyEq v' with
      | false => rfl
      | true => exact absurd ⟨n, v, n', v', (hmem n v).1 h1, (hmem n' v').1 h2, hne, hb⟩ hc
    · rintro ⟨n, v, n', v', h1, h2, hne, hb⟩ hp
      have := pairwise_of_ne (R := fun a b : Str × Scalar => a.2.pyEq b.2 = false)
        (fun a b h => by rw [Scalar.pyEq_symm]; exact h) hp ((hmem n v).2 h1) ((hmem n' v').2 h2)
        (fun e => hne (congrArg Prod.fst e))
      simp only at this
      rw [hb] at this
      cases this
  have hlm : ∀ m ∈ updateAll (updateAll [] source) extend, LegalName name m.1 := by
    intro m hm
    apply hl
    have : m.1 ∈ (updateAll (updateAll [] source) extend).map (·.1) := List.mem_map.2 ⟨m, hm, rfl⟩
    rw [hkeys] at this
    rcases List.mem_append.1 this with h | h
    · exact List.mem_append.2 (.inl h)
    · exact List.mem_append.2 (.inr (List.mem_filter.1 h).1)
  rcases pyEnumUnique_legal (cls := name) (vs := updateAll (updateAll [] source) extend)
    (fun m hm => isMember_of_public (hlm m hm).1 (hlm m hm).2.1 (hlm m hm).2.2.1)
    (fun m hm => (hlm m hm).2.2.2) with ⟨hp, h⟩ | ⟨hp, h⟩
  · have hno : ¬ Clash source extend := fun hc => hpair.2 hc hp
    refine ⟨⟨fun ms hms => ?_, fun e => ?_⟩, fun ms hms => ?_⟩
    · rw [extendEnum, h] at hms
      cases hms
      exact ⟨hnd, hmem⟩
    · rw [extendEnum, h]
      simp [hno]
    · rw [extendEnum, h] at hms
      cases hms
      exact hkeys
  · have hc := hpair.1 hp
    refine ⟨⟨fun ms hms => ?_, fun e => ?_⟩, fun ms hms => ?_⟩
    · rw [extendEnum, h] at hms; cases hms
    · rw [extendEnum, h]
      simp [hc, eq_comm]
    · rw [extendEnum, h] at hms; cases hms

/-- C45 is violated in general: a member of the source whose name is private to the name of the extending class is
lost. -/
theorem C45_violated : extendEnum c!"More" [(c!"_More__x", .int 1), (c!"a", .int 2)] [(c!"b", .int 3)] =
      .ok [(c!"a", .int 2), (c!"b", .int 3)] ∧
    ¬ C45_statement c!"More" [(c!"_More__x", .int 1), (c!"a", .int 2)] [(c!"b", .int 3)] := by
  refine ⟨rfl, fun h => ?_⟩
  have := ((h.1 _ rfl).2 c!"_More__x" (.int 1)).2 (.inr ⟨by simp, by simp⟩)
  simp at this

/-! ### Examples -/

example : enumFromSchema (fun _ => true) c!"Color" [c!"red", c!"dark blue", c!"_x_", c!"1"] =
    .ok [(c!"red", .str c!"red"), (c!"dark_blue", .str c!"dark blue"), (c!"v_x_", .str c!"_x_"), (c!"1", .str c!"1")] := rfl
example : C39_statement (fun _ => true) c!"Color" [c!"red", c!"dark blue", c!"_x_"] :=
  (C39_partial _ _ _ (by decide) (by decide) (by decide)).1
example : extendEnum c!"B" [(c!"x", .int 1), (c!"y", .int 2)] [(c!"y", .int 3), (c!"z", .int 2)] =
    .ok [(c!"x", .int 1), (c!"y", .int 3), (c!"z", .int 2)] := rfl
example : extendEnum c!"B" [(c!"x", .int 1)] [(c!"z", .bool true)] = .error .valueError := rfl
example : ∀ n ∈ [(c!"x", Scalar.int 1), (c!"y", .int 2)].map (·.1) ++ [(c!"y", Scalar.int 3)].map (·.1),
    LegalName c!"B" n := by
  unfold LegalName; decide

end Verif
