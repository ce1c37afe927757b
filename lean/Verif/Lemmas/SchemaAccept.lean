import Verif.Lemmas.SchemaReject
/-!
# Values that schemas admit
-/
namespace Verif

variable {vc : ValidatorCfg} {cfg : SchemaCfg} {env : Env} {cat : SchemaCatalog} {root : Json} {names : Str → Prop}

theorem Conforms.hasTy {v : Val} {t : Ty} (h : Conforms vc cfg env v t) : HasTy env v t := by
  induction h with
  | leaf _ h _ => exact h
  | list _ ih => exact .list ih
  | set h _ _ _ => exact h
  | tuple h _ ih => exact .tuple h ih
  | dict h _ _ => exact h
  | union h _ ih => exact .union h ih
  | annotated _ _ ih => exact .annotated ih
  | literal h => exact h
  | enum h => exact h
  | cls _ h _ _ => exact h

/-! ### Simple types -/

theorem kwOk_format {s : Sch} {f x : Str} (h : vc.format f x = true) : KwOk vc root s c!"format" (js f) (.str x) :=
  ⟨0, congrArg some h⟩

theorem kwOk_formatOther {s : Sch} {f : Str} {v : Json} (h : ∀ x, v ≠ .str x) : KwOk vc root s c!"format" (js f) v := by
  refine ⟨0, ?_⟩
  cases v with
  | str x => exact absurd rfl (h x)
  | _ => rfl

theorem Conforms.format {v : Val} {t : Ty} (h : Conforms vc cfg env v t) {s : Sch} (hs : simpleSchema t = some s) :
    FormatFits vc v := by
  cases h with
  | leaf _ _ h => exact h
  | _ => cases hs

theorem simple_valid {t : Ty} {s : Sch} (hs : simpleSchema t = some s) {v : Val} (hv : HasTy env v t)
    (hf : FormatFits vc v) {j : Json} (h : objectToJson env v = .ok j) : Validates vc root (.obj s) j := by
  rw [validates_obj_iff]
  cases hv <;> simp only [simpleSchema, Option.some.injEq, reduceCtorEq] at hs <;> subst hs <;>
    simp only [List.mem_cons, List.not_mem_nil, or_false, forall_eq_or_imp, forall_eq, kwOk_type]
  case none | bool | int | float | str => cases h; rfl
  case bytes => cases h; exact ⟨rfl, 0, rfl⟩
  case datetime d hd =>
    have h : genShape env (.datetime d) .none .datetime = .ok j := h
    simp only [genShape] at h
    cases hx : dtSerialize d with
    | error e => rw [hx] at h; cases h
    | ok x => rw [hx] at h; cases h; exact ⟨rfl, kwOk_format (hf x hx)⟩
  all_goals (cases h; exact ⟨rfl, kwOk_format hf⟩)

theorem lastSome_mem {f : α → Option β} : ∀ {l : List α} {b : β}, lastSome f l = some b → ∃ a ∈ l, f a = some b := by
  intro l
  induction l with
  | nil => intro b h; cases h
  | cons x xs ih =>
    intro b h
    simp only [lastSome] at h
    split at h
    · rename_i b' hb
      cases h
      obtain ⟨a, ha, hf⟩ := ih hb
      exact ⟨a, by simp [ha], hf⟩
    · exact ⟨x, by simp, h⟩

theorem range_mem {ms : List Meta} {lo hi : Int} (h : lastSome Meta.range? ms = some (lo, hi)) : Meta.intRange lo hi ∈ ms := by
  obtain ⟨m, hm, hf⟩ := lastSome_mem h
  cases m <;> simp only [Meta.range?, Option.some.injEq, Prod.mk.injEq, reduceCtorEq] at hf
  obtain ⟨rfl, rfl⟩ := hf; exact hm

theorem precision_mem {ms : List Meta} {s d : Nat} (h : lastSome Meta.precision? ms = some (s, d)) : Meta.precision s d ∈ ms := by
  obtain ⟨m, hm, hf⟩ := lastSome_mem h
  cases m <;> simp only [Meta.precision?, Option.some.injEq, Prod.mk.injEq, reduceCtorEq] at hf
  obtain ⟨rfl, rfl⟩ := hf; exact hm

theorem minLength_mem {ms : List Meta} {n : Nat} (h : lastSome Meta.minLength? ms = some n) : Meta.minLength n ∈ ms := by
  obtain ⟨m, hm, hf⟩ := lastSome_mem h
  cases m <;> simp only [Meta.minLength?, Option.some.injEq, reduceCtorEq] at hf
  subst hf; exact hm

theorem maxLength_mem {ms : List Meta} {n : Nat} (h : lastSome Meta.maxLength? ms = some n) : Meta.maxLength n ∈ ms := by
  obtain ⟨m, hm, hf⟩ := lastSome_mem h
  cases m <;> simp only [Meta.maxLength?, Option.some.injEq, reduceCtorEq] at hf
  subst hf; exact hm

theorem num_of_frac {f : PyFloat} {a : Int} {b : Nat} (h : f.frac = some (a, b)) : Json.num (.float f) = some (.inl (a, b)) := by
  cases f <;> simp_all [Json.num, PyFloat.frac]

theorem powTen_sub {s d : Nat} (h : d ≤ s) : powTen cfg ((s : Int) - d) = .int (10 ^ (s - d)) := by
  unfold powTen
  rw [if_pos (by omega)]
  congr 2
  omega

/-- The bounds and lengths of annotations, for what is written. -/
theorem meta_demand {t : Ty} {base : Sch} (hs : simpleSchema t = some base) {v : Val} (hv : HasTy env v t) {ms : List Meta}
    (hm : ∀ m ∈ ms, MetaFits vc cfg v m) {j : Json} (h : objectToJson env v = .ok j) : MetaDemand vc cfg ms j := by
  have hint : ∀ i, v = .int i → MetaDemand vc cfg ms (.int i) := by
    rintro i rfl
    refine ⟨?_, ?_, by simp, by simp⟩
    · intro lo hi hl _
      obtain ⟨h1, _⟩ := hm _ (range_mem hl)
      obtain ⟨h1, h2⟩ := h1 i rfl
      simp [Json.lt, Json.num]
      omega
    · intro s d hl _
      obtain ⟨h1, _⟩ := hm _ (precision_mem hl)
      obtain ⟨h1, h2, h3, h4⟩ := h1 i rfl
      rw [powTen_sub h1]
      refine ⟨h2, ?_, ?_⟩ <;> simp [Json.le, Json.num, negNum] <;> omega
  have hfloat : ∀ f, v = .float f → MetaDemand vc cfg ms (.float f) := by
    rintro f rfl
    refine ⟨?_, ?_, by simp, by simp⟩
    · intro lo hi hl _
      obtain ⟨_, h1⟩ := hm _ (range_mem hl)
      obtain ⟨a, b, h1, h2, h3⟩ := h1 f rfl
      have h0 : ∀ i : Int, Json.num (.int i) = some (.inl (i, 1)) := fun _ => rfl
      simp only [Json.lt, num_of_frac h1, h0]
      simp
      omega
    · intro s d hl _
      obtain ⟨_, h1⟩ := hm _ (precision_mem hl)
      obtain ⟨h1, h2, a, b, h3, h4, h5⟩ := h1 f rfl
      rw [powTen_sub h1]
      have h0 : ∀ i : Int, Json.num (.int i) = some (.inl (i, 1)) := fun _ => rfl
      refine ⟨h2, ?_, ?_⟩ <;> simp only [Json.le, negNum, num_of_frac h3, h0] <;> simp <;> omega
  have htext : ∀ x, j = .str x → (v = .str x ∨ (∃ b, v = .bytes b ∧ x = b64Encode b) ∨ v.isOtherText = true) →
      MetaDemand vc cfg ms j := by
    rintro x rfl hx
    refine ⟨fun _ _ _ h => h.elim, fun _ _ _ h => h.elim, ?_, ?_⟩
    · intro n y hl he
      cases he
      obtain ⟨h1, h2, h3⟩ := hm _ (minLength_mem hl)
      rcases hx with rfl | ⟨b, rfl, rfl⟩ | hx
      · exact h1 _ rfl
      · exact h2 _ rfl
      · rw [hx] at h3; cases h3
    · intro n y hl he
      cases he
      obtain ⟨h1, h2, h3⟩ := hm _ (maxLength_mem hl)
      rcases hx with rfl | ⟨b, rfl, rfl⟩ | hx
      · exact h1 _ rfl
      · exact h2 _ rfl
      · rw [hx] at h3; cases h3
  cases hv <;> simp only [simpleSchema, Option.some.injEq, reduceCtorEq] at hs
  case none | bool =>
    cases h
    exact ⟨fun _ _ _ h => h.elim, fun _ _ _ h => h.elim, fun _ _ _ h => (nomatch h), fun _ _ _ h => (nomatch h)⟩
  case int i => cases h; exact hint i rfl
  case float f => cases h; exact hfloat f rfl
  case str s => cases h; exact htext s rfl (Or.inl rfl)
  case bytes b => cases h; exact htext _ rfl (Or.inr (Or.inl ⟨b, rfl, rfl⟩))
  case datetime d hd =>
    have h : genShape env (.datetime d) .none .datetime = .ok j := h
    simp only [genShape] at h
    cases hx : dtSerialize d with
    | error e => rw [hx] at h; cases h
    | ok x => rw [hx] at h; cases h; exact htext _ rfl (Or.inr (Or.inr rfl))
  case date | time | timedelta | uuid => cases h; exact htext _ rfl (Or.inr (Or.inr rfl))

/-! ### Sets -/

theorem same_pyEq {a b : Scalar} (h : Json.same a.toJson b.toJson = true) : a.pyEq b = true := by
  cases a <;> cases b <;> simp_all [Json.same, Scalar.toJson, Scalar.pyEq, Scalar.asInt]

theorem same_refl {a : Scalar} (h : a ≠ .float .nan) : Json.same a.toJson a.toJson = true := by
  cases a with
  | float f => cases f <;> simp_all [Json.same, Scalar.toJson, floatEq]
  | _ => simp [Json.same, Scalar.toJson]

theorem same_str {x y : Str} (h : Json.same (.str x) (.str y) = true) : x = y := by
  simpa [Json.same] using h

theorem written_text {t : Ty} (ht : t ∈ [Ty.bytes, .datetime, .date, .time, .timedelta, .uuid]) {v : Val} (hv : HasTy env v t)
    {j : Json} (h : objectToJson env v = .ok j) : ∃ x, j = .str x := by
  have hk := written_kind hv h
  have : writeKinds env t = [.str] := by
    simp only [List.mem_cons, List.not_mem_nil, or_false] at ht
    rcases ht with rfl | rfl | rfl | rfl | rfl | rfl <;> rfl
  rw [this, List.mem_singleton] at hk
  cases j <;> simp [Json.kind] at hk
  exact ⟨_, rfl⟩

theorem valEq_text {t : Ty} (ht : t ∈ [Ty.bytes, .datetime, .date, .time, .timedelta, .uuid]) {v : Val} (hv : HasTy env v t) :
    valEq env v v = true := by
  simp only [List.mem_cons, List.not_mem_nil, or_false] at ht
  rcases ht with rfl | rfl | rfl | rfl | rfl | rfl <;> cases hv <;> simp only [valEq, decide_true]
  · rename_i d _; simp only [dateTimeEq]; cases d.time.off <;> simp
  · rename_i d _; simp only [timeEq]; cases d.off <;> simp

/-- Different members of a set are written differently. -/
theorem set_distinct (hp : ProgramChecks cfg env cat) {t : Ty} (ht : setItem t = true) {a b : Val} (ha : HasTy env a t)
    (hb : HasTy env b t) (hea : Encodable a) (heb : Encodable b) {ja jb : Json} (hja : objectToJson env a = .ok ja)
    (hjb : objectToJson env b = .ok jb) (h : Json.same ja jb = true) : valEq env b a = true := by
  have hun : ∀ t, setItem t = true → setItem t.unann = true ∧ ∀ t' ms, t.unann ≠ .annotated t' ms := by
    intro t
    generalize hsz : sizeOf t = sz
    induction sz using Nat.strongRecOn generalizing t with | _ sz ih =>
    intro h
    cases t with
    | annotated t ms => exact ih (sizeOf t) (by rw [← hsz]; simp; omega) t rfl h
    | _ => exact ⟨h, by simp [Ty.unann]⟩
  obtain ⟨ht, hna⟩ := hun t ht
  have ha := ha.unann
  have hb := hb.unann
  revert ht ha hb hna
  generalize t.unann = t
  intro ht hna ha hb
  have htext : t ∈ [Ty.bytes, .datetime, .date, .time, .timedelta, .uuid] → valEq env b a = true := by
    intro hm
    obtain ⟨x, rfl⟩ := written_text hm ha hja
    obtain ⟨y, rfl⟩ := written_text hm hb hjb
    cases same_str h
    have hsc : t ∈ scalarTys := by
      simp only [List.mem_cons, List.not_mem_nil, or_false] at hm
      rcases hm with rfl | rfl | rfl | rfl | rfl | rfl <;> simp [scalarTys]
    obtain ⟨_, h1, h2, _⟩ := scalar_roundtrip env false hsc ha hea
    obtain ⟨_, h3, h4, _⟩ := scalar_roundtrip env false hsc hb heb
    rw [hja] at h1; cases h1
    rw [hjb] at h3; cases h3
    rw [h2] at h4; cases h4
    exact valEq_text hm ha
  cases ha <;> simp only [setItem, reduceCtorEq, Bool.false_eq_true] at ht
  case bool => cases hb; cases hja; cases hjb; simp_all [Json.same, Scalar.toJson, valEq, Val.scalar, Scalar.pyEq, Scalar.asInt]
  case int => cases hb; cases hja; cases hjb; simp_all [Json.same, Scalar.toJson, valEq, Val.scalar, Scalar.pyEq, Scalar.asInt]
  case str => cases hb; cases hja; cases hjb; simp_all [Json.same, Scalar.toJson, valEq, Val.scalar, Scalar.pyEq, Scalar.asInt]
  case float =>
    cases hb; cases hja; cases hjb
    simp only [Json.same, Scalar.toJson, valEq, Val.scalar, Scalar.pyEq] at h ⊢
    rw [floatEq_symm]; exact h
  case enum e m ed h1 h2 =>
    cases hb with
    | enum h3 h4 =>
      obtain ⟨p, h5, rfl⟩ := enum_written hp h1 hja
      obtain ⟨q, h6, rfl⟩ := enum_written hp h1 hjb
      have heq := same_pyEq h
      have hok := hp.ok.enums ed (List.mem_of_getElem? h1)
      rename_i m' _
      have : m' = m := by
        rcases Nat.lt_trichotomy m m' with hlt | he | hlt
        · have := List.pairwise_iff_getElem.1 hok m m' h2 (by
            rw [List.getElem?_eq_some_iff] at h6; exact h6.1) hlt
          rw [List.getElem?_eq_some_iff] at h5 h6
          rw [h5.2, h6.2, heq] at this; cases this
        · exact he.symm
        · have := List.pairwise_iff_getElem.1 hok m' m (by
            rw [List.getElem?_eq_some_iff] at h6; exact h6.1) h2 hlt
          rw [List.getElem?_eq_some_iff] at h5 h6
          rw [h5.2, h6.2, Scalar.pyEq_symm, heq] at this; cases this
      subst this
      simp [valEq]
  case annotated => exact absurd rfl (hna _ _)
  all_goals exact htext (by simp)

theorem allDistinct_of {R : α → Json → Prop} {P : α → α → Prop} {as : List α} {js : List Json} (h : All2 R as js)
    (hp : as.Pairwise P) (hd : ∀ a ∈ as, ∀ b ∈ as, ∀ ja jb, R a ja → R b jb → P a b → Json.same ja jb = false) :
    allDistinct js = true := by
  induction h with
  | nil => rfl
  | @cons a ja as js h1 h2 ih =>
    rw [List.pairwise_cons] at hp
    simp only [allDistinct, Bool.and_eq_true, List.all_eq_true, Bool.not_eq_true']
    refine ⟨?_, ih hp.2 (fun a ha b hb => hd a (by simp [ha]) b (by simp [hb]))⟩
    intro jb hjb
    obtain ⟨b, hb, hR⟩ := h2.mem_right hjb
    exact hd _ (by simp) b (by simp [hb]) _ _ h1 hR (hp.1 b hb)

/-! ### Dictionaries -/

theorem genPairs_keys {key : Key → Res Str} {t : Ty} : ∀ (fs : List (Key × (Ty → Res Json))) (acc : List (Str × Json)) (j : Json),
    genPairs key t acc fs = .ok j →
      ∃ ps, j = .obj ps ∧ ∀ p ∈ ps, p ∈ acc ∨ ∃ f ∈ fs, key f.1 = .ok p.1 ∧ f.2 t = .ok p.2 := by
  intro fs
  induction fs with
  | nil => intro acc j h; simp only [genPairs] at h; cases h; exact ⟨acc, rfl, fun p hp => .inl hp⟩
  | cons f fs ih =>
    intro acc j h
    obtain ⟨k, f⟩ := f
    simp only [genPairs] at h
    split at h
    · cases h
    · rename_i s hs
      split at h
      · cases h
      · rename_i x hx
        obtain ⟨ps, rfl, hps⟩ := ih _ j h
        refine ⟨ps, rfl, fun p hp => ?_⟩
        rcases hps p hp with h1 | ⟨g, hg, h1⟩
        · rcases upsert_mem h1 with rfl | h1
          · exact .inr ⟨_, List.mem_cons_self, hs, hx⟩
          · exact .inl h1
        · exact .inr ⟨g, by simp [hg], h1⟩

/-- What is written for a dictionary; the names are the values of the keys, if these are members of an enumeration. -/
theorem dict_names {kvs : List (Key × Val)} {k : KeyTy} {t : Ty} (hv : HasTy env (.dict kvs) (.dict k t)) {j : Json}
    (h : objectToJson env (.dict kvs) = .ok j) :
    ∃ ps, j = .obj ps ∧ ∀ p ∈ ps, (∃ kv ∈ kvs, objectToJson env kv.2 = .ok p.2) ∧
      ∀ e, k = .enum e → ∃ ed, env.enums[e]? = some ed ∧ ∃ m ∈ ed.members, m.2 = .str p.1 := by
  rw [dyn_dict] at h
  obtain ⟨ps, rfl, hps⟩ := genPairs_keys _ _ _ h
  refine ⟨ps, rfl, fun p hp => ?_⟩
  rcases hps p hp with h1 | ⟨f, hf, h1, h2⟩
  · cases h1
  · obtain ⟨kv, hkv, rfl⟩ := List.mem_map.1 hf
    refine ⟨⟨kv, hkv, by rw [← gen_dyn]; exact h2⟩, ?_⟩
    rintro e rfl
    cases hv with
    | dict hnd hk _ =>
      have hkey : ∀ kv ∈ kvs, ∃ m, kv.1 = .enum e m := by
        intro kv hkv
        have := hk kv hkv
        cases hk1 : kv.1 with
        | enum e' m => rw [hk1] at this; obtain ⟨rfl, _⟩ := this; exact ⟨m, rfl⟩
        | str s => rw [hk1] at this; exact this.elim
        | int i => rw [hk1] at this; exact this.elim
      have hu : untypedKey env (kvs.map fun kv => (kv.1, gen env kv.2)) = keyValue env := by
        cases kvs with
        | nil => cases hkv
        | cons kv0 r =>
          obtain ⟨m0, hm0⟩ := hkey kv0 (by simp)
          simp only [List.map_cons, hm0, untypedKey]
      rw [hu] at h1
      obtain ⟨m, hm⟩ := hkey kv hkv
      simp only [hm, keyValue, enumValue] at h1
      cases he : env.enums[e]? with
      | none => rw [he] at h1; cases h1
      | some ed =>
        rw [he] at h1
        simp only at h1
        cases hmm : ed.members[m]? with
        | none => rw [hmm] at h1; cases h1
        | some q =>
          rw [hmm] at h1
          simp only [Scalar.jsonKey] at h1
          split at h1
          · cases h1; exact ⟨ed, rfl, q, List.mem_of_getElem? hmm, by assumption⟩
          · cases h1

theorem dict_valid (hfit : WordsMatch vc) {k : KeyTy} {s s' : Sch} (h : dictSchema env k s = .ok s') {ps : List (Str × Json)}
    (hw : ∀ e ed, k = .enum e → env.enums[e]? = some ed → enumExpansionLimit < ed.members.length →
      ∀ m ∈ ed.members, ∃ s, m.2 = .str s ∧ PlainWord s)
    (hk : ∀ p ∈ ps, ∀ e, k = .enum e → ∃ ed, env.enums[e]? = some ed ∧ ∃ m ∈ ed.members, m.2 = .str p.1)
    (hv : ∀ p ∈ ps, Validates vc root (.obj s) p.2) : Validates vc root (.obj s') (.obj ps) := by
  unfold dictSchema at h
  split at h
  · rename_i e
    split at h
    · cases h
    · rename_i ed hed
      split at h
      · cases h
      · rename_i words hwords
        have hall := (mapRes_ok_iff _ _ _).1 hwords
        have hmem : ∀ p ∈ ps, p.1 ∈ words := by
          intro p hp
          obtain ⟨ed', h1, m, hm, h2⟩ := hk p hp e rfl
          rw [hed] at h1; cases h1
          obtain ⟨w, hwm, h3⟩ := hall.mem_left hm
          rw [h2] at h3; cases h3
          exact hwm
        split at h
        · rename_i hlim
          cases h
          refine valid_dictPattern.2 ⟨ps, rfl, ?_, hv⟩
          intro p hp
          refine hfit words ?_ _ (hmem p hp)
          intro w hwm
          obtain ⟨m, hm, h3⟩ := hall.mem_right hwm
          obtain ⟨x, h4, h5⟩ := hw e ed rfl hed (by rw [hall.length]; exact hlim) m hm
          rw [h4] at h3; cases h3
          exact h5
        · cases h
          refine valid_props.2 ⟨ps, rfl, ?_, ?_⟩
          · intro p hp x hx
            rw [(mem_foldl_upsert.1 hp).2]
            exact hv _ (lookupKey_some_mem hx)
          · intro p hp
            rw [foldl_upsert_lookup, if_pos (hmem p hp)]; rfl
  · cases h
    exact valid_dict.2 ⟨ps, rfl, hv⟩

/-! ### Optional fields -/

theorem Conforms.unwrapOpt {v : Val} (hv : v ≠ .none) {t : Ty} (h : Conforms vc cfg env v t) :
    Conforms vc cfg env v t.unwrapOpt := by
  unfold Ty.unwrapOpt
  split
  · rename_i ts
    cases h with
    | leaf hm _ => simp [scalarTys] at hm
    | @union _ _ u hm hu =>
      have hf : u ∈ ts.filter (fun t => !t.isNone) := by
        refine List.mem_filter.2 ⟨hm, ?_⟩
        have := hu.hasTy
        cases u <;> simp [Ty.isNone]
        cases this; exact hv rfl
      split
      · rename_i t ht
        rw [ht] at hf
        rcases List.mem_singleton.1 hf with rfl
        exact hu
      · exact .union hf hu
  · exact h

theorem Conforms.required {v : Val} (hv : v ≠ .none) {t : Ty} (h : Conforms vc cfg env v t) : Conforms vc cfg env v t.required := by
  unfold Ty.required
  split
  · unfold Ty.unwrapOptional
    split
    · cases h with
      | leaf hm _ => simp [scalarTys] at hm
      | annotated h hm => exact .annotated (h.unwrapOpt hv) hm
    · exact h.unwrapOpt hv
  · exact h

theorem Checkable.unwrapOpt {t : Ty} (h : Checkable env t) : Checkable env t.unwrapOpt := by
  unfold Ty.unwrapOpt
  split
  · rename_i ts
    cases h with
    | simple hm => simp at hm
    | union h1 h2 =>
      split
      · rename_i t ht
        have : t ∈ ts.filter (fun t => !t.isNone) := by rw [ht]; simp
        exact h1 t (List.mem_filter.1 this).1
      · exact .union (fun t ht => h1 t (List.mem_filter.1 ht).1) (h2.filter _)
  · exact h

theorem Checkable.required {t : Ty} (h : Checkable env t) : Checkable env t.required := by
  unfold Ty.required
  split
  · unfold Ty.unwrapOptional
    split
    · cases h with
      | simple hm => simp at hm
      | annotated h => exact .annotated h.unwrapOpt
    · exact h.unwrapOpt
  · exact h

/-! ### All types -/

theorem simple_tySch {fwd skip : Bool} {t : Ty} {b s : Sch} (hb : simpleSchema t = some b)
    (h : TySch cfg env cat names fwd skip t s) : s = b := by
  obtain ⟨n, us, h, _⟩ := h
  cases t <;> simp only [simpleSchema, Option.some.injEq, reduceCtorEq] at hb <;>
    (simp only [tySchema, simpleSchema] at h; cases h; exact hb)

theorem dict_kind {kvs : List (Key × Val)} {j : Json} (h : objectToJson env (.dict kvs) = .ok j) : ∃ ps, j = .obj ps := by
  rw [dyn_dict] at h
  obtain ⟨ps, hp, _⟩ := genPairs_obj _ _ _ h
  exact ⟨ps, hp⟩

theorem enum_valid (hp : ProgramChecks cfg env cat) {e m : Nat} {ed : EnumDef} (he : env.enums[e]? = some ed) {s : Sch}
    (hs : enumSchema env e = .ok s) {j : Json} (h : objectToJson env (.enum e m) = .ok j) : Validates vc root (.obj s) j := by
  obtain ⟨p, h1, rfl⟩ := enum_written hp he h
  obtain ⟨ed', q, h2, h3, h4, h5⟩ := enumSchema_cases hs
  rw [he] at h2; cases h2
  have hpm := List.mem_of_getElem? h1
  have hty := h4 p hpm
  have hv := scalar_type p.2
  rw [hty] at hv
  rw [validates_obj_iff]
  rcases h5 with ⟨hq, rfl⟩ | ⟨hq, rfl⟩
  · rw [hq] at hv
    simp only [List.mem_cons, List.not_mem_nil, or_false, forall_eq, kwOk_type]
    exact hv
  · simp only [List.mem_cons, List.not_mem_nil, or_false, forall_eq_or_imp, forall_eq, kwOk_type]
    refine ⟨hv, 0, congrArg some ?_⟩
    show ((ed.members.map fun m => m.2.toJson).any fun x => Json.same p.2.toJson x) = true
    simp only [List.any_eq_true, List.mem_map]
    exact ⟨_, ⟨p, hpm, rfl⟩, same_refl ((hp.enums ed (List.mem_of_getElem? he)).2 p hpm)⟩

theorem lit_valid {l : Lit} {s : Sch} (hs : litSchema l = .ok s) {j : Json} (h : objectToJson env l.toVal = .ok j) :
    Validates vc root (.obj s) j := by
  unfold litSchema at hs
  split at hs
  · cases hs
  · rename_i x hx
    cases hs
    have := lit_written hx h
    subst this
    rw [validates_obj_iff]
    simp only [List.mem_cons, List.not_mem_nil, or_false, forall_eq_or_imp, forall_eq, kwOk_type]
    exact ⟨scalar_type x, 0, congrArg some (same_refl (Lit.scalar_not_float hx _))⟩

theorem aux_valid {t : Ty} {base : Sch} (hb : simpleSchema t = some base) {ms : List Meta} {fmt : Str}
    (ha : auxFormat t ms = some fmt) {v : Val} (hv : HasTy env v t) {j : Json} (h : objectToJson env v = .ok j) :
    Validates vc root (.obj (upsert c!"format" (js fmt) base)) j := by
  cases hv <;> simp only [auxFormat, reduceCtorEq] at ha
  case int i =>
    cases hb; cases h
    rw [validates_obj_iff]
    simp only [upsert, List.mem_cons, List.not_mem_nil, or_false, forall_eq_or_imp, forall_eq]
    rw [if_neg (by decide)]
    simp only [List.mem_cons, List.not_mem_nil, or_false, forall_eq_or_imp, forall_eq]
    exact ⟨kwOk_type.2 rfl, kwOk_formatOther (by simp [Scalar.toJson])⟩
  case float f =>
    cases hb; cases h
    rw [validates_obj_iff]
    simp only [upsert, List.mem_cons, List.not_mem_nil, or_false, forall_eq_or_imp, forall_eq]
    rw [if_neg (by decide)]
    simp only [List.mem_cons, List.not_mem_nil, or_false, forall_eq_or_imp, forall_eq]
    exact ⟨kwOk_type.2 rfl, kwOk_formatOther (by simp [Scalar.toJson])⟩

theorem arr_written {env : Env} {vs : List Val} {j : Json} (h : arrOf (mapRes (objectToJson env) vs) = .ok j) :
    ∃ xs, j = .arr xs ∧ All2 (fun v x => objectToJson env v = .ok x) vs xs := by
  cases hm : mapRes (objectToJson env) vs with
  | error e => rw [hm] at h; cases h
  | ok xs => rw [hm] at h; cases h; exact ⟨xs, rfl, (mapRes_ok_iff _ _ _).1 hm⟩

/-- What is written for a value is valid for the schema of its type. -/
theorem accepts (hp : ProgramChecks cfg env cat) (hg : GoodDoc cfg env cat root names) (hfit : WordsMatch vc) :
    ∀ (n : Nat) {v : Val} {t : Ty}, Conforms vc cfg env v t → sizeOf v < n → Checkable env t →
      ∀ {fwd skip : Bool} {s : Sch} {j : Json}, TySch cfg env cat names fwd skip t s → FwdOk env cat fwd skip t →
        objectToJson env v = .ok j → Validates vc root (.obj s) j := by
  intro n
  induction n with
  | zero => intro v t _ h; omega
  | succ n ihn =>
  intro v t hc
  induction hc with
  | @leaf v t hm hv hfm =>
    intro hsz hck fwd skip s j hs hf h
    cases hb : simpleSchema t with
    | some b =>
      cases simple_tySch hb hs
      exact simple_valid hb hv hfm h
    | none =>
      cases hck with
      | simple hm' =>
        simp only [List.mem_cons, List.not_mem_nil, or_false] at hm'
        rcases hm' with rfl | rfl | rfl | rfl | rfl | rfl | rfl | rfl | rfl | rfl | rfl | rfl
        all_goals try cases hb
        obtain ⟨m, us, h1, _⟩ := hs
        simp only [tySchema, simpleSchema] at h1
        cases h1
        cases hv
        obtain ⟨ps, rfl⟩ := dict_kind h
        rw [validates_obj_iff]
        intro ka hka
        rcases List.mem_singleton.1 hka with rfl
        exact kwOk_type.2 rfl
      | _ => simp [scalarTys] at hm
  | @list vs t hvs ih =>
    intro hsz hck fwd skip s j ⟨m, us, h1, h2⟩ hf h
    cases hck with
    | simple hm => simp at hm
    | list hck =>
      simp only [tySchema] at h1
      rw [SchRes.map_ok] at h1
      obtain ⟨s1, h1, h3⟩ := h1
      cases h3
      rw [dyn_list] at h
      obtain ⟨xs, rfl, hall⟩ := arr_written h
      refine valid_list.2 ⟨xs, rfl, ?_⟩
      intro x hx
      obtain ⟨w, hw, hwx⟩ := hall.mem_right hx
      refine ih w hw (by have := List.sizeOf_lt_of_mem hw; simp at hsz; omega) hck
        ⟨m, us, h1, h2⟩ ?_ hwx
      intro hfw k b ho
      subst hfw
      exact hf rfl k b (.list ho)
  | @set vs t hv hin hvs ih =>
    intro hsz hck fwd skip s j ⟨m, us, h1, h2⟩ hf h
    cases hck with
    | simple hm => simp at hm
    | set hsi hck =>
      simp only [tySchema] at h1
      rw [SchRes.map_ok] at h1
      obtain ⟨s1, h1, h3⟩ := h1
      cases h3
      rw [dyn_set] at h
      obtain ⟨xs, rfl, hall⟩ := arr_written h
      refine valid_set.2 ⟨xs, rfl, ?_, ?_⟩
      · intro x hx
        obtain ⟨w, hw, hwx⟩ := hall.mem_right hx
        refine ih w hw (by have := List.sizeOf_lt_of_mem hw; simp at hsz; omega) hck ⟨m, us, h1, h2⟩ ?_ hwx
        intro hfw k b ho
        subst hfw
        exact hf rfl k b (.set ho)
      · cases hv with
        | set hv1 hv2 hv3 =>
          refine allDistinct_of hall hv3 ?_
          intro a ha b hb ja jb hja hjb hne
          cases hsame : Json.same ja jb with
          | false => rfl
          | true =>
            rw [set_distinct hp hsi (hv1 a ha) (hv1 b hb) (hin a ha) (hin b hb) hja hjb hsame] at hne
            cases hne
  | @tuple vs ts hl hvs ih =>
    intro hsz hck fwd skip s j ⟨m, us, h1, h2⟩ hf h
    cases hck with
    | simple hm => simp at hm
    | tuple hck =>
      simp only [tySchema] at h1
      rw [SchRes.map_ok] at h1
      obtain ⟨ss, h1, h3⟩ := h1
      cases h3
      obtain ⟨hlen, hss, _⟩ := tySchemas_ok h1
      rw [dyn_tuple] at h
      obtain ⟨xs, rfl, hall⟩ := arr_written h
      refine valid_tuple.2 ⟨xs, rfl, by rw [← hall.length, hl], ?_⟩
      intro p hpm
      obtain ⟨i, hi⟩ := List.mem_iff_getElem?.1 hpm
      rw [List.getElem?_zip_eq_some, List.getElem?_map] at hi
      obtain ⟨hi1, hi2⟩ := hi
      obtain ⟨s1, hs1, hs2⟩ := Option.map_eq_some_iff.1 hi1
      have hlt : i < xs.length := (List.getElem?_eq_some_iff.1 hi2).1
      obtain ⟨w, hw⟩ : ∃ w, vs[i]? = some w := ⟨_, List.getElem?_eq_getElem (by rw [hall.length]; exact hlt)⟩
      obtain ⟨t, ht⟩ : ∃ t, ts[i]? = some t := ⟨_, List.getElem?_eq_getElem (by rw [← hl, hall.length]; exact hlt)⟩
      obtain ⟨x, hx, hwx⟩ := hall.get i w hw
      rw [hi2] at hx; cases hx
      obtain ⟨us', h4, h5⟩ := hss i t s1 ht hs1
      rw [← hs2]
      have hwm := List.mem_of_getElem? hw
      refine ih i w t hw ht (by have := List.sizeOf_lt_of_mem hwm; simp at hsz; omega) (hck t (List.mem_of_getElem? ht))
        ⟨m, us', h4, fun u hu => h2 u (h5 u hu)⟩ ?_ hwx
      intro hfw k b ho
      subst hfw
      exact hf rfl k b (.tuple (List.mem_of_getElem? ht) ho)
  | @dict kvs k t hv hvs ih =>
    intro hsz hck fwd skip s j ⟨m, us, h1, h2⟩ hf h
    cases hck with
    | simple hm => simp at hm
    | dict hw hck =>
      simp only [tySchema] at h1
      rw [ite_error_ok, SchRes.map_ok] at h1
      replace h1 := h1.2
      obtain ⟨s1, h1, h3⟩ := h1
      obtain ⟨ps, rfl, hps⟩ := dict_names hv h
      refine dict_valid hfit h3 hw (fun p hpm => (hps p hpm).2) ?_
      intro p hpm
      obtain ⟨⟨kv, hkv, hkx⟩, _⟩ := hps p hpm
      refine ih kv hkv (by
          have h1 := List.sizeOf_lt_of_mem hkv
          have h2 : sizeOf kv.2 < sizeOf kv := by cases kv; simp; omega
          simp at hsz; omega) hck
        ⟨m, us, h1, h2⟩ ?_ hkx
      intro hfw k b ho
      subst hfw
      exact hf rfl k b (.dict ho)
  | @union v ts t hm hcf ih =>
    intro hsz hck fwd skip s j ⟨m, us, h1, h2⟩ hf h
    cases hck with
    | simple hm => simp at hm
    | union hck hap =>
      simp only [tySchema] at h1
      split at h1
      · rw [SchRes.map_ok] at h1
        obtain ⟨ss, h1, h3⟩ := h1
        cases h3
        obtain ⟨hlen, hss, _⟩ := tySchemas_ok h1
        have hTy : ∀ (i : Nat) t s1, ts[i]? = some t → ss[i]? = some s1 → TySch cfg env cat names fwd false t s1 ∧ FwdOk env cat fwd false t := by
          intro i t s1 ht hs1
          obtain ⟨us', h4, h5⟩ := hss i t s1 ht hs1
          exact ⟨⟨m, us', h4, fun u hu => h2 u (h5 u hu)⟩, fun hfw k b ho => hf hfw k b (.union (List.mem_of_getElem? ht) ho)⟩
        obtain ⟨i, hi⟩ := List.mem_iff_getElem?.1 hm
        have hlt : i < ts.length := (List.getElem?_eq_some_iff.1 hi).1
        obtain ⟨s1, hs1⟩ : ∃ s1, ss[i]? = some s1 := ⟨_, List.getElem?_eq_getElem (by rw [hlen]; exact hlt)⟩
        obtain ⟨g1, g2⟩ := hTy i t s1 hi hs1
        refine valid_oneOf (i := i) (s := .obj s1) (by rw [List.getElem?_map, hs1]; rfl) (ih hsz (hck t hm) g1 g2 h) ?_
        intro i' s' hne hs'
        rw [List.getElem?_map] at hs'
        obtain ⟨s2, hs2, rfl⟩ := Option.map_eq_some_iff.1 hs'
        have hlt' : i' < ts.length := by rw [← hlen]; exact (List.getElem?_eq_some_iff.1 hs2).1
        obtain ⟨u, hu⟩ : ∃ u, ts[i']? = some u := ⟨_, List.getElem?_eq_getElem hlt'⟩
        obtain ⟨g3, g4⟩ := hTy i' u s2 hu hs2
        refine (g3.decided hp hg g4 j).not_validates ?_
        have hapart : SchemaApart env t u := by
          have e1 := (List.getElem?_eq_some_iff.1 hi).2
          have e2 := (List.getElem?_eq_some_iff.1 hu).2
          rcases Nat.lt_or_gt_of_ne hne with hlt2 | hlt2
          · have := List.pairwise_iff_getElem.1 hap i' i hlt' hlt hlt2
            rw [e1, e2] at this; exact this.2
          · have := List.pairwise_iff_getElem.1 hap i i' hlt hlt' hlt2
            rw [e1, e2] at this; exact this.1
        exact apart_rejects hp hg hapart hcf.hasTy h g3 g4
      · cases h1
  | @annotated v t ms hcf hm ih =>
    intro hsz hck fwd skip s j ⟨m, us, h1, h2⟩ hf h
    cases hck with
    | simple hm => simp at hm
    | annotated hck =>
      simp only [tySchema] at h1
      split at h1
      · rename_i base hb
        split at h1
        · rename_i fmt hfmt
          cases h1
          exact aux_valid hb hfmt hcf.hasTy h
        · cases h1
          exact (C50_annotated t ms base j hb).2 ⟨simple_valid hb hcf.hasTy (hcf.format hb) h, meta_demand hb hcf.hasTy hm h⟩
      · exact ih hsz hck ⟨m, us, h1, h2⟩ (fun hfw k b ho => hf hfw k b (.annotated ho)) h
  | @literal v ls hv =>
    intro hsz hck fwd skip s j ⟨m, us, h1, h2⟩ hf h
    simp only [tySchema] at h1
    split at h1
    · split at h1
      · cases h1
      · rename_i s1 hs
        cases h1
        cases hv with
        | literal hm hv =>
          rcases List.mem_singleton.1 hm with rfl
          subst hv
          exact lit_valid hs h
    · cases h1
  | @enum v e hv =>
    intro hsz hck fwd skip s j hs hf h
    obtain ⟨s0, h1, h2⟩ := reg_meaning (vc := vc) hp.schemaNames hg (k := .enum e) _ _ _ rfl hs hf
    cases hv with
    | enum h3 h4 => exact (h2 j).2 (enum_valid hp h3 h1 h)
  | @cls c cd fs hcd hv hfs _ =>
    intro hsz hck fwd skip s j hs hf h
    obtain ⟨s0, h1, h2⟩ := reg_meaning (vc := vc) hp.schemaNames hg (k := .cls c) _ _ _ rfl hs hf
    obtain ⟨ps, rfl, b1, b2, b3⟩ := def_class hp.schemaNames hcd h1
    have hcc := hp.classes cd (List.mem_of_getElem? hcd)
    refine (h2 j).2 (valid_class.2 ?_)
    by_cases hne : cd.hints = []
    · have hk := written_kind hv h
      have : j.kind = .obj := by
        simp only [writeKinds, hcd, hcc.toJson] at hk
        simpa using hk
      cases j <;> simp [Json.kind] at this
      refine ⟨_, rfl, ?_, by simp [hne]⟩
      intro hps
      obtain ⟨p, hpm⟩ := List.exists_mem_of_ne_nil _ hps
      obtain ⟨g, hgm, _⟩ := b2 p hpm
      rw [hne] at hgm; cases hgm
    · obtain ⟨kvs, rfl, h3, h4⟩ := obj_written hp hcd hne hv h
      refine ⟨kvs, rfl, fun _ => ⟨?_, ?_⟩, ?_⟩
      · intro p hpm x hx
        obtain ⟨g, hgm, hgn⟩ := b2 p hpm
        obtain ⟨s2, s1, c1, c2, c3⟩ := b1 g hgm
        have hl := lookupKey_of_mem b3 hpm
        rw [hgn, hl] at c1
        have c1 := Option.some.inj c1
        rw [c1]
        obtain ⟨i, hi⟩ := List.mem_iff_getElem?.1 hgm
        obtain ⟨w, d1, d2, d3⟩ := h3 i g hi
        rw [hgn, hx] at d3
        rcases d3 with ⟨_, d3⟩ | ⟨d3, y, d4, d5⟩
        · cases d3
        · cases d5
          have hwm := List.mem_of_getElem? d1
          refine c2.symm.validates (ihn ((hfs i g w hi d1).required d3) ?_ (hcc.types g hgm).required
        c3 (hcc.forward g hgm) d4)
          have h1 := List.sizeOf_lt_of_mem hwm
          have h2 : sizeOf w.2 < sizeOf w := by cases w; simp; omega
          simp at hsz; omega
      · intro kv hkv
        obtain ⟨f, hfm, hfn⟩ := h4 kv hkv
        obtain ⟨s2, _, c1, _⟩ := b1 f hfm
        rw [← hfn, c1]; rfl
      · intro r hr
        obtain ⟨f, hfm, rfl⟩ := List.mem_map.1 hr
        obtain ⟨hfm, hopt⟩ := List.mem_filter.1 hfm
        obtain ⟨i, hi⟩ := List.mem_iff_getElem?.1 hfm
        obtain ⟨w, _, d2, d3⟩ := h3 i f hi
        rcases d3 with ⟨d3, _⟩ | ⟨_, x, _, d4⟩
        · exact absurd d3 (hcc.present f hfm (by simpa using hopt) _ d2)
        · rw [d4]; rfl

end Verif
