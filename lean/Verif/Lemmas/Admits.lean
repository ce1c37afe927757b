import Verif.Lemmas.SchemaRead
import Verif.Spec.Admits
/-!
# What generated schemas accept, type by type
-/
namespace Verif

variable {vc : ValidatorCfg} {cfg : SchemaCfg} {env : Env} {cat : SchemaCatalog} {root : Json} {names : Str → Prop}

theorem TySch.settled (hp : SchemaNames cfg env cat) (hg : GoodDoc cfg env cat root names) {fwd skip : Bool} {t : Ty} {s : Sch}
    (h : TySch cfg env cat names fwd skip t s) (hf : FwdOk env cat fwd skip t) (v : Json) : Decided vc root (.obj s) v := by
  obtain ⟨n, us, h1, h2⟩ := h
  have hP := gen_closed (cfg := cfg) hp.namesOk names
  exact gen_decided (hg.refsGood hp.namesOk) _ v (Nat.lt_succ_self _) _
    (tySchema_rec hP.toSchClosed (clsSchema_rec hP n) hP.name t skip s us hf h1 h2)

/-! ### Leaves -/

theorem same_type {j : Json} {s : Scalar} (h : Json.same j s.toJson = true) : isJsonType (scalarTypeName s) j = some true := by
  have hint : ∀ f i, floatEqInt f i = true → f.isInteger = true := by
    intro f i hf
    cases f with
    | fin neg m e =>
      simp only [floatEqInt] at hf
      simp only [PyFloat.isInteger, decide_eq_true_eq]
      split at hf
      · rename_i hm; rw [hm]; exact Nat.zero_mod _
      · split at hf
        · cases hf
        · have : (-e).toNat = 0 := by omega
          rw [this]; exact Nat.mod_one _
    | _ => cases hf
  cases s <;> cases j <;> simp only [Json.same, Scalar.toJson, Bool.false_eq_true] at h <;>
    first
    | rfl
    | (rename_i i f; exact congrArg some (hint f i h))

theorem valid_typeOnly {n : Str} {v : Json} : Validates vc root (.obj [(c!"type", js n)]) v ↔ isJsonType n v = some true := by
  rw [validates_obj_iff]
  simp only [List.mem_singleton, forall_eq, kwOk_type]

theorem valid_format {f : Str} {v : Json} : Validates vc root (.obj [(c!"type", js c!"string"), (c!"format", js f)]) v ↔
    ∃ s, v = .str s ∧ vc.format f s = true := by
  rw [validates_obj_iff]
  simp only [List.mem_cons, List.not_mem_nil, or_false, forall_eq_or_imp, forall_eq, kwOk_type]
  constructor
  · rintro ⟨h1, _, h2⟩
    cases v <;> simp [isJsonType] at h1
    exact ⟨_, rfl, Option.some.inj h2⟩
  · rintro ⟨s, rfl, h⟩
    exact ⟨rfl, 0, congrArg some h⟩

theorem leaf_meaning {t : Ty} {b : Sch} {v : Json} (h : simpleSchema t = some b) :
    Validates vc root (.obj b) v ↔ LeafAdmits vc v t := by
  cases t <;> simp only [simpleSchema, Option.some.injEq, reduceCtorEq] at h <;> subst h
  · rw [valid_typeOnly]; cases v <;> simp [isJsonType, LeafAdmits]
  · rw [valid_typeOnly]; cases v <;> simp [isJsonType, LeafAdmits]
  · exact validates_integer
  · rw [valid_typeOnly]; cases v <;> simp [isJsonType, LeafAdmits, Json.IsNumber]
  · rw [valid_typeOnly]; cases v <;> simp [isJsonType, LeafAdmits]
  · refine (SameKw.upsert (k := c!"contentEncoding") (j := js c!"base64") [(c!"type", js c!"string")] (by decide)).validates_iff.trans ?_
    rw [valid_typeOnly]
    cases v <;> simp [isJsonType, LeafAdmits]
  all_goals exact valid_format

theorem isPlain_iff {t : Ty} : t.IsPlain ↔ ∃ b, simpleSchema t = some b := by
  cases t <;> simp [Ty.IsPlain, simpleSchema]

theorem aux_meaning {t : Ty} {ms : List Meta} {fmt : Str} {b : Sch} {v : Json} (hb : simpleSchema t = some b)
    (h : auxFormat t ms = some fmt) : Validates vc root (.obj (upsert c!"format" (js fmt) b)) v ↔ Validates vc root (.obj b) v := by
  have key : ∀ n, n = c!"integer" ∨ n = c!"number" →
      (Validates vc root (.obj [(c!"type", js n), (c!"format", js fmt)]) v ↔ Validates vc root (.obj [(c!"type", js n)]) v) := by
    intro n hn
    rw [valid_typeOnly, validates_obj_iff]
    simp only [List.mem_cons, List.not_mem_nil, or_false, forall_eq_or_imp, forall_eq, kwOk_type]
    constructor
    · exact fun h => h.1
    · intro h1
      refine ⟨h1, 0, ?_⟩
      rcases hn with rfl | rfl <;> cases v <;> first | rfl | simp [isJsonType] at h1
  cases t <;> simp only [auxFormat, reduceCtorEq] at h <;> cases hb
  · exact key _ (Or.inl rfl)
  · exact key _ (Or.inr rfl)

/-! ### Enumerations, literals, unions -/

theorem enum_meaning {e : Nat} {s : Sch} {j : Json} (h : enumSchema env e = .ok s) :
    Validates vc root (.obj s) j ↔ ∃ ed, env.enums[e]? = some ed ∧ ∃ m ∈ ed.members, Json.same j m.2.toJson = true := by
  constructor
  · intro hv
    obtain ⟨ed, h1, h2, _⟩ := enum_only h hv
    exact ⟨ed, h1, h2⟩
  · rintro ⟨ed, he, m, hm, hs⟩
    obtain ⟨ed', q, h1, h2, h3, h4⟩ := enumSchema_cases h
    rw [he] at h1; cases h1
    have ht : isJsonType (scalarTypeName q.2) j = some true := h3 m hm ▸ same_type hs
    rcases h4 with ⟨h4, rfl⟩ | ⟨h4, rfl⟩
    · rw [valid_typeOnly]; rw [h4] at ht; exact ht
    · rw [validates_obj_iff]
      simp only [List.mem_cons, List.not_mem_nil, or_false, forall_eq_or_imp, forall_eq, kwOk_type]
      refine ⟨ht, 0, congrArg some (List.any_eq_true.2 ⟨m.2.toJson, List.mem_map.2 ⟨m, hm, rfl⟩, hs⟩)⟩

theorem lit_meaning {l : Lit} {s : Sch} {j : Json} (h : litSchema l = .ok s) :
    Validates vc root (.obj s) j ↔ ∃ x, l.scalar = some x ∧ Json.same j x.toJson = true := by
  constructor
  · intro hv
    obtain ⟨x, h1, h2, _⟩ := lit_only h hv
    exact ⟨x, h1, h2⟩
  · rintro ⟨x, hx, hs⟩
    simp only [litSchema, hx] at h
    cases h
    rw [validates_obj_iff]
    simp only [List.mem_cons, List.not_mem_nil, or_false, forall_eq_or_imp, forall_eq, kwOk_type]
    exact ⟨same_type hs, 0, congrArg some hs⟩

theorem countO_zero_iff {l : List (Option Bool)} : countO l = some 0 → ∀ o ∈ l, o = some false := by
  induction l with
  | nil => simp
  | cons o os ih =>
    intro h
    simp only [countO] at h
    split at h
    · rename_i a n hn
      cases a with
      | true => simp at h
      | false =>
        simp only [Bool.false_eq_true, if_false, Option.some.injEq] at h
        subst h
        intro o' ho
        rcases List.mem_cons.1 ho with rfl | ho
        · rfl
        · exact ih hn o' ho
    · cases h

theorem countO_one_iff : ∀ {l : List (Option Bool)}, countO l = some 1 → ∃ i : Nat, l[i]? = some (some true) ∧
    ∀ k o, k ≠ i → l[k]? = some o → o = some false := by
  intro l
  induction l with
  | nil => intro h; cases h
  | cons o os ih =>
    intro h
    simp only [countO] at h
    split at h
    · rename_i a n hn
      cases a with
      | true =>
        simp only [if_true, Option.some.injEq, Nat.succ.injEq] at h
        subst h
        refine ⟨0, rfl, ?_⟩
        intro k o' hk ho
        cases k with
        | zero => exact absurd rfl hk
        | succ k => exact countO_zero_iff hn o' (List.mem_of_getElem? (by simpa using ho))
      | false =>
        simp only [Bool.false_eq_true, if_false, Option.some.injEq] at h
        subst h
        obtain ⟨i, h1, h2⟩ := ih hn
        refine ⟨i + 1, by simpa using h1, ?_⟩
        intro k o' hk ho
        cases k with
        | zero => cases ho; rfl
        | succ k => exact h2 k o' (by omega) (by simpa using ho)
    · cases h

theorem oneOf_meaning {ss : List Json} {v : Json} (hd : ∀ s ∈ ss, Decided vc root s v) :
    Validates vc root (.obj [(c!"oneOf", .arr ss)]) v ↔ ∃ (i : Nat) (s : Json), ss[i]? = some s ∧ Validates vc root s v ∧
      ∀ (k : Nat) s', k ≠ i → ss[k]? = some s' → ¬ Validates vc root s' v := by
  constructor
  · intro h
    rw [validates_obj_iff] at h
    obtain ⟨n, hn⟩ := h _ (List.mem_singleton.2 rfl)
    replace hn : (match countO (ss.map fun s => validate vc root n s v) with | some n => some (n == 1) | none => none) = some true := hn
    split at hn
    · rename_i c hc
      have hc1 : c = 1 := by simpa using hn
      subst hc1
      obtain ⟨i, h1, h2⟩ := countO_one_iff hc
      rw [List.getElem?_map] at h1
      cases hi : ss[i]? with
      | none => rw [hi] at h1; cases h1
      | some s =>
        rw [hi] at h1
        refine ⟨i, s, hi, ⟨n, Option.some.inj h1⟩, ?_⟩
        rintro k s' hk hs' ⟨m, hm⟩
        have := h2 k (validate vc root n s' v) hk (by rw [List.getElem?_map, hs']; rfl)
        rcases Nat.le_total n m with h | h
        · rw [validate_mono h _ _ _ this] at hm; cases hm
        · rw [validate_mono h _ _ _ hm] at this; cases this
    · cases hn
  · rintro ⟨i, s, hi, hs, ho⟩
    exact valid_oneOf hi hs fun k s' hk hs' => (hd s' (List.mem_of_getElem? hs')).not_validates (ho k s' hk hs')

/-! ### All types -/

/-- The schema made for a type accepts the values of the type. -/
theorem ty_meaning (hp : SchemaNames cfg env cat) (hg : GoodDoc cfg env cat root names) :
    ∀ (n : Nat) (t : Ty) (j : Json), sizeOf j < n → j.Wf → ∀ (fwd skip : Bool) (s : Sch), TySch cfg env cat names fwd skip t s →
      FwdOk env cat fwd skip t → (Validates vc root (.obj s) j ↔ Admits vc cfg env t j) := by
  intro n
  induction n with
  | zero => intro t j h; omega
  | succ n ihn =>
  intro t
  generalize hsz : sizeOf t = sz
  induction sz using Nat.strongRecOn generalizing t with | _ sz ih0 =>
  have ih : ∀ u : Ty, sizeOf u < sizeOf t → ∀ j : Json, sizeOf j < n + 1 → j.Wf → ∀ (fwd skip : Bool) (s : Sch),
      TySch cfg env cat names fwd skip u s → FwdOk env cat fwd skip u → (Validates vc root (.obj s) j ↔ Admits vc cfg env u j) :=
    fun u hu => ih0 _ (hsz ▸ hu) u rfl
  intro j hj hw fwd skip s hs hf
  cases t with
  | annotated t ms =>
    obtain ⟨m, us, h1, h2⟩ := hs
    have hf' : FwdOk env cat fwd true t := fun hfw k b ho => hf hfw k b (.annotated ho)
    rw [Admits]
    simp only [tySchema] at h1
    split at h1
    · rename_i base hb
      have hbase : Validates vc root (.obj base) j ↔ Admits vc cfg env t j :=
        ih t (by simp; omega) j hj hw fwd true base ⟨m, [], by
          cases t <;> simp only [simpleSchema, Option.some.injEq, reduceCtorEq] at hb <;> subst hb <;> rfl, by simp [UsesIn]⟩ hf'
      have hpl : t.IsPlain := isPlain_iff.2 ⟨_, hb⟩
      split at h1
      · rename_i fmt hfmt
        cases h1
        rw [aux_meaning hb hfmt, hbase, hfmt]
        simp
      · rename_i hfmt
        cases h1
        rw [C50_annotated t ms base j hb, hbase]
        simp only [hpl, hfmt, forall_const]
    · rename_i hb
      have hpl : ¬ t.IsPlain := by
        rw [isPlain_iff, hb]; simp
      rw [ih t (by simp; omega) j hj hw fwd true s ⟨m, us, h1, h2⟩ hf']
      simp only [hpl, false_implies, and_true]
  | list t =>
    obtain ⟨m, us, h1, h2⟩ := hs
    simp only [tySchema] at h1
    rw [SchRes.map_ok] at h1
    obtain ⟨s1, h1, h3⟩ := h1
    cases h3
    rw [valid_list, Admits]
    have hf' : FwdOk env cat fwd fwd t := by
      intro hfw k b ho
      subst hfw
      exact hf rfl k b (.list ho)
    refine exists_congr fun xs => ?_
    constructor
    · rintro ⟨rfl, hx⟩
      cases hw with
      | arr hw =>
        exact ⟨rfl, fun x hm => (ih t (by simp) x (by have := List.sizeOf_lt_of_mem hm; simp at hj; omega) (hw x hm) fwd fwd s1
          ⟨m, us, h1, h2⟩ hf').1 (hx x hm)⟩
    · rintro ⟨rfl, hx⟩
      cases hw with
      | arr hw =>
        exact ⟨rfl, fun x hm => (ih t (by simp) x (by have := List.sizeOf_lt_of_mem hm; simp at hj; omega) (hw x hm) fwd fwd s1
          ⟨m, us, h1, h2⟩ hf').2 (hx x hm)⟩
  | set t =>
    obtain ⟨m, us, h1, h2⟩ := hs
    simp only [tySchema] at h1
    rw [SchRes.map_ok] at h1
    obtain ⟨s1, h1, h3⟩ := h1
    cases h3
    rw [valid_set, Admits]
    have hf' : FwdOk env cat fwd fwd t := by
      intro hfw k b ho
      subst hfw
      exact hf rfl k b (.set ho)
    refine exists_congr fun xs => ?_
    constructor
    · rintro ⟨rfl, hx, hu⟩
      cases hw with
      | arr hw =>
        exact ⟨rfl, fun x hm => (ih t (by simp) x (by have := List.sizeOf_lt_of_mem hm; simp at hj; omega) (hw x hm) fwd fwd s1
          ⟨m, us, h1, h2⟩ hf').1 (hx x hm), hu⟩
    · rintro ⟨rfl, hx, hu⟩
      cases hw with
      | arr hw =>
        exact ⟨rfl, fun x hm => (ih t (by simp) x (by have := List.sizeOf_lt_of_mem hm; simp at hj; omega) (hw x hm) fwd fwd s1
          ⟨m, us, h1, h2⟩ hf').2 (hx x hm), hu⟩
  | tuple ts =>
    obtain ⟨m, us, h1, h2⟩ := hs
    simp only [tySchema] at h1
    rw [SchRes.map_ok] at h1
    obtain ⟨ss, h1, h3⟩ := h1
    cases h3
    obtain ⟨hlen, hss, _⟩ := tySchemas_ok h1
    rw [valid_tuple, Admits]
    refine exists_congr fun xs => ?_
    have hitem : ∀ (hw : Json.Wf (.arr xs)) (hj : sizeOf (Json.arr xs) < n + 1) (i : Nat) t x s1, ts[i]? = some t → xs[i]? = some x →
        ss[i]? = some s1 → (Validates vc root (.obj s1) x ↔ Admits vc cfg env t x) := by
      intro hw hj i t x s1 ht hx hs1
      have htm := List.mem_of_getElem? ht
      have hxm := List.mem_of_getElem? hx
      obtain ⟨us', h4, h5⟩ := hss i t s1 ht hs1
      cases hw with
      | arr hw =>
        refine ih t (by have := List.sizeOf_lt_of_mem htm; simp; omega) x
          (by have := List.sizeOf_lt_of_mem hxm; simp at hj; omega) (hw x hxm) fwd fwd s1 ⟨m, us', h4, fun u hu => h2 u (h5 u hu)⟩ ?_
        intro hfw k b ho
        subst hfw
        exact hf rfl k b (.tuple htm ho)
    constructor
    · rintro ⟨rfl, hl, hx⟩
      refine ⟨rfl, by omega, fun i t x ht hxi => ?_⟩
      obtain ⟨s1, hs1⟩ : ∃ s1, ss[i]? = some s1 :=
        ⟨_, List.getElem?_eq_getElem (by rw [hlen]; exact (List.getElem?_eq_some_iff.1 ht).1)⟩
      refine (hitem hw hj i t x s1 ht hxi hs1).1 (hx (.obj s1, x) (List.mem_iff_getElem?.2 ⟨i, ?_⟩))
      rw [List.getElem?_zip_eq_some, List.getElem?_map, hs1]
      exact ⟨rfl, hxi⟩
    · rintro ⟨rfl, hl, hx⟩
      refine ⟨rfl, by omega, ?_⟩
      rintro ⟨s', x⟩ hpm
      obtain ⟨i, hi⟩ := List.mem_iff_getElem?.1 hpm
      rw [List.getElem?_zip_eq_some, List.getElem?_map] at hi
      obtain ⟨h4, h5⟩ := hi
      cases hs1 : ss[i]? with
      | none => rw [hs1] at h4; cases h4
      | some s1 =>
        rw [hs1] at h4
        cases h4
        have hlt : i < ts.length := by rw [← hlen]; exact (List.getElem?_eq_some_iff.1 hs1).1
        exact (hitem hw hj i _ x s1 (List.getElem?_eq_getElem hlt) h5 hs1).2 (hx i _ x (List.getElem?_eq_getElem hlt) h5)
  | dict k t =>
    obtain ⟨m, us, h1, h2⟩ := hs
    simp only [tySchema] at h1
    rw [ite_error_ok, SchRes.map_ok] at h1
    replace h1 := h1.2
    obtain ⟨s1, h1, h3⟩ := h1
    have hf' : FwdOk env cat fwd fwd t := by
      intro hfw k b ho
      subst hfw
      exact hf rfl k b (.dict ho)
    have hval : ∀ {kvs : List (Str × Json)} (_ : Json.Wf (.obj kvs)) (_ : sizeOf (Json.obj kvs) < n + 1), ∀ kv ∈ kvs,
        (Validates vc root (.obj s1) kv.2 ↔ Admits vc cfg env t kv.2) := by
      intro kvs hw hj kv hm
      cases hw with
      | obj _ hw =>
        exact ih t (by simp; omega) kv.2 (Nat.lt_of_succ_lt (sizeOf_value hm hj)) (hw kv hm) fwd fwd s1 ⟨m, us, h1, h2⟩ hf'
    rw [Admits]
    have hplain : (∀ s, KeyAdmits vc env s k) → s = [(c!"type", js c!"object"), (c!"additionalProperties", .obj s1)] →
        (Validates vc root (.obj s) j ↔ ∃ kvs, ∃ _ : j = .obj kvs, ∀ kv, kv ∈ kvs → KeyAdmits vc env kv.1 k ∧ Admits vc cfg env t kv.2) := by
      rintro hk rfl
      rw [valid_dict]
      refine exists_congr fun kvs => ?_
      constructor
      · rintro ⟨rfl, h⟩; exact ⟨rfl, fun kv hm => ⟨hk _, (hval hw hj kv hm).1 (h kv hm)⟩⟩
      · rintro ⟨rfl, h⟩; exact ⟨rfl, fun kv hm => (hval hw hj kv hm).2 (h kv hm).2⟩
    unfold dictSchema at h3
    split at h3
    · rename_i e
      split at h3
      · cases h3
      · rename_i ed he
        split at h3
        · cases h3
        · rename_i words hwords
          have hwall := (mapRes_ok_iff _ _ _).1 hwords
          have hkey : ∀ s, KeyAdmits vc env s (.enum e) ↔
              (if 4 < words.length then vc.pattern (c!"^(" ++ joinWith '|' words ++ c!")$") s = true else s ∈ words) := by
            intro s
            simp only [KeyAdmits, he]
            constructor
            · rintro ⟨ed', words', h4, h5, h6⟩
              cases h4
              rw [(mapRes_ok_iff _ _ _).2 h5] at hwords
              cases hwords
              exact h6
            · intro h6; exact ⟨ed, words, rfl, hwall, h6⟩
          split at h3
          · rename_i hlim0
            have hlim : 4 < words.length := hlim0
            cases h3
            rw [valid_dictPattern]
            refine exists_congr fun kvs => ?_
            constructor
            · rintro ⟨rfl, ha, hb⟩
              exact ⟨rfl, fun kv hm => ⟨(hkey _).2 (by rw [if_pos hlim]; exact ha kv hm), (hval hw hj kv hm).1 (hb kv hm)⟩⟩
            · rintro ⟨rfl, h⟩
              exact ⟨rfl, fun kv hm => by have := (hkey _).1 (h kv hm).1; rwa [if_pos hlim] at this,
                fun kv hm => (hval hw hj kv hm).2 (h kv hm).2⟩
          · rename_i hlim0
            have hlim : ¬ 4 < words.length := hlim0
            cases h3
            rw [valid_props]
            refine exists_congr fun kvs => ?_
            constructor
            · rintro ⟨rfl, ha, hb⟩
              refine ⟨rfl, fun kv hm => ?_⟩
              have hmem : kv.1 ∈ words := by
                have := hb kv hm
                rw [foldl_upsert_lookup] at this
                split at this
                · assumption
                · cases this
              refine ⟨(hkey _).2 (by rw [if_neg hlim]; exact hmem), (hval hw hj kv hm).1 ?_⟩
              cases id hw with
              | obj hnd _ =>
                exact ha (kv.1, .obj s1) (lookupKey_some_mem (by rw [foldl_upsert_lookup, if_pos hmem])) kv.2 (lookupKey_of_mem hnd hm)
            · rintro ⟨rfl, h⟩
              have hmem : ∀ kv ∈ kvs, kv.1 ∈ words := fun kv hm => by
                have := (hkey _).1 (h kv hm).1; rwa [if_neg hlim] at this
              refine ⟨rfl, ?_, fun kv hm => by rw [foldl_upsert_lookup, if_pos (hmem kv hm)]; rfl⟩
              intro p hpm x hx
              rw [(mem_foldl_upsert.1 hpm).2]
              have hm := lookupKey_some_mem hx
              exact (hval hw hj _ hm).2 (h _ hm).2
    · rename_i hne
      cases h3
      refine hplain (fun s => ?_) rfl
      cases k with
      | enum e => exact absurd rfl (hne e)
      | _ => trivial
  | union ts =>
    obtain ⟨m, us, h1, h2⟩ := hs
    simp only [tySchema] at h1
    split at h1
    · rw [SchRes.map_ok] at h1
      obtain ⟨ss, h1, h3⟩ := h1
      cases h3
      obtain ⟨hlen, hss, _⟩ := tySchemas_ok h1
      have hmem : ∀ (i : Nat) t s1, ts[i]? = some t → ss[i]? = some s1 →
          TySch cfg env cat names fwd false t s1 ∧ FwdOk env cat fwd false t := by
        intro i t s1 ht hs1
        obtain ⟨us', h4, h5⟩ := hss i t s1 ht hs1
        exact ⟨⟨m, us', h4, fun u hu => h2 u (h5 u hu)⟩, fun hfw k b ho => hf hfw k b (.union (List.mem_of_getElem? ht) ho)⟩
      have hone : ∀ (i : Nat) t s1, ts[i]? = some t → ss[i]? = some s1 → (Validates vc root (.obj s1) j ↔ Admits vc cfg env t j) := by
        intro i t s1 ht hs1
        obtain ⟨h4, h5⟩ := hmem i t s1 ht hs1
        exact ih t (by have := List.sizeOf_lt_of_mem (List.mem_of_getElem? ht); simp; omega) j hj hw fwd false s1 h4 h5
      have hsome : ∀ (i : Nat) t, ts[i]? = some t → ∃ s1, ss[i]? = some s1 := fun i t ht =>
        ⟨_, List.getElem?_eq_getElem (by rw [hlen]; exact (List.getElem?_eq_some_iff.1 ht).1)⟩
      have hsome' : ∀ (i : Nat) s1, ss[i]? = some s1 → ∃ t, ts[i]? = some t := fun i t ht =>
        ⟨_, List.getElem?_eq_getElem (by rw [← hlen]; exact (List.getElem?_eq_some_iff.1 ht).1)⟩
      rw [oneOf_meaning, Admits]
      · constructor
        · rintro ⟨i, s', hi, hv, ho⟩
          rw [List.getElem?_map] at hi
          cases hs1 : ss[i]? with
          | none => rw [hs1] at hi; cases hi
          | some s1 =>
            rw [hs1] at hi
            cases hi
            obtain ⟨t, ht⟩ := hsome' i s1 hs1
            refine ⟨i, t, ht, (hone i t s1 ht hs1).1 hv, ?_⟩
            intro k u hk hu hau
            obtain ⟨s2, hs2⟩ := hsome k u hu
            exact ho k (.obj s2) hk (by rw [List.getElem?_map, hs2]; rfl) ((hone k u s2 hu hs2).2 hau)
        · rintro ⟨i, t, ht, ha, ho⟩
          obtain ⟨s1, hs1⟩ := hsome i t ht
          refine ⟨i, .obj s1, by rw [List.getElem?_map, hs1]; rfl, (hone i t s1 ht hs1).2 ha, ?_⟩
          intro k s' hk hs'
          rw [List.getElem?_map] at hs'
          cases hs2 : ss[k]? with
          | none => rw [hs2] at hs'; cases hs'
          | some s2 =>
            rw [hs2] at hs'
            cases hs'
            obtain ⟨u, hu⟩ := hsome' k s2 hs2
            exact fun hv => ho k u hk hu ((hone k u s2 hu hs2).1 hv)
      · intro s' hs'
        obtain ⟨s1, hm, rfl⟩ := List.mem_map.1 hs'
        obtain ⟨i, hi⟩ := List.mem_iff_getElem?.1 hm
        obtain ⟨t, ht⟩ := hsome' i s1 hi
        obtain ⟨h4, h5⟩ := hmem i t s1 ht hi
        exact h4.settled hp hg h5 j
    · cases h1
  | literal ls =>
    obtain ⟨m, us, h1, h2⟩ := hs
    rw [Admits]
    simp only [tySchema] at h1
    split at h1
    · rename_i l
      split at h1
      · cases h1
      · rename_i s1 hs1
        cases h1
        rw [lit_meaning hs1]
        simp
    · cases h1
  | enum e =>
    obtain ⟨s0, h1, h2⟩ := reg_meaning (vc := vc) hp hg (k := .enum e) _ _ _ rfl hs hf
    rw [h2, enum_meaning h1, Admits]
  | cls c =>
    obtain ⟨s0, h1, h2⟩ := reg_meaning (vc := vc) hp hg (k := .cls c) _ _ _ rfl hs hf
    cases hc : env.classes[c]? with
    | none =>
      obtain ⟨m, us, h3, _⟩ := h1
      cases m <;> simp only [clsSchema, hc] at h3 <;> cases h3
    | some cd =>
      obtain ⟨ps, rfl, b1, b2, b3⟩ := def_class hp hc h1
      rw [h2, valid_class, Admits]
      have hcm := List.mem_of_getElem? hc
      have hfield : ∀ {kvs : List (Str × Json)} (_ : Json.Wf (.obj kvs)) (_ : sizeOf (Json.obj kvs) < n + 1), ∀ f ∈ cd.hints, ∀ s2,
          lookupKey (jsonName f) ps = some (.obj s2) → ∀ kv ∈ kvs,
          (Validates vc root (.obj s2) kv.2 ↔ Admits vc cfg env f.ty.required kv.2) := by
        intro kvs hw hj f hfm s2 hs2 kv hm
        obtain ⟨s2', s1, c1, c2, c3⟩ := b1 f hfm
        rw [hs2] at c1
        cases c1
        cases hw with
        | obj _ hw =>
          rw [c2.validates_iff]
          exact ihn f.ty.required kv.2 (Nat.lt_of_succ_lt_succ (sizeOf_value hm hj)) (hw kv hm) _ _ _ c3
            ((hp.classes cd hcm).forward f hfm)
      have hps : ps ≠ [] ↔ cd.hints ≠ [] := by
        constructor
        · intro h hn
          obtain ⟨p, hpm⟩ := List.exists_mem_of_ne_nil _ h
          obtain ⟨g, hgm, _⟩ := b2 p hpm
          rw [hn] at hgm; cases hgm
        · rintro h rfl
          obtain ⟨f, hfm⟩ := List.exists_mem_of_ne_nil _ h
          obtain ⟨_, _, c1, _⟩ := b1 f hfm
          cases c1
      constructor
      · rintro ⟨kvs, rfl, h3, h4⟩
        refine ⟨kvs, cd, rfl, hc, ?_, ?_, ?_⟩
        · intro hne kv hm
          obtain ⟨s', hs'⟩ := Option.isSome_iff_exists.1 ((h3 (hps.2 hne)).2 kv hm)
          exact b2 (kv.1, s') (lookupKey_some_mem hs')
        · intro f hfm kv hm hk
          obtain ⟨s2, _, c1, _⟩ := b1 f hfm
          refine (hfield hw hj f hfm s2 c1 kv hm).1 ?_
          cases id hw with
          | obj hnd _ =>
            exact (h3 (hps.2 (List.ne_nil_of_mem hfm))).1 (jsonName f, .obj s2) (lookupKey_some_mem c1) kv.2
              (lookupKey_of_mem hnd (by rw [← hk]; exact hm))
        · intro f hfm ho
          obtain ⟨x, hx⟩ := Option.isSome_iff_exists.1
            (h4 (jsonName f) (List.mem_map.2 ⟨f, List.mem_filter.2 ⟨hfm, by simp [ho]⟩, rfl⟩))
          exact ⟨_, lookupKey_some_mem hx, rfl⟩
      · rintro ⟨kvs, cd', rfl, hc', h3, h4, h5⟩
        rw [hc] at hc'
        cases hc'
        refine ⟨kvs, rfl, ?_, ?_⟩
        · intro hne
          refine ⟨?_, ?_⟩
          · intro p hpm x hx
            obtain ⟨g, hgm, hgn⟩ := b2 p hpm
            obtain ⟨s2, _, c1, _⟩ := b1 g hgm
            have hp2 : p.2 = .obj s2 := by
              have := lookupKey_of_mem b3 hpm
              rw [← hgn, c1] at this
              exact (Option.some.inj this).symm
            rw [hp2]
            have hm := lookupKey_some_mem hx
            exact (hfield hw hj g hgm s2 c1 _ hm).2 (h4 g hgm _ hm hgn.symm)
          · intro kv hm
            obtain ⟨f, hfm, hfn⟩ := h3 (hps.1 hne) kv hm
            obtain ⟨s2, _, c1, _⟩ := b1 f hfm
            rw [← hfn, c1]; rfl
        · intro r hr
          obtain ⟨f, hfm, rfl⟩ := List.mem_map.1 hr
          obtain ⟨hfm, ho⟩ := List.mem_filter.1 hfm
          obtain ⟨kv, hm, hk⟩ := h5 f hfm (by simpa using ho)
          rw [Option.isSome_iff_ne_none, Ne, lookupKey_none_iff']
          exact fun h => h (List.mem_map.2 ⟨kv, hm, hk⟩)
  | _ =>
    rw [Admits]
    · obtain ⟨m, us, h1, h2⟩ := hs
      cases h1
      first
      | exact leaf_meaning rfl
      | (refine valid_typeOnly.trans ?_; cases j <;> simp [isJsonType, LeafAdmits])
    all_goals (intros; contradiction)

theorem kwDone_of_decided {s : Sch} {v : Json} (h : Decided vc root (.obj s) v) : ∀ ka ∈ s, KwDone vc root s ka.1 ka.2 v := by
  have hall : ∀ (l : List (Option Bool)) b, allO l = some b → ∀ o ∈ l, ∃ c, o = some c := by
    intro l
    induction l with
    | nil => simp
    | cons o os ih =>
      intro b h
      unfold allO at h
      split at h
      · rename_i a b' h1
        intro o' ho'
        rcases List.mem_cons.1 ho' with rfl | ho'
        · exact ⟨a, rfl⟩
        · exact ih b' h1 o' ho'
      · cases h
  obtain ⟨n, b, h⟩ := h
  intro ka hka
  cases n with
  | zero => cases h
  | succ n =>
    obtain ⟨c, hc⟩ := hall _ b h _ (List.mem_map.2 ⟨ka, hka, rfl⟩)
    exact ⟨n, c, hc⟩

/-- The validator comes to a result on a generated document. -/
theorem schema_decided (hp : SchemaNames cfg env cat) {t : Ty} {root : Sch} (hr : classdefToSchema cfg env cat t = .ok root)
    (j : Json) : Decided vc (.obj root) (.obj root) j := by
  obtain ⟨names, s, us, h1, h2, h3, h4⟩ := document_good hp hr
  have hs : TySch cfg env cat names false false t s := ⟨_, us, h1, h2⟩
  exact decided_obj (h3.symm.decided (kwDone_of_decided (hs.settled hp h4 (fun h => by cases h) j)))

end Verif
