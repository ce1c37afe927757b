import Verif.Lemmas.ClassBuildTr
import Verif.Lemmas.JsonSchema
/-!
# Valid data is read by the type of the node
-/
namespace Verif

/-! ### Types that read data -/

/-- Every type equal to `t` that is plain reads the data. -/
def Good (E : Env) (t : Ty) (j : Json) : Prop := ∀ u, Ty.same u t = true → Plain E u → ¬ FloatForInt E u j → Reads E u j

/-- One of the members reads the data. -/
def Reader (E : Env) (t : Ty) (j : Json) : Prop := ∃ w ∈ pieces t, Good E w j

theorem Good.same {E : Env} {t u : Ty} {j : Json} (h : Good E t j) (hs : Ty.same u t = true) : Good E u j :=
  fun v hv => h v (same_trans hv hs)

theorem Good.reader {E : Env} {t : Ty} {j : Json} (hp : pieces t = [t]) (h : Good E t j) : Reader E t j :=
  ⟨t, by rw [hp]; simp, h⟩

theorem plain_member {E : Env} {ts : List Ty} (h : Plain E (.union ts)) : ∀ t ∈ ts, Plain E t := by
  cases h with
  | leaf h => simp at h
  | union _ h _ => exact h
  | tagged _ _ h _ => exact h

theorem Reader.good {E : Env} (hk : E.Ok) {t : Ty} {j : Json} (hs : SmallInts j) (hn : ¬ Json.null.Within j) (h : Reader E t j) :
    Good E t j := by
  obtain ⟨w, hw, hg⟩ := h
  by_cases ht : ∃ ts, t = .union ts
  · obtain ⟨ts, rfl⟩ := ht
    intro u hu hp hf
    obtain ⟨us, rfl, _, h2⟩ := same_union hu
    obtain ⟨a, ha, h3⟩ := h2 w hw
    exact union_reads hk hp hs hn ha (hg a h3 (plain_member hp a ha) fun h => hf (.union ha h))
  · have : pieces t = [t] := by cases t <;> first | rfl | exact absurd ⟨_, rfl⟩ ht
    rw [this] at hw
    simp at hw
    exact hw ▸ hg

theorem Reader.pyUnion {E : Env} {ts : List Ty} {t u : Ty} {j : Json} (hm : ∀ u ∈ ts, Made u) (h : pyUnion ts = .ok t)
    (hu : u ∈ ts) (hr : Reader E u j) : Reader E t j := by
  obtain ⟨w, hw, hg⟩ := hr
  obtain ⟨w', hw', hs⟩ := dedup_same (seen := []) w (List.mem_flatMap.2 ⟨u, hu, hw⟩)
  exact ⟨w', by rw [pieces_pyUnion hm h]; exact hw', hg.same hs⟩

theorem Reader.optional {E : Env} {t u : Ty} {j : Json} (hm : Made t) (h : Verif.pyUnion [.none, t] = .ok u) (hr : Reader E t j) :
    Reader E u.required j := by
  obtain ⟨w, hw, hg⟩ := hr
  obtain ⟨w', hw', hs⟩ := (optional_made hm h).2.2 w hw
  exact ⟨w', hw', hg.same hs⟩

/-! ### References -/

theorem pointerParts_plain {m : Str} (h : '/' ∉ m) : pointerParts m = [m] := by
  induction m with
  | nil => rfl
  | cons c m ih =>
    simp only [List.mem_cons, not_or] at h
    unfold pointerParts
    rw [if_neg (fun hc => h.1 hc.symm), ih h.2]

theorem unescapeRef_plain {m : Str} (h : '~' ∉ m) : unescapeRef m = m := by
  induction m with
  | nil => rfl
  | cons c m ih =>
    simp only [List.mem_cons, not_or] at h
    unfold unescapeRef
    split
    · simp_all
    · simp_all
    · simp_all
    · simp_all

theorem resolveRef_def {root s : Json} {m : Str} (h1 : '/' ∉ m) (h2 : '%' ∉ m) (h3 : '~' ∉ m)
    (h : resolveRef root (defRef m) = some s) : lookupKey m (schemaDefs root) = some s := by
  have hp : pointerParts (c!"definitions/" ++ m) = [c!"definitions", m] := by
    show pointerParts ('d' :: 'e' :: 'f' :: 'i' :: 'n' :: 'i' :: 't' :: 'i' :: 'o' :: 'n' :: 's' :: '/' :: m) = _
    simp [pointerParts, pointerParts_plain h1]
  have hr : resolveRef root (defRef m) = walkJson root [c!"definitions", m] := by
    show (if '%' ∈ c!"definitions/" ++ m then none else walkJson root ((pointerParts (c!"definitions/" ++ m)).map unescapeRef)) = _
    rw [if_neg (by simp [h2]), hp]
    simp only [List.map_cons, List.map_nil, unescapeRef_plain h3]
    rfl
  rw [hr] at h
  cases root with
  | obj kvs =>
    simp only [walkJson] at h
    unfold schemaDefs
    simp only
    split at h
    · rename_i x hx
      rw [hx]
      cases x with
      | obj ds =>
        simp only [walkJson] at h
        simp only
        split at h
        · rename_i y hy; cases h; exact hy
        · cases h
      | _ => cases h
    · cases h
  | _ => cases h

/-! ### Validity -/

theorem validate_kw {vc : ValidatorCfg} {root : Json} {k : Nat} {s : List (Str × Json)} {j a : Json} {key : Str}
    (h : validate vc root (k + 1) (.obj s) j = some true) (ha : lookupKey key s = some a) :
    keywordCheck vc root (validate vc root k) s (keywordOf key) a j = some true := by
  simp only [validate, allO_true_iff, List.mem_map] at h
  exact h _ ⟨_, lookupKey_some_mem ha, rfl⟩

theorem fields_of_prop {E : Env} {names : List Str} {F : List (Str × Ty)} {req : List Str} {ps : List (Str × TNode)} :
    ∀ {fs : List FieldDef} {xs : List (Str × Json)}, FieldsOf E names F ps req fs → DenotesD ps xs →
      (∀ f ∈ fs, ∃ n s t, (f.name, s) ∈ xs ∧ Denotes n s ∧ Made t ∧ TypeOf E names F n t ∧
        (if f.name ∈ req then f.ty = t else pyUnion [.none, t] = .ok f.ty)) ∧
      ∀ x ∈ xs, ∃ f ∈ fs, f.name = x.1 ∧ ∃ n t, Denotes n x.2 ∧ TypeOf E names F n t := by
  induction ps with
  | nil =>
    intro fs xs h hd
    cases xs with
    | nil => cases h; simp
    | cons => exact hd.elim
  | cons p ps ih =>
    obtain ⟨k, n⟩ := p
    intro fs xs h hd
    cases xs with
    | nil => exact hd.elim
    | cons x xs =>
      obtain ⟨l, x⟩ := x
      obtain ⟨rfl, hdx, hds⟩ := hd
      obtain ⟨f, fs', t, rfl, hf, hm, ht, hty, hr⟩ := h
      obtain ⟨h1, h2⟩ := ih hr hds
      constructor
      · intro g hg
        rcases List.mem_cons.1 hg with rfl | hg
        · exact ⟨n, x, t, by simp [hf], hdx, hm, ht, hf ▸ hty⟩
        · obtain ⟨n', s', t', h3, h4⟩ := h1 g hg
          exact ⟨n', s', t', by simp [h3], h4⟩
      · intro y hy
        rcases List.mem_cons.1 hy with rfl | hy
        · exact ⟨f, by simp, hf, n, t, hdx, ht⟩
        · obtain ⟨g, hg, h3⟩ := h2 y hy
          exact ⟨g, by simp [hg], h3⟩

theorem types_of_member {E : Env} {names : List Str} {F : List (Str × Ty)} {ns : List TNode} :
    ∀ {ts : List Ty} {xs : List Json}, TypesOf E names F ns ts → DenotesL ns xs →
      ∀ x ∈ xs, ∃ n, ∃ t ∈ ts, Denotes n x ∧ TypeOf E names F n t := by
  induction ns with
  | nil =>
    intro ts xs h hd
    cases xs with
    | nil => simp
    | cons => exact hd.elim
  | cons n ns ih =>
    intro ts xs h hd
    cases xs with
    | nil => exact hd.elim
    | cons x xs =>
      obtain ⟨t, ts', rfl, ht, hr⟩ := h
      intro y hy
      rcases List.mem_cons.1 hy with rfl | hy
      · exact ⟨n, t, by simp, hd.1, ht⟩
      · obtain ⟨n', t', hm, h3⟩ := ih hr hd.2 y hy
        exact ⟨n', t', by simp [hm], h3⟩

theorem noNull_scalar {j : Json} (hn : j ≠ .null) (ha : ∀ xs, j ≠ .arr xs) (ho : ∀ kvs, j ≠ .obj kvs) : ¬ Json.null.Within j := by
  intro h
  cases h with
  | self => exact hn rfl
  | arr => exact ha _ rfl
  | obj => exact ho _ rfl

theorem countO_pos {l : List (Option Bool)} {n : Nat} (h : countO l = some n) (hn : n ≠ 0) : some true ∈ l := by
  induction l generalizing n with
  | nil => cases h; exact absurd rfl hn
  | cons o l ih =>
    simp only [countO] at h
    split at h
    · rename_i a m hm
      cases a with
      | true => simp
      | false =>
        simp only [Bool.false_eq_true, if_false, Option.some.injEq] at h
        subst h
        simp [ih hm hn]
    · cases h

/-- What is given about the program. -/
structure Setting (vc : ValidatorCfg) (root : Json) (E : Env) (names : List Str) (F : List (Str × Ty)) : Prop where
  ok : E.Ok
  formats : FormatsRead vc
  known : ∀ k s, lookupKey k (schemaDefs root) = some s → k ∈ names
  defs : ∀ k T s, lookupKey k F = some T → lookupKey k (schemaDefs root) = some s → ∃ n, Denotes n s ∧ TypeOf E names F n T

theorem valid_reads {vc : ValidatorCfg} {root : Json} {E : Env} {names : List Str} {F : List (Str × Ty)}
    (hS : Setting vc root E names F) : ∀ (k : Nat) n s T j, Denotes n s → TypeOf E names F n T → j.Wf → SmallInts j →
      validate vc root k s j = some true → ¬ Json.null.Within j ∧ Reader E T j := by
  intro k
  induction k with
  | zero => intro n s T j _ _ _ _ h; cases h
  | succ k ih =>
    intro n s T j hd ht hw hi hv
    cases n with
    | ref r =>
      obtain ⟨kvs, rfl, hr⟩ := hd
      obtain ⟨⟨m, rfl, h1, h2, h3⟩, hF⟩ := ht
      have hkw := validate_kw hv hr
      replace hkw : (match resolveRef root (defRef m) with | some s => validate vc root k s j | none => none) = some true := hkw
      split at hkw
      · rename_i s' hs'
        have hl := resolveRef_def h1 h2 h3 hs'
        obtain ⟨n', hd', ht'⟩ := hS.defs m T s' (hF m (hS.known _ _ hl) rfl) hl
        exact ih n' s' T j hd' ht' hw hi hkw
      · cases hkw
    | bool c d =>
      obtain ⟨kvs, rfl, hty, hc⟩ := hd
      have htype := validate_kw hv hty
      replace htype : isJsonType c!"boolean" j = some true := htype
      cases j <;> simp [isJsonType] at htype
      rename_i b
      refine ⟨noNull_scalar (by simp) (by simp) (by simp), ?_⟩
      rcases ht with rfl | ⟨b', rfl, rfl⟩
      · refine Good.reader rfl fun u hu _ _ => ?_
        rw [same_leaf (by simp) hu]
        exact ⟨_, rfl⟩
      · refine Good.reader rfl fun u hu _ _ => ?_
        rw [same_literal hu]
        have hcc := validate_kw hv (hc b' rfl)
        have hcc : Json.same (.bool b) (.bool b') = true := Option.some.inj hcc
        simp [Json.same] at hcc
        subst hcc
        exact ⟨.bool b, by cases b <;> rfl⟩
    | int f c d e lo hi' =>
      obtain ⟨kvs, rfl, hty, hc⟩ := hd
      have htype := validate_kw hv hty
      replace htype : isJsonType c!"integer" j = some true := htype
      have hj : (∃ i, j = .int i) ∨ ∃ f, j = .float f ∧ f.isInteger = true := by
        cases j <;> simp [isJsonType] at htype
        · exact .inl ⟨_, rfl⟩
        · exact .inr ⟨_, rfl, htype⟩
      refine ⟨noNull_scalar (by rcases hj with ⟨i, rfl⟩ | ⟨f, rfl, _⟩ <;> simp) (by rcases hj with ⟨i, rfl⟩ | ⟨f, rfl, _⟩ <;> simp)
        (by rcases hj with ⟨i, rfl⟩ | ⟨f, rfl, _⟩ <;> simp), ?_⟩
      rcases ht with rfl | ⟨ms, rfl⟩ | ⟨i, rfl, rfl⟩
      · refine Good.reader rfl fun u hu _ hf => ?_
        rw [same_leaf (by simp) hu] at hf ⊢
        rcases hj with ⟨i, rfl⟩ | ⟨f, rfl, hfi⟩
        · exact ⟨_, rfl⟩
        · exact absurd (.int hfi) hf
      · refine Good.reader rfl fun u hu _ hf => ?_
        obtain ⟨a, rfl, ha⟩ := same_annotated hu
        rw [same_leaf (by simp) ha] at hf ⊢
        rcases hj with ⟨i, rfl⟩ | ⟨f, rfl, hfi⟩
        · exact ⟨_, rfl⟩
        · exact absurd (.annotated (.int hfi)) hf
      · refine Good.reader rfl fun u hu _ hf => ?_
        rw [same_literal hu] at hf ⊢
        rcases hj with ⟨i', rfl⟩ | ⟨f, rfl, hfi⟩
        · obtain ⟨x, hx, hxi⟩ := hc i rfl
          have hcc := validate_kw hv hx
          have hcc : Json.same (.int i') x = true := Option.some.inj hcc
          have hx' : x = .int i := by
            cases x <;> simp [parseInt] at hxi
            · simp [Json.same] at hcc
            · rw [hxi]
          subst hx'
          simp [Json.same] at hcc
          subst hcc
          exact ⟨.int i', by simp [loads, compile, compileLit, litDeser, parse_eq, parseD, parseInt, litMem, Lit.scalar, Val.scalar, Scalar.pyEq, Scalar.asInt]⟩
        · exact absurd (.literal hfi) hf
    | num f c d lo hi' m =>
      obtain ⟨kvs, rfl, hty⟩ := hd
      have htype := validate_kw hv hty
      replace htype : isJsonType c!"number" j = some true := htype
      have hj : (∃ i, j = .int i) ∨ ∃ f, j = .float f := by
        cases j <;> simp [isJsonType] at htype
        · exact .inl ⟨_, rfl⟩
        · exact .inr ⟨_, rfl⟩
      refine ⟨noNull_scalar (by rcases hj with ⟨i, rfl⟩ | ⟨f, rfl⟩ <;> simp) (by rcases hj with ⟨i, rfl⟩ | ⟨f, rfl⟩ <;> simp)
        (by rcases hj with ⟨i, rfl⟩ | ⟨f, rfl⟩ <;> simp), ?_⟩
      have hfl : Reads E .float j := by
        rcases hj with ⟨i, rfl⟩ | ⟨f, rfl⟩
        · obtain ⟨f, hf⟩ := intToFloat_small (hi i .int)
          exact ⟨.float f, by rw [loads_float_int, hf]; rfl⟩
        · exact ⟨_, rfl⟩
      rcases ht with rfl | ⟨ms, rfl⟩
      · refine Good.reader rfl fun u hu _ hf => ?_
        rw [same_leaf (by simp) hu]; exact hfl
      · refine Good.reader rfl fun u hu _ hf => ?_
        obtain ⟨a, rfl, ha⟩ := same_annotated hu
        rw [same_leaf (by simp) ha]; exact hfl
    | str f c d e m =>
      obtain ⟨kvs, rfl, hty, hfo, hc, he⟩ := hd
      have htype := validate_kw hv hty
      replace htype : isJsonType c!"string" j = some true := htype
      cases j <;> simp [isJsonType] at htype
      rename_i x
      refine ⟨noNull_scalar (by simp) (by simp) (by simp), ?_⟩
      rcases ht with rfl | ⟨ms, rfl⟩ | ⟨s, rfl, rfl⟩ | ⟨p, rfl, hp⟩ | ⟨vs, k', ed, rfl, rfl, hed, hms⟩
      · refine Good.reader rfl fun u hu _ _ => ?_
        rw [same_leaf (by simp) hu]; exact ⟨_, rfl⟩
      · refine Good.reader rfl fun u hu _ _ => ?_
        obtain ⟨a, rfl, ha⟩ := same_annotated hu
        rw [same_leaf (by simp) ha]; exact ⟨_, rfl⟩
      · refine Good.reader rfl fun u hu _ _ => ?_
        rw [same_literal hu]
        have hcc := validate_kw hv (hc s rfl)
        have hcc : Json.same (.str x) (.str s) = true := Option.some.inj hcc
        simp [Json.same] at hcc
        subst hcc
        exact ⟨.str x, by simp [loads, compile, compileLit, litDeser, parse_eq, parseD, parseStr, litMem, Lit.scalar, Val.scalar, Scalar.pyEq]⟩
      · have hff := validate_kw hv (hfo p rfl)
        have hff : vc.format p x = true := Option.some.inj hff
        have hleaf : T ∈ [Ty.bool, .int, .float, .str, .datetime, .date, .time, .timedelta, .uuid, .ipv4, .ipv6] := by
          simp [textFormats] at hp
          rcases hp with ⟨_, rfl⟩ | ⟨_, rfl⟩ | ⟨_, rfl⟩ | ⟨_, rfl⟩ | ⟨_, rfl⟩ | ⟨_, rfl⟩ | ⟨_, rfl⟩ <;> simp
        refine Good.reader (piece_leaf hleaf).1 fun u hu _ _ => ?_
        rw [same_leaf hleaf hu]
        exact hS.formats p T hp x hff E
      · refine Good.reader rfl fun u hu _ _ => ?_
        rw [same_enum hu]
        have hee := validate_kw hv (he vs rfl)
        have hee : ((vs.map Json.str).any fun y => Json.same (.str x) y) = true := Option.some.inj hee
        simp only [List.any_map, List.any_eq_true, Function.comp] at hee
        obtain ⟨v, hvm, hsame⟩ := hee
        simp [Json.same] at hsame
        subst hsame
        obtain ⟨mm, hmm, hmv⟩ := hms x hvm
        unfold Reads
        rw [loads_enum hS.ok false hed]
        simp only [enumLookup, hed, Json.scalar]
        have hsome : (ed.members.findIdx? (fun m => (Scalar.str x).pyEq m.2)).isSome := by
          rw [List.findIdx?_isSome, List.any_eq_true]
          exact ⟨mm, hmm, by rw [hmv]; simp [Scalar.pyEq]⟩
        obtain ⟨i, hi⟩ := Option.isSome_iff_exists.1 hsome
        rw [hi]
        exact ⟨_, rfl⟩
    | arr n =>
      obtain ⟨kvs, x, rfl, hty, hx, hdx⟩ := hd
      obtain ⟨t, rfl, hm, ht⟩ := ht
      have htype := validate_kw hv hty
      replace htype : isJsonType c!"array" j = some true := htype
      cases j <;> simp [isJsonType] at htype
      rename_i xs
      have hit := validate_kw hv hx
      replace hit : allO (xs.map fun y => validate vc root k x y) = some true := hit
      rw [allO_true_iff] at hit
      cases hw with
      | arr hwx =>
        have hall : ∀ y ∈ xs, ¬ Json.null.Within y ∧ Reader E t y := fun y hy =>
          ih n x t y hdx ht (hwx y hy) (hi.arr y hy) (hit _ (List.mem_map.2 ⟨y, hy, rfl⟩))
        refine ⟨?_, Good.reader rfl fun u hu hp hf => ?_⟩
        · intro h
          cases h with
          | arr hy h => exact (hall _ hy).1 h
        · obtain ⟨a, rfl, ha⟩ := same_list hu
          cases hp with
          | leaf h => simp at h
          | list hpa =>
            have hread : ∀ y ∈ xs, ∃ v, loads E false a y = .ok v := fun y hy =>
              (hall y hy).2.good hS.ok (hi.arr y hy) (hall y hy).1 a ha hpa fun h => hf (.list hy h)
            unfold Reads
            rw [loads_list_eq (hpa.supported hS.ok)]
            cases hmr : mapRes (loads E false a) xs with
            | ok vs => exact ⟨_, rfl⟩
            | error e =>
              obtain ⟨pre, y, post, rfl, hy, _⟩ := (mapRes_error_iff _ _ _).1 hmr
              obtain ⟨v, hv'⟩ := hread y (by simp)
              rw [hv'] at hy; cases hy
    | oneOf ns =>
      obtain ⟨kvs, xs, rfl, hx, hdx⟩ := hd
      obtain ⟨ts, hm, hpu, hts⟩ := ht
      have hone := validate_kw hv hx
      replace hone : (match countO (xs.map fun s => validate vc root k s j) with | some n => some (n == 1) | none => none) = some true := hone
      split at hone
      · rename_i c hc
        have hc1 : c = 1 := by simpa using hone
        obtain ⟨x, hxm, hxv⟩ := List.mem_map.1 (countO_pos hc (by omega))
        obtain ⟨n, t, htm, hdn, htn⟩ := types_of_member hts hdx x hxm
        obtain ⟨h1, h2⟩ := ih n x t j hdn htn hw hi hxv
        exact ⟨h1, h2.pyUnion hm hpu htm⟩
      · cases hone
    | obj ps a req =>
      cases ps with
      | none => exact ht.elim
      | some ps =>
        obtain ⟨kvs, xs, rfl, hty, hps, hds, ha, hreq⟩ := hd
        obtain ⟨rfl, c, cd, fs, rfl, hcd, hkd, hfj, hperm, hfs⟩ := ht
        have htype := validate_kw hv hty
        replace htype : isJsonType c!"object" j = some true := htype
        cases j <;> simp [isJsonType] at htype
        rename_i kws
        obtain ⟨hf1, hf2⟩ := fields_of_prop hfs hds
        have hpk := validate_kw hv hps
        replace hpk : allO (xs.map fun p => match lookupKey p.1 kws with | some x => validate vc root k p.2 x | none => some true) = some true := hpk
        rw [allO_true_iff] at hpk
        have hpv : ∀ p ∈ xs, ∀ x, lookupKey p.1 kws = some x → validate vc root k p.2 x = some true := by
          intro p hp x hx
          have := hpk _ (List.mem_map.2 ⟨p, hp, rfl⟩)
          rw [hx] at this
          exact this
        have hak := validate_kw hv (ha false rfl)
        have hsp : schemaProperties kvs = xs := by unfold schemaProperties; rw [hps]
        replace hak : allO ((kws.filter fun kv => (lookupKey kv.1 (schemaProperties kvs)).isNone).map fun kv => validate vc root k (.bool false) kv.2) = some true := hak
        rw [hsp, allO_true_iff] at hak
        have hknown : ∀ kv ∈ kws, ∃ s, (kv.1, s) ∈ xs := by
          intro kv hkv
          cases hl : lookupKey kv.1 xs with
          | some s => exact ⟨s, lookupKey_some_mem hl⟩
          | none =>
            have := hak _ (List.mem_map.2 ⟨kv, List.mem_filter.2 ⟨hkv, by simp [hl]⟩, rfl⟩)
            cases k <;> simp [validate] at this
        cases hw with
        | obj hnd hwk =>
          have hsub : ∀ kv ∈ kws, ¬ Json.null.Within kv.2 := by
            intro kv hkv
            obtain ⟨s, hs⟩ := hknown kv hkv
            obtain ⟨_, _, _, n, t, hdn, htn⟩ := hf2 _ hs
            exact (ih n s t kv.2 hdn htn (hwk kv hkv) (hi.obj kv hkv) (hpv _ hs kv.2 (lookupKey_of_mem hnd hkv))).1
          refine ⟨?_, Good.reader rfl fun u hu hp hf => ?_⟩
          · intro h
            cases h with
            | obj hkv h => exact hsub _ hkv h
          · rw [same_cls hu] at hp hf ⊢
            cases hp with
            | leaf h => simp at h
            | @cls _ cd' hcd' hkd' hfj' how hpf =>
              rw [hcd] at hcd'
              cases hcd'
              have hr := readable_made hcd hkd hfj fun f hm => (hpf f hm).supported hS.ok
              have hh : cd.hints = cd.fields := by simp [ClassDef.hints, hkd]
              have hfield : ∀ f ∈ cd.fields, ∃ v, readField E false cd.kind f kws = .ok v := by
                intro f hfm
                obtain ⟨n, s, t, hxm, hdn, hm, htn, hft⟩ := hf1 f (hperm.mem_iff.1 hfm)
                unfold readField
                rw [how f hfm]
                cases hl : lookupKey f.name kws with
                | none =>
                  have hnr : f.name ∉ req.getD [] := by
                    intro hmem
                    cases req with
                    | none => simp at hmem
                    | some rs =>
                      have hrk := validate_kw hv (hreq rs rfl)
                      replace hrk : allO ((rs.map Json.str).map fun r => match r with | .str n => some (lookupKey n kws).isSome | _ => none) = some true := hrk
                      rw [allO_true_iff] at hrk
                      have := hrk _ (List.mem_map.2 ⟨.str f.name, List.mem_map.2 ⟨f.name, hmem, rfl⟩, rfl⟩)
                      simp [hl] at this
                  rw [if_neg hnr] at hft
                  have hopt := (optional_made hm hft).1
                  have : ∃ v, absentValue cd.kind f = some v := by
                    rw [hkd]
                    unfold absentValue
                    cases f.dflt <;> simp [hopt]
                  obtain ⟨v, hv'⟩ := this
                  exact ⟨v, by simp only [hv']⟩
                | some x =>
                  have hxk := lookupKey_some_mem hl
                  obtain ⟨hnx, hrx⟩ := ih n s t x hdn htn (hwk _ hxk) (hi.obj _ hxk) (hpv _ hxm x hl)
                  have hread : Reads E (fieldTy cd.kind f) x := by
                    have hR : Reader E (fieldTy cd.kind f) x := by
                      have : fieldTy cd.kind f = f.ty.required := by rw [hkd]; rfl
                      rw [this]
                      split at hft
                      · rw [hft, Ty.required, if_neg (by simp [hm.notOptional])]; exact hrx
                      · exact hrx.optional hm hft
                    refine hR.good hS.ok (hi.obj _ hxk) hnx _ (Ty.same_refl _) (hpf f hfm) fun h => hf ?_
                    exact .cls hcd hfm (by rw [how f hfm]; exact hl) h
                  cases x with
                  | null => exact absurd .self hnx
                  | _ => exact hread
              unfold Reads
              rw [loads_cls_obj hS.ok false hr]
              cases hmr : mapRes (readNamed E false cd.kind kws) cd.hints with
              | error e =>
                obtain ⟨pre, f, post, hl, hx, _⟩ := (mapRes_error_iff _ _ _).1 hmr
                obtain ⟨v, hv'⟩ := hfield f (by rw [← hh, hl]; simp)
                simp [readNamed, hv'] at hx
              | ok vs =>
                simp only
                rw [if_pos]
                · exact ⟨_, rfl⟩
                · right
                  intro kv hkv
                  obtain ⟨s, hs⟩ := hknown kv hkv
                  obtain ⟨f, hfm, hfn, _⟩ := hf2 _ hs
                  have hfm' := hperm.mem_iff.2 hfm
                  exact ⟨f, by rw [hh]; exact hfm', by rw [how f hfm']; exact hfn⟩

end Verif
