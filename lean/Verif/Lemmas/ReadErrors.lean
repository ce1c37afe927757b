import Verif.Spec.Raises
import Verif.Lemmas.LeafErrors
import Verif.Props.C12_TypeSafety
import Verif.Props.C28_C29_Cache
import Verif.Props.C03_C04_Base64
import Verif.Props.C10_Scalars
/-!
# Exceptions of readers: none but those of the specification, and those of types without unions all occur
-/
namespace Verif

theorem strLeaf_error {f : Str → Res α} {mk : α → Val} {j : Json} {e : Err} (h : strLeaf f mk j = .error e) :
    e = .jsonType ∨ ∃ s, f s = .error e := by
  cases j <;> simp only [strLeaf] at h <;> first | (cases h; exact .inl rfl) | skip
  rename_i s
  split at h
  · cases h
  · rename_i e' he; cases h; exact .inr ⟨s, he⟩

theorem intToFloat_error {i : Int} {e : Err} (h : intToFloat i = .error e) : e = .overflow := by
  unfold intToFloat at h
  simp only at h
  repeat' split at h
  all_goals first | (cases h; rfl) | cases h

theorem parseFloat_error {j : Json} {e : Err} (h : parseFloat j = .error e) : e = .jsonType ∨ e = .overflow := by
  cases j <;> simp only [parseFloat] at h <;> first | (cases h; exact .inl rfl) | cases h | skip
  all_goals
    split at h
    · cases h
    · rename_i h1; cases h; exact .inr (intToFloat_error h1)

theorem enumLookup_error {env : Env} {n : Nat} {ed : EnumDef} (hn : env.enums[n]? = some ed) {j : Json} {e : Err}
    (h : enumLookup env n j = .error e) : e = .valueError ∨ (e = .outOfModel ∧ HasNaN env n ∧ j = .float .nan) := by
  unfold enumLookup at h
  rw [hn] at h
  simp only at h
  split at h
  · cases h; exact .inl rfl
  · rename_i s hs
    split at h
    · cases h
    · split at h
      · rename_i hc
        cases h
        obtain ⟨hc1, hc2⟩ := hc
        obtain ⟨⟨name, x⟩, hx, hx2⟩ := List.any_eq_true.1 hc2
        refine .inr ⟨rfl, ⟨ed, hn, name, ?_⟩, ?_⟩
        · simp only [decide_eq_true_eq] at hx2; rw [← hx2]; exact hx
        · subst hc1
          cases j <;> simp [Json.scalar] at hs
          rw [hs]
      · cases h; exact .inl rfl

theorem parsePairs_errors {env : Env} {k : KeyTy} {d : Deser} {fs : List (Str × Json × (Deser → Res Val))} {acc} {e : Err}
    (h : parsePairs env k d acc fs = .error e) : ∃ f ∈ fs, parseKey env k f.1 = .error e ∨ f.2.2 d = .error e := by
  induction fs generalizing acc with
  | nil => cases h
  | cons f fs ih =>
    obtain ⟨s, j, g⟩ := f
    simp only [parsePairs] at h
    split at h
    · rename_i e' he; cases h; exact ⟨_, List.mem_cons_self, .inl he⟩
    · split at h
      · rename_i e' he; cases h; exact ⟨_, List.mem_cons_self, .inr he⟩
      · obtain ⟨f, hf, h2⟩ := ih h
        exact ⟨f, by simp [hf], h2⟩

theorem parseSetItems_error {env : Env} {d : Deser} {fs : List (Deser → Res Val)} {acc} {e : Err}
    (h : parseSetItems env d acc fs = .error e) :
    ∃ f ∈ fs, f d = .error e ∨ (e = .typeError ∧ ∃ v, f d = .ok v ∧ hashable env v = false) := by
  induction fs generalizing acc with
  | nil => cases h
  | cons f fs ih =>
    simp only [parseSetItems] at h
    split at h
    · rename_i e' he; cases h; exact ⟨_, List.mem_cons_self, .inl he⟩
    · rename_i v hv
      split at h
      · rename_i e' he
        cases h
        unfold setAdd at he
        split at he
        · cases he
        · rename_i hh
          cases he
          exact ⟨_, List.mem_cons_self, .inr ⟨rfl, v, hv, by simpa using hh⟩⟩
      · obtain ⟨f, hf, h2⟩ := ih h
        exact ⟨f, by simp [hf], h2⟩

theorem readField_error {env : Env} {skip : Bool} {kind : ClassKind} {f : FieldDef} {kvs : List (Str × Json)} {e : Err}
    (h : readField env skip kind f kvs = .error e) :
    (IsRequired kind f ∧ (e = .jsonKey ∨ e = .jsonValue)) ∨
      ∃ x, (fieldProp kind f, x) ∈ kvs ∧ loads env skip (fieldTy kind f) x = .error e := by
  unfold readField at h
  split at h
  · split at h
    · cases h
    · rename_i hr; cases h; exact .inl ⟨hr, .inl rfl⟩
  · split at h
    · cases h
    · rename_i hr; cases h; exact .inl ⟨hr, .inr rfl⟩
  · rename_i x _ hl; exact .inr ⟨x, lookupKey_some_mem hl, h⟩

/-- Only the exceptions of the specification can be raised. -/
theorem loads_mayRaise (env : Env) (hk : env.Ok) (skip : Bool) (t : Ty) (hs : Supported env t) (j : Json) (hj : j.Wf) (e : Err)
    (h : loads env skip t j = .error e) : MayRaise env skip t e := by
  revert hs hj e
  refine json_ty_induction (P := fun j t => Supported env t → j.Wf → ∀ e, loads env skip t j = .error e →
    MayRaise env skip t e) ?_ j t
  intro j t ihj iht hs hj e h
  have leaf : ∀ {α : Type} {f : Str → Res α} {mk : α → Val}, loads env skip t j = strLeaf f mk j → Err.jsonType ∈ scalarErrors t →
      (∀ s e, f s = .error e → e ∈ scalarErrors t) → MayRaise env skip t e := by
    intro α f mk h1 h2 h3
    rw [h1] at h
    rcases strLeaf_error h with rfl | ⟨s, hs⟩
    · exact .scalar h2
    · exact .scalar (h3 s e hs)
  have ve : ∀ {α : Type} {f : Str → Res α}, (∀ s, OnlyVE (f s)) → Err.valueError ∈ scalarErrors t →
      ∀ s e, f s = .error e → e ∈ scalarErrors t := by
    intro α f h1 h2 s e h3
    rw [h1 s e h3]; exact h2
  have wfItem : ∀ {xs x}, j = .arr xs → x ∈ xs → x.Wf := by
    rintro xs x rfl hx; cases hj with | arr h => exact h x hx
  have wfProp : ∀ {kvs kv}, j = .obj kvs → kv ∈ kvs → kv.2.Wf := by
    rintro kvs kv rfl hx; cases hj with | obj _ h => exact h kv hx
  cases t with
  | none => refine .scalar ?_; cases j <;> cases h <;> simp [scalarErrors]
  | bool => refine .scalar ?_; cases j <;> cases h <;> simp [scalarErrors]
  | int => refine .scalar ?_; cases j <;> cases h <;> simp [scalarErrors]
  | str => refine .scalar ?_; cases j <;> cases h <;> simp [scalarErrors]
  | float =>
    rw [loads_of_compile (d := .float) rfl, parse_eq] at h
    rcases parseFloat_error h with rfl | rfl <;> exact .scalar (by simp [scalarErrors])
  | bytes =>
    exact leaf (by rw [loads_of_compile (d := .bytes) rfl, parse_eq]; rfl) (by simp [scalarErrors])
      (ve (fun s e h => b64Decode_error h) (by simp [scalarErrors]))
  | datetime =>
    exact leaf (by rw [loads_of_compile (d := .datetime) rfl, parse_eq]; rfl) (by simp [scalarErrors])
      (fun s e h => by rcases dtParse_errors h with rfl | rfl <;> simp [scalarErrors])
  | date =>
    exact leaf (by rw [loads_of_compile (d := .date) rfl, parse_eq]; rfl) (by simp [scalarErrors])
      (ve dateFromIso_ve (by simp [scalarErrors]))
  | time =>
    exact leaf (by rw [loads_of_compile (d := .time) rfl, parse_eq]; rfl) (by simp [scalarErrors])
      (ve timeFromIso_ve (by simp [scalarErrors]))
  | timedelta =>
    exact leaf (by rw [loads_of_compile (d := .timedelta) rfl, parse_eq]; rfl) (by simp [scalarErrors])
      (fun s e h => by
        rcases (C02_parse_error_iff s e).1 h with ⟨rfl, _⟩ | ⟨rfl, _⟩ | ⟨rfl, _⟩ <;> simp [scalarErrors])
  | uuid =>
    exact leaf (by rw [loads_of_compile (d := .uuid) rfl, parse_eq]; rfl) (by simp [scalarErrors])
      (fun s e h => by rcases uuidParse_errors h with rfl | rfl <;> simp [scalarErrors])
  | ipv4 =>
    exact leaf (by rw [loads_of_compile (d := .ipv4) rfl, parse_eq]; rfl) (by simp [scalarErrors])
      (ve ipv4Parse_ve (by simp [scalarErrors]))
  | ipv6 =>
    exact leaf (by rw [loads_of_compile (d := .ipv6) rfl, parse_eq]; rfl) (by simp [scalarErrors])
      (ve ipv6Parse_ve (by simp [scalarErrors]))
  | bareList | bareDict | bareSet | bareTuple => obtain ⟨d, hd⟩ := hs; cases hd
  | list t =>
    by_cases hx : ∃ xs, j = .arr xs
    · obtain ⟨xs, rfl⟩ := hx
      obtain ⟨d, hd⟩ := supported_list hs
      rw [loads_of_compile (d := .list d) (by simp [compile, hd]), parse_list_arr] at h
      split at h
      · cases h
      · rename_i e' he
        cases h
        obtain ⟨_, x, _, rfl, hx, _⟩ := (mapRes_error_iff _ _ _).1 he
        rw [← loads_of_compile hd] at hx
        exact .item (ihj x t (sizeOf_arr (by simp)) ⟨d, hd⟩ (wfItem rfl (by simp)) e hx)
    · rw [C15_wrong_kind env skip j _ hs (fun xs hx' => hx ⟨xs, hx'⟩)] at h
      cases h; exact .list
  | set t =>
    by_cases hx : ∃ xs, j = .arr xs
    · obtain ⟨xs, rfl⟩ := hx
      obtain ⟨d, hd⟩ := supported_set hs
      rw [loads_of_compile (d := .set d) (by simp [compile, hd]), parse_eq] at h
      simp only [parseD, kidsOf, parseSetK] at h
      split at h
      · cases h
      · rename_i e' he
        cases h
        obtain ⟨f, hf, h1⟩ := parseSetItems_error he
        obtain ⟨x, hx, rfl⟩ := List.mem_map.1 hf
        rcases h1 with h1 | ⟨rfl, v, h1, h2⟩
        · rw [← loads_of_compile hd] at h1
          exact .member (ihj x t (sizeOf_arr hx) ⟨d, hd⟩ (wfItem rfl hx) e h1)
        · rw [← loads_of_compile hd] at h1
          exact .unhashable (wfItem rfl hx) h1 h2
    · rw [C15_wrong_kind env skip j _ hs (fun xs hx' => hx ⟨xs, hx'⟩)] at h
      cases h; exact .set
  | dict k t =>
    by_cases hx : ∃ kvs, j = .obj kvs
    · obtain ⟨kvs, rfl⟩ := hx
      obtain ⟨d, hd, hc⟩ := supported_dict hs
      rw [loads_of_compile hc, parse_eq] at h
      simp only [parseD, kidsOf, parseDictK] at h
      split at h
      · cases h
      · rename_i e' he
        cases h
        obtain ⟨f, hf, h1⟩ := parsePairs_errors he
        obtain ⟨x, hx, rfl⟩ := List.mem_map.1 hf
        rcases h1 with h1 | h1
        · have hck : checkKeyTy env k = .ok () := by
            simp only [compile] at hc
            split at hc
            · cases hc
            · assumption
          cases k with
          | str => cases h1
          | int | other => cases hck
          | enum n =>
            simp only [checkKeyTy] at hck
            split at hck
            · cases hck
            · rename_i ed hn
              have : e = .valueError := by
                simp only [parseKey] at h1
                split at h1
                · cases h1
                · rename_i v hv1 hv2
                  obtain ⟨_, _, _, _, _, rfl⟩ := enumLookup_str hv2
                  exact absurd rfl (hv1 _ _)
                · rename_i h2
                  cases h1
                  rcases enumLookup_error hn h2 with h3 | ⟨_, _, h3⟩
                  · exact h3
                  · cases h3
              rw [this]; exact .key
        · simp only at h1
          rw [← loads_of_compile hd] at h1
          exact .value (ihj x.2 t (sizeOf_obj hx) ⟨d, hd⟩ (wfProp rfl hx) e h1)
    · rw [C15_wrong_kind env skip j _ hs (fun xs hx' => hx ⟨xs, hx'⟩)] at h
      cases h; exact .dict
  | tuple ts =>
    by_cases hx : ∃ xs, j = .arr xs
    · obtain ⟨xs, rfl⟩ := hx
      obtain ⟨d, hd⟩ := hs
      rw [loads_of_compile hd] at h
      simp only [compile] at hd
      split at hd
      · rename_i ds hds
        cases hd
        have ha := compileL_ok.1 hds
        rw [parse_tuple_arr] at h
        split at h
        · cases h; exact .length
        · split at h
          · cases h
          · rename_i e' he
            cases h
            obtain ⟨pre, p, post, hz, hp, _⟩ := (mapRes_error_iff _ _ _).1 he
            have hm : p ∈ xs.zip ds := by rw [hz]; simp
            obtain ⟨x, d⟩ := p
            have h1 := List.of_mem_zip hm
            obtain ⟨u, hu, hc⟩ := ha.mem_right h1.2
            simp only at hp
            rw [← loads_of_compile hc] at hp
            exact .component hu (ihj x u (sizeOf_arr h1.1) ⟨d, hc⟩ (wfItem rfl h1.1) e hp)
      · cases hd
    · rw [C15_wrong_kind env skip j _ hs (fun xs hx' => hx ⟨xs, hx'⟩)] at h
      cases h; exact .tuple
  | annotated t ms => exact .annotated (iht t (by simp; omega) hs hj e h)
  | enum n =>
    obtain ⟨d, hd⟩ := hs
    cases he : env.enums[n]? with
    | none => simp [compile, tyKey, he] at hd
    | some ed =>
      rw [loads_enum hk skip he] at h
      rcases enumLookup_error he h with rfl | ⟨rfl, h1, _⟩
      · exact .scalar (by simp [scalarErrors])
      · exact .nan h1
  | literal ls =>
    obtain ⟨d, hd⟩ := hs
    rw [loads_of_compile hd] at h
    simp only [compile, compileLit] at hd
    cases ls with
    | nil => cases hd
    | cons l0 r =>
      simp only at hd
      split at hd
      · cases hld : litDeser env l0 with
        | error e => rw [hld] at hd; cases hd
        | ok d0 =>
          rw [hld] at hd
          cases hd
          rw [parse_literal] at h
          cases l0 with
          | enum n m =>
            have hc : compile env (.enum n) = .ok d0 := hld
            rw [← loads_of_compile hc] at h
            split at h
            · rename_i e' he
              cases h
              refine .literalEnum (n := n) (m := m) (by simp) ?_
              cases hn : env.enums[n]? with
              | none => simp [compile, tyKey, hn] at hc
              | some ed =>
                rw [loads_enum hk skip hn] at he
                rcases enumLookup_error hn he with rfl | ⟨rfl, h1, _⟩
                · exact .scalar (by simp [scalarErrors])
                · exact .nan h1
            · rename_i v hv
              split at h
              · cases h
              · rename_i hm
                cases h
                cases hn : env.enums[n]? with
                | none => simp [compile, tyKey, hn] at hc
                | some ed =>
                  have hv' := hv
                  rw [loads_enum hk skip hn] at hv'
                  obtain ⟨_, k, _, _, rfl⟩ := enumLookup_ok hv'
                  refine .literalOther (n := n) (m := m) (k := k) (j := j) (by simp) hj hv ?_
                  intro hmem
                  apply hm
                  exact List.any_eq_true.2 ⟨.enum n k, hmem, by simp⟩
          | _ =>
            cases hld
            have : e = .jsonType := by
              split at h
              · rename_i e' he
                cases h
                cases j <;> cases he <;> rfl
              · split at h
                · cases h
                · cases h; rfl
            rw [this]
            exact .literal List.mem_cons_self (by intros; simp)
      · cases hd
  | union ts =>
    by_cases ht : ∃ p, IsTag env ts p
    · obtain ⟨p, hp⟩ := ht
      obtain ⟨table, h1, h2, h3⟩ := compile_tagged hk ⟨p, hp⟩ hs
      rw [loads_of_compile h1, parse_tagged] at h
      cases j with
      | obj kvs =>
        simp only at h
        by_cases hex : ∃ p ∈ env.setOrder (discProps env ts), ∃ x, Present kvs p x
        · obtain ⟨q, hq, y, hy, he⟩ := taggedLoop_present (run := fun k => parse env (fullHeap env skip) (.obj kvs) (.ref k))
            (table := table) hex
          rw [he] at h
          split at h
          · cases h; exact .tagShape hp
          · split at h
            · cases h; exact .noTag hp
            · rename_i k hkk
              obtain ⟨l, hl, _⟩ := tagLookup_some hkk
              obtain ⟨u, hu, _, _, hkey⟩ := (h3 _ _ _).1 hl
              obtain ⟨c, cd, _, hcu, hc, _⟩ := hp.2 u hu
              rw [parse_key_eq_loads hcu hkey] at h
              refine .tagged hp hu (iht u (sizeOf_mem_union hu) ?_ hj e h)
              subst hcu
              exact ⟨_, compile_cls hc⟩
        · rw [taggedLoop_absent (fun q hq x hx => hex ⟨q, hq, x, hx⟩)] at h
          cases h; exact .noTag hp
      | _ => cases h; exact .noTag hp
    · have hnil : discProps env ts = [] := by
        cases hd : discProps env ts with
        | nil => rfl
        | cons p ps => exact absurd ⟨p, mem_discProps.1 (by rw [hd]; simp)⟩ ht
      have hu := (discProps_nil_iff env ts).1 hnil
      have hs' : ∀ t ∈ ts, Supported env t := by
        obtain ⟨d, hd⟩ := hs
        simp only [compile] at hd
        rw [if_pos hnil] at hd
        split at hd
        · rename_i ds hds
          intro t htm
          obtain ⟨d', _, h2⟩ := (compileL_ok.1 hds).mem_left htm
          exact ⟨d', h2⟩
        · cases hd
      rcases (C21_error_iff env skip ts hu hs' j e).1 h with ⟨rfl, _⟩ | ⟨pre, u, post, rfl, h1, h2, h3, _⟩
      · exact .noMatch hu
      · exact .alternative hu (t := u) (by simp) (iht u (sizeOf_mem_union (by simp)) (hs' u (by simp)) hj e h3) h1 h2
  | cls c =>
    obtain ⟨d, hd⟩ := hs
    cases hc : env.classes[c]? with
    | none => simp [compile, tyKey, hc] at hd
    | some cd =>
      cases hcu : cd.custom with
      | true =>
        cases hf : cd.fromJson with
        | none => unfold ClassDef.custom at hcu; rw [hf] at hcu; split at hcu <;> cases hcu
        | some f =>
          rw [loads_custom hk skip hc hcu hf] at h
          exact .hook hc hcu hf hj h
      | false =>
        cases hcf : compileFields env cd with
        | error e' =>
          rw [loads_of_compile (compile_cls hc), parse_ref] at h
          simp only [parseRef, fullHeap_cls hk skip hc, classEntry, hcu, hcf] at h
          have hnb : ¬ Buildable env c := by
            rintro ⟨cd', h1, h2⟩
            rw [hc] at h1; cases h1
            obtain ⟨fds, h3, _⟩ := compileFields_of (h2 hcu)
            rw [hcf] at h3; cases h3
          cases j <;> simp [kidsOf, parseCls] at h <;> subst h <;> first | exact .cls hc hcu .shape | exact .unbuilt hnb
        | ok fds =>
          have hsup := supported_of_compileFields hcf
          by_cases hty : cd.kind = .namedTuple false → cd.fields = []
          · have hr : Readable env c cd := ⟨hc, hcu, hty, hsup⟩
            by_cases hx : ∃ kvs, j = .obj kvs
            · obtain ⟨kvs, rfl⟩ := hx
              rw [loads_cls_obj hk skip hr] at h
              split at h
              · rename_i e' he
                cases h
                obtain ⟨pre, f, post, hh, hf, _⟩ := (mapRes_error_iff _ _ _).1 he
                have hfm : f ∈ cd.hints := by rw [hh]; simp
                have hf' : readField env skip cd.kind f kvs = .error e := by
                  unfold readNamed at hf
                  split at hf
                  · cases hf
                  · rename_i hf2; cases hf; exact hf2
                rcases readField_error hf' with ⟨hreq, rfl | rfl⟩ | ⟨x, hx, h1⟩
                · exact .cls hc hcu (.missing hfm hreq)
                · exact .cls hc hcu (.null hfm hreq)
                · exact .field hc hcu hfm (ihj x _ (sizeOf_obj hx) (hsup f hfm) (wfProp rfl hx) e h1)
              · split at h
                · cases h
                · rename_i hcond
                  cases h
                  refine .cls hc hcu (.unknown ?_)
                  cases skip
                  · rfl
                  · exact absurd (.inl rfl) hcond
            · rw [loads_cls_not_obj hk skip hr j (fun kvs hx' => hx ⟨kvs, hx'⟩)] at h
              cases h; exact .cls hc hcu .shape
          · obtain ⟨hkind, hne⟩ : cd.kind = .namedTuple false ∧ cd.fields ≠ [] := by
              rcases Classical.em (cd.kind = .namedTuple false) with h1 | h1
              · exact ⟨h1, fun h2 => hty fun _ => h2⟩
              · exact absurd (fun h2 => absurd h2 h1) hty
            have hfds : fds = [] := by
              unfold compileFields ClassDef.hints at hcf
              rw [hkind] at hcf
              simp only [mapRes] at hcf
              cases hcf; rfl
            rw [loads_cls hk skip hc hcu hcf] at h
            subst hfds
            cases j with
            | obj kvs =>
              simp only [kidsOf, parseCls, parseFields, mapRes] at h
              split at h
              · have : e = .typeError := by
                  simp [createObj, hc, hkind, hne] at h
                  exact h.symm
                rw [this]; exact .untyped hc hkind hne
              · rename_i hcond
                cases h
                refine .cls hc hcu (.unknown ?_)
                cases skip
                · rfl
                · simp at hcond
            | _ => cases h; exact .cls hc hcu .shape


/-! ### Every exception of the specification occurs -/

/-- Some document, not `null`, makes reading fail in this way. -/
private def Occurs (env : Env) (skip : Bool) (t : Ty) (e : Err) : Prop := ∃ j, j.Wf ∧ j ≠ .null ∧ loads env skip t j = .error e

private theorem occurs_arr {env : Env} {skip : Bool} {t : Ty} {e : Err} (h : loads env skip t (.arr []) = .error e) :
    Occurs env skip t e := ⟨.arr [], .arr (by simp), by simp, h⟩

private theorem occurs_str {env : Env} {skip : Bool} {t : Ty} {e : Err} (s : Str) (h : loads env skip t (.str s) = .error e) :
    Occurs env skip t e := ⟨.str s, .str, by simp, h⟩

private theorem long_duration {s : Str} (hd : ∀ c ∈ s, isDig c = true) (hl : 4300 < s.length) :
    tdParse ('P' :: s ++ ['D']) = .error .valueError := by
  have hwf : DurSyntax.Wf ⟨none, some s, none⟩ := by
    constructor
    · intro n hn
      simp only [DurSyntax.numerals, Option.toList, List.mem_append, List.mem_singleton, List.not_mem_nil, false_or, or_false] at hn
      subst hn
      exact ⟨by rintro rfl; simp at hl, hd⟩
    · intro f hf; cases hf
  have ht : DurSyntax.text ⟨none, some s, none⟩ = 'P' :: s ++ ['D'] := by
    simp [DurSyntax.text, unitText]
  rcases tdParse_text ⟨none, some s, none⟩ hwf [] (.inl rfl) _ rfl with ⟨_, h⟩ | ⟨h, _⟩ | ⟨h, _⟩ | ⟨h, _⟩
  · rw [ht] at h; simpa using h
  all_goals
    have := h s (by simp [DurSyntax.numerals])
    omega

private theorem scalar_occurs {env : Env} (hk : env.Ok) {skip : Bool} {t : Ty} (hs : Supported env t) {e : Err}
    (h : e ∈ scalarErrors t) : Occurs env skip t e := by
  cases t <;> simp only [scalarErrors, List.mem_cons, List.not_mem_nil, or_false] at h
  case none => subst h; exact occurs_arr rfl
  case bool => subst h; exact occurs_arr rfl
  case int => subst h; exact occurs_arr rfl
  case str => subst h; exact occurs_arr rfl
  case float =>
    rcases h with rfl | rfl
    · exact occurs_arr rfl
    · refine ⟨.int (2 ^ 1024), .int, (fun h => by cases h), (C10_int_as_float_overflow env skip _).2 ?_⟩
      decide +kernel
  case bytes =>
    rcases h with rfl | rfl
    · exact occurs_arr rfl
    · exact occurs_str c!"A" rfl
  case datetime =>
    rcases h with rfl | rfl | rfl
    · exact occurs_arr rfl
    · exact occurs_str c!"A" rfl
    · exact occurs_str c!"2020-01-01" rfl
  case date =>
    rcases h with rfl | rfl
    · exact occurs_arr rfl
    · exact occurs_str c!"A" rfl
  case time =>
    rcases h with rfl | rfl
    · exact occurs_arr rfl
    · exact occurs_str c!"A" rfl
  case timedelta =>
    rcases h with rfl | rfl | rfl | rfl
    · exact occurs_arr rfl
    · obtain ⟨s, hs1, hs2⟩ : ∃ s : Str, (∀ c ∈ s, isDig c = true) ∧ 4300 < s.length :=
        ⟨List.replicate 4301 '1', fun c hc => by rw [(List.mem_replicate.1 hc).2]; rfl, by rw [List.length_replicate]; omega⟩
      refine occurs_str ('P' :: s ++ ['D']) ?_
      rw [loads_of_compile (d := .timedelta) rfl, parse_eq]
      simp only [parseD, strLeaf, long_duration hs1 hs2]
    · exact occurs_str c!"A" rfl
    · exact occurs_str c!"P1000000000D" (by with_unfolding_all rfl)
  case uuid =>
    rcases h with rfl | rfl | rfl
    · exact occurs_arr rfl
    · exact occurs_str c!"A" rfl
    · exact occurs_str (List.replicate 32 'é') rfl
  case ipv4 =>
    rcases h with rfl | rfl
    · exact occurs_arr rfl
    · exact occurs_str c!"A" rfl
  case ipv6 =>
    rcases h with rfl | rfl
    · exact occurs_arr rfl
    · exact occurs_str c!"A" rfl
  case enum n =>
    subst h
    obtain ⟨d, hd⟩ := hs
    cases he : env.enums[n]? with
    | none => simp [compile, tyKey, he] at hd
    | some ed =>
      refine occurs_arr ?_
      rw [loads_enum hk skip he]
      simp [enumLookup, he, Json.scalar]

private theorem str_fresh (l : List Str) : ∃ s, s ∉ l := by
  have : ∀ l : List Str, ∃ n, ∀ s ∈ l, s.length < n := by
    intro l
    induction l with
    | nil => exact ⟨0, by simp⟩
    | cons a l ih =>
      obtain ⟨n, hn⟩ := ih
      refine ⟨n + a.length + 1, ?_⟩
      intro s hs
      rcases List.mem_cons.1 hs with rfl | hs
      · omega
      · have := hn s hs; omega
  obtain ⟨n, hn⟩ := this l
  refine ⟨List.replicate n 'a', fun h => ?_⟩
  have := hn _ h
  rw [List.length_replicate] at this
  omega

/-- Samples for some fields of a class. -/
private theorem samples {env : Env} {skip : Bool} {kind : ClassKind} (fs : List FieldDef)
    (h : ∀ f ∈ fs, HasSample env skip (fieldTy kind f)) (hn : (fs.map (fieldProp kind)).Nodup) :
    ∃ kvs : List (Str × Json), kvs.map (·.1) = fs.map (fieldProp kind) ∧ (∀ kv ∈ kvs, kv.2.Wf) ∧
      ∀ f ∈ fs, ∃ x v, lookupKey (fieldProp kind f) kvs = some x ∧ x ≠ .null ∧ loads env skip (fieldTy kind f) x = .ok v := by
  induction fs with
  | nil => exact ⟨[], rfl, by simp, by simp⟩
  | cons f fs ih =>
    simp only [List.map_cons, List.nodup_cons] at hn
    obtain ⟨kvs, h1, h2, h3⟩ := ih (fun g hg => h g (by simp [hg])) hn.2
    obtain ⟨x, v, hx1, hx2, hx3⟩ := h f (by simp)
    refine ⟨(fieldProp kind f, x) :: kvs, by simp [h1], ?_, ?_⟩
    · intro kv hkv
      rcases List.mem_cons.1 hkv with rfl | hkv
      · exact hx1
      · exact h2 kv hkv
    · intro g hg
      rcases List.mem_cons.1 hg with rfl | hg
      · exact ⟨x, v, by simp [lookupKey], hx2, hx3⟩
      · obtain ⟨y, w, hy1, hy2, hy3⟩ := h3 g hg
        refine ⟨y, w, ?_, hy2, hy3⟩
        simp only [lookupKey]
        rw [if_neg]
        · exact hy1
        · intro he
          exact hn.1 (he ▸ List.mem_map_of_mem hg)

private theorem lookupKey_append_left {k : Str} {kvs kvs' : List (Str × Json)} {x : Json} (h : lookupKey k kvs = some x) :
    lookupKey k (kvs ++ kvs') = some x := by
  induction kvs with
  | nil => cases h
  | cons kv kvs ih =>
    obtain ⟨k', y⟩ := kv
    simp only [List.cons_append, lookupKey] at h ⊢
    split
    · rename_i hk; rw [if_pos hk] at h; exact h
    · rename_i hk; rw [if_neg hk] at h; exact ih h

private theorem lookupKey_append_right {k : Str} {kvs kvs' : List (Str × Json)} (h : k ∉ kvs.map (·.1)) :
    lookupKey k (kvs ++ kvs') = lookupKey k kvs' := by
  induction kvs with
  | nil => rfl
  | cons kv kvs ih =>
    obtain ⟨k', y⟩ := kv
    simp only [List.map_cons, List.mem_cons, not_or] at h
    simp only [List.cons_append, lookupKey]
    rw [if_neg (fun e => h.1 e.symm)]
    exact ih h.2

private theorem readField_sample {env : Env} {skip : Bool} {kind : ClassKind} {f : FieldDef} {kvs : List (Str × Json)} {x : Json}
    (hl : lookupKey (fieldProp kind f) kvs = some x) (hx : x ≠ .null) :
    readField env skip kind f kvs = loads env skip (fieldTy kind f) x := by
  unfold readField
  rw [hl]
  cases x <;> first | rfl | exact absurd rfl hx

/-- Exceptions of a class: of the properties in front of a field there are samples, and this field decides. -/
private theorem cls_occurs {env : Env} (hk : env.Ok) {skip : Bool} {c : Nat} {cd : ClassDef} (hr : Readable env c cd)
    (hn : (cd.hints.map (fieldProp cd.kind)).Nodup) (hsam : ∀ f ∈ cd.hints, HasSample env skip (fieldTy cd.kind f))
    {f : FieldDef} (hf : f ∈ cd.hints) {e : Err} {o : Option Json} (ho : ∀ x ∈ o, x.Wf)
    (hread : ∀ kvs, lookupKey (fieldProp cd.kind f) kvs = o → readField env skip cd.kind f kvs = .error e) :
    Occurs env skip (.cls c) e := by
  obtain ⟨pre, post, hh⟩ := List.append_of_mem hf
  rw [hh] at hn
  simp only [List.map_append, List.map_cons] at hn
  have hnp := List.nodup_append.1 hn
  have hfp : fieldProp cd.kind f ∉ pre.map (fieldProp cd.kind) := fun hm => hnp.2.2 _ hm _ (by simp) rfl
  obtain ⟨kvs, h1, h2, h3⟩ := samples (env := env) (skip := skip) pre (fun g hg => hsam g (by rw [hh]; simp [hg])) hnp.1
  let last := o.toList.map (fun x => (fieldProp cd.kind f, x))
  have hlast : lookupKey (fieldProp cd.kind f) last = o := by
    cases o <;> simp [last, lookupKey]
  refine ⟨.obj (kvs ++ last), .obj ?_ ?_, by simp, ?_⟩
  · rw [List.map_append, h1, List.nodup_append]
    refine ⟨hnp.1, by cases o <;> simp [last], ?_⟩
    rintro a ha b hb rfl
    have : a = fieldProp cd.kind f := by
      cases o <;> simp [last] at hb
      exact hb
    exact hfp (this ▸ ha)
  · intro kv hkv
    rcases List.mem_append.1 hkv with hkv | hkv
    · exact h2 kv hkv
    · cases o with
      | none => simp [last] at hkv
      | some x => simp [last] at hkv; rw [hkv]; exact ho x rfl
  · refine loads_cls_first_error hk skip hr hh ?_ (hread _ (by rw [lookupKey_append_right (by rw [h1]; exact hfp), hlast]))
    intro g hg
    obtain ⟨x, v, h4, h5, h6⟩ := h3 g hg
    exact ⟨v, by rw [readField_sample (lookupKey_append_left h4) h5, h6]⟩

private theorem unknown_occurs {env : Env} (hk : env.Ok) {c : Nat} {cd : ClassDef} (hr : Readable env c cd)
    (hn : (cd.hints.map (fieldProp cd.kind)).Nodup) (hsam : ∀ f ∈ cd.hints, HasSample env false (fieldTy cd.kind f)) :
    Occurs env false (.cls c) .jsonKey := by
  obtain ⟨kvs, h1, h2, h3⟩ := samples (env := env) (skip := false) cd.hints hsam hn
  obtain ⟨s, hs⟩ := str_fresh (cd.hints.map (fieldProp cd.kind))
  refine ⟨.obj (kvs ++ [(s, .null)]), .obj ?_ ?_, by simp, ?_⟩
  · rw [List.map_append, h1, List.nodup_append]
    refine ⟨hn, by simp, ?_⟩
    rintro a ha b hb rfl
    simp at hb
    exact hs (hb ▸ ha)
  · intro kv hkv
    rcases List.mem_append.1 hkv with hkv | hkv
    · exact h2 kv hkv
    · simp at hkv; rw [hkv]; exact .null
  · rw [loads_cls_obj hk false hr]
    have : ∀ g ∈ cd.hints, ∃ v, readNamed env false cd.kind (kvs ++ [(s, .null)]) g = .ok v := by
      intro g hg
      obtain ⟨x, v, h4, h5, h6⟩ := h3 g hg
      exact ⟨(g.name, v), by unfold readNamed; rw [readField_sample (lookupKey_append_left h4) h5, h6]⟩
    split
    · rename_i e he
      obtain ⟨_, g, _, hh, hg, _⟩ := (mapRes_error_iff _ _ _).1 he
      obtain ⟨v, hv⟩ := this g (by rw [hh]; simp)
      rw [hv] at hg; cases hg
    · rw [if_neg]
      rintro (h | h)
      · cases h
      · obtain ⟨f, hf, he⟩ := h (s, .null) (by simp)
        exact hs (List.mem_map.2 ⟨f, hf, he⟩)

private theorem tuple_samples {env : Env} {skip : Bool} (ts : List Ty) (h : ∀ t ∈ ts, HasSample env skip t) :
    ∃ xs : List Json, (∀ x ∈ xs, x.Wf) ∧ All2 (fun x t => ∃ v, loads env skip t x = .ok v) xs ts := by
  induction ts with
  | nil => exact ⟨[], by simp, .nil⟩
  | cons t ts ih =>
    obtain ⟨xs, h1, h2⟩ := ih (fun u hu => h u (by simp [hu]))
    obtain ⟨x, v, hx, _, hl⟩ := h t (by simp)
    refine ⟨x :: xs, ?_, .cons ⟨v, hl⟩ h2⟩
    intro y hy
    rcases List.mem_cons.1 hy with rfl | hy
    · exact hx
    · exact h1 y hy

private theorem tuple_first_error {env : Env} {skip : Bool} {pre post : List Ty} {t : Ty} {ds : List Deser}
    (ha : All2 (fun t d => compile env t = .ok d) (pre ++ t :: post) ds) {xs ys : List Json} {j : Json} {e : Err}
    (hx : All2 (fun x t => ∃ v, loads env skip t x = .ok v) xs pre) (hj : loads env skip t j = .error e) :
    mapRes (fun p : Json × Deser => parse env (fullHeap env skip) p.1 p.2) ((xs ++ j :: ys).zip ds) = .error e := by
  induction pre generalizing xs ds with
  | nil =>
    cases hx
    cases ha with
    | cons h1 _ =>
      rw [loads_of_compile h1] at hj
      simp [mapRes, hj]
  | cons u pre ih =>
    cases hx with
    | cons hx1 hx2 =>
      cases ha with
      | cons h1 h2 =>
        obtain ⟨v, hv⟩ := hx1
        rw [loads_of_compile h1] at hv
        simp [mapRes, hv, ih h2 hx2]

private theorem literal_enum {env : Env} {ls : List Lit} {n m : Nat} (hs : Supported env (.literal ls)) (hm : .enum n m ∈ ls) :
    ∃ d d0, compile env (.literal ls) = .ok d ∧ compile env (.enum n) = .ok d0 ∧ d = .literal ls d0 := by
  obtain ⟨d, hd⟩ := hs
  have hd' := hd
  simp only [compile, compileLit] at hd
  cases ls with
  | nil => cases hd
  | cons l0 r =>
    simp only at hd
    split at hd
    · rename_i hall
      have hsame : l0.sameTy (.enum n m) = true := by
        rcases List.mem_cons.1 hm with rfl | hl
        · simp [Lit.sameTy]
        · exact List.all_eq_true.1 hall _ hl
      cases l0 <;> simp [Lit.sameTy] at hsame
      subst hsame
      split at hd
      · rename_i d0 hd0
        cases hd
        exact ⟨_, d0, hd', hd0, rfl⟩
      · cases hd
    · cases hd

/-- Every exception of the specification occurs, for types without unions (see `CertainNode`). -/
theorem mayRaise_occurs (env : Env) (hk : env.Ok) (skip : Bool) (t : Ty) (hs : Supported env t)
    (hp : ∀ u, Part env t u → CertainNode env skip u) (e : Err) (h : MayRaise env skip t e) :
    ∃ j, j.Wf ∧ j ≠ .null ∧ loads env skip t j = .error e := by
  have hbool : (Json.bool true).Wf ∧ Json.bool true ≠ .null := ⟨.bool, by simp⟩
  have one : ∀ {x : Json}, x.Wf → (Json.arr [x]).Wf := fun h => .arr (by simpa using h)
  induction h with
  | scalar h => exact scalar_occurs hk hs h
  | @nan n h =>
    obtain ⟨ed, he, name, hm⟩ := h
    refine ⟨.float .nan, .float, by simp, ?_⟩
    rw [loads_enum hk skip he]
    have hany : (ed.members.any fun m => m.2 = .float .nan) = true := List.any_eq_true.2 ⟨_, hm, by simp⟩
    have hfind : ed.members.findIdx? (fun m => (Scalar.float .nan).pyEq m.2) = none := by
      rw [List.findIdx?_eq_none_iff]
      intro m _
      cases m.2 <;> rfl
    simp [enumLookup, he, Json.scalar, hfind, hany]
  | list => exact ⟨.bool true, hbool.1, hbool.2, C15_wrong_kind env skip _ _ hs (fun xs h => by cases h)⟩
  | dict => exact ⟨.bool true, hbool.1, hbool.2, C15_wrong_kind env skip _ _ hs (fun xs h => by cases h)⟩
  | set => exact ⟨.bool true, hbool.1, hbool.2, C15_wrong_kind env skip _ _ hs (fun xs h => by cases h)⟩
  | tuple => exact ⟨.bool true, hbool.1, hbool.2, C15_wrong_kind env skip _ _ hs (fun xs h => by cases h)⟩
  | @item t e _ ih =>
    obtain ⟨j, h1, _, h3⟩ := ih (supported_list hs) (fun u hu => hp u (.list hu))
    refine ⟨.arr [j], one h1, by simp, ?_⟩
    obtain ⟨d, hd⟩ := supported_list hs
    rw [loads_of_compile hd] at h3
    rw [loads_of_compile (d := .list d) (by simp [compile, hd]), parse_list_arr]
    simp [mapRes, h3]
  | @key n t =>
    obtain ⟨d, hd, hc⟩ := supported_dict hs
    cases he : env.enums[n]? with
    | none => simp [compile, checkKeyTy, he] at hc
    | some ed =>
      obtain ⟨s, hfresh⟩ := str_fresh (ed.members.map fun m => match m.2 with | .str s => s | _ => [])
      refine ⟨.obj [(s, .null)], .obj (by simp) (by simpa using .null), by simp, ?_⟩
      have hkey : parseKey env (.enum n) s = .error .valueError := by
        have hfind : ed.members.findIdx? (fun m => (Scalar.str s).pyEq m.2) = none := by
          rw [List.findIdx?_eq_none_iff]
          intro m hm
          cases hb : (Scalar.str s).pyEq m.2 with
          | false => rfl
          | true =>
            refine absurd (List.mem_map.2 ⟨m, hm, ?_⟩) hfresh
            rw [str_pyEq.1 hb]
        simp [parseKey, enumLookup, he, Json.scalar, hfind]
      rw [loads_of_compile hc, parse_eq]
      simp [parseD, kidsOf, parseDictK, parsePairs, hkey]
  | @value k t e _ ih =>
    obtain ⟨d, hd, hc⟩ := supported_dict hs
    obtain ⟨j, h1, _, h3⟩ := ih ⟨d, hd⟩ (fun u hu => hp u (.dict hu))
    obtain ⟨s, key, hkey⟩ : ∃ s key, parseKey env k s = .ok key := by
      have hck : checkKeyTy env k = .ok () := by
        simp only [compile] at hc
        split at hc
        · cases hc
        · assumption
      cases k with
      | str => exact ⟨[], _, rfl⟩
      | int | other => cases hck
      | enum n =>
        simp only [checkKeyTy] at hck
        split at hck
        · cases hck
        · rename_i ed he
          split at hck
          · rename_i hsv
            unfold EnumDef.strValued at hsv
            cases hm : ed.members with
            | nil => rw [hm] at hsv; cases hsv
            | cons m ms =>
              obtain ⟨name, x⟩ := m
              rw [hm] at hsv
              simp only [List.isEmpty_cons, Bool.not_false, List.all_cons, Bool.and_eq_true, true_and] at hsv
              cases x <;> simp at hsv
              rename_i s
              refine ⟨s, .enum n 0, ?_⟩
              simp [parseKey, enumLookup, he, Json.scalar, hm, List.findIdx?_cons, Scalar.pyEq]
          · cases hck
    refine ⟨.obj [(s, j)], .obj (by simp) (by simpa using h1), by simp, ?_⟩
    rw [loads_of_compile hd] at h3
    rw [loads_of_compile hc, parse_eq]
    simp [parseD, kidsOf, parseDictK, parsePairs, hkey, h3]
  | @member t e _ ih =>
    obtain ⟨j, h1, _, h3⟩ := ih (supported_set hs) (fun u hu => hp u (.set hu))
    refine ⟨.arr [j], one h1, by simp, ?_⟩
    obtain ⟨d, hd⟩ := supported_set hs
    rw [loads_of_compile hd] at h3
    rw [loads_of_compile (d := .set d) (by simp [compile, hd]), parse_eq]
    simp [parseD, kidsOf, parseSetK, parseSetItems, h3]
  | @unhashable t j v h1 h2 h3 =>
    refine ⟨.arr [j], one h1, by simp, ?_⟩
    obtain ⟨d, hd⟩ := supported_set hs
    rw [loads_of_compile hd] at h2
    rw [loads_of_compile (d := .set d) (by simp [compile, hd]), parse_eq]
    simp [parseD, kidsOf, parseSetK, parseSetItems, h2, setAdd, h3]
  | @length ts =>
    refine ⟨.arr (List.replicate (ts.length + 1) .null), .arr ?_, by simp, C15_tuple_length env skip ts hs _ (by simp)⟩
    intro x hx; rw [(List.mem_replicate.1 hx).2]; exact .null
  | @component ts t e ht _ ih =>
    have hs' := supported_tuple hs
    obtain ⟨j, h1, _, h3⟩ := ih (hs' t ht) (fun u hu => hp u (.tuple ht hu))
    have hsam : ∀ t ∈ ts, HasSample env skip t := by
      cases hp _ .here with
      | scalar h => exact absurd rfl h
      | tuple h => exact h
    obtain ⟨pre, post, rfl⟩ := List.append_of_mem ht
    obtain ⟨xs, hx1, hx2⟩ := tuple_samples pre (fun u hu => hsam u (by simp [hu]))
    obtain ⟨ys, hy1, hy2⟩ := tuple_samples post (fun u hu => hsam u (by simp [hu]))
    refine ⟨.arr (xs ++ j :: ys), .arr ?_, by simp, ?_⟩
    · intro x hx
      rcases List.mem_append.1 hx with hx | hx
      · exact hx1 x hx
      · rcases List.mem_cons.1 hx with rfl | hx
        · exact h1
        · exact hy1 x hx
    · obtain ⟨d, hd⟩ := hs
      rw [loads_of_compile hd]
      simp only [compile] at hd
      split at hd
      · rename_i ds hds
        cases hd
        have ha := compileL_ok.1 hds
        rw [parse_tuple_arr]
        have hlen : (xs ++ j :: ys).length = ds.length := by
          rw [← ha.length]; simp [hx2.length, hy2.length]
        rw [if_neg (by simpa using hlen)]
        have := tuple_first_error (env := env) (skip := skip) (xs := xs) (ys := ys) (j := j) ha hx2 h3
        rw [this]
      · cases hd
  | annotated _ ih => exact ih hs (fun u hu => hp u (.annotated hu))
  | @literal l ls hl hne =>
    refine ⟨.arr [], .arr (by simp), by simp, ?_⟩
    obtain ⟨d, hd⟩ := hs
    rw [loads_of_compile hd]
    simp only [compile, compileLit] at hd
    cases ls with
    | nil => cases hd
    | cons l0 r =>
      simp only at hd
      split at hd
      · rename_i hall
        have hsame : l0.sameTy l = true := by
          rcases List.mem_cons.1 hl with rfl | hl
          · cases l <;> simp [Lit.sameTy]
          · exact List.all_eq_true.1 hall l hl
        cases l0 with
        | enum n m => cases l <;> simp [Lit.sameTy] at hsame; exact absurd rfl (hne _ _)
        | _ => cases hd; rfl
      · cases hd
  | @literalEnum n m ls e hm _ ih =>
    obtain ⟨d, d0, hd, hd0, hlit⟩ := literal_enum hs hm
    obtain ⟨j, h1, h2, h3⟩ := ih ⟨d0, hd0⟩ (fun u hu => by cases hu; exact .scalar (by simp [scalarErrors]))
    refine ⟨j, h1, h2, ?_⟩
    rw [loads_of_compile hd0] at h3
    rw [loads_of_compile hd, hlit, parse_literal, h3]
  | @literalOther n m ls k j hm hj hl hne =>
    obtain ⟨d, d0, hd, hd0, hlit⟩ := literal_enum hs hm
    refine ⟨j, hj, ?_, ?_⟩
    · rintro rfl
      cases he : env.enums[n]? with
      | none => simp [compile, tyKey, he] at hd0
      | some ed =>
        have hnone : ∀ x ∈ ed.members, x.2 ≠ .none := by
          cases hp _ .here with
          | scalar h => exact absurd rfl h
          | literal h => exact h n m ed hm he
        rw [loads_enum hk skip he] at hl
        unfold enumLookup at hl
        rw [he] at hl
        simp only [Json.scalar] at hl
        split at hl
        · rename_i i hi
          obtain ⟨x, hx, hxe⟩ := findIdx?_some hi
          have := hnone x (List.mem_of_getElem? hx)
          cases hx2 : x.2 <;> rw [hx2] at hxe this <;> first | exact absurd rfl this | cases hxe
        · split at hl <;> cases hl
    · rw [loads_of_compile hd0] at hl
      rw [loads_of_compile hd, hlit, parse_literal, hl]
      simp only
      rw [if_neg]
      intro hmem
      obtain ⟨l, hl1, hl2⟩ := List.any_eq_true.1 hmem
      cases l <;> simp [Lit.scalar, Val.scalar] at hl2
      obtain ⟨rfl, rfl⟩ := hl2
      exact hne hl1
  | noMatch | alternative | noTag | tagShape | tagged =>
    cases hp _ .here with
    | scalar h => exact absurd rfl h
  | @hook c cd f j e hc hcu hf hj h =>
    cases hp _ .here with
    | scalar h => exact absurd rfl h
    | hook hc' _ hf' hnn =>
      rw [hc] at hc'; cases hc'
      rw [hf] at hf'; cases hf'
      obtain ⟨j', h1, h2, h3⟩ := hnn j e hj h
      exact ⟨j', h1, h2, by rw [loads_custom hk skip hc hcu hf]; exact h3⟩
    | cls hr _ _ =>
      have := hr.cls; rw [hc] at this; cases this
      rw [hr.standard] at hcu; cases hcu
  | @cls c cd e hc hcu h =>
    cases hp _ .here with
    | scalar h => exact absurd rfl h
    | hook hc' hcu' _ _ => rw [hc] at hc'; cases hc'; rw [hcu] at hcu'; cases hcu'
    | @cls _ cd' hr hn hsam =>
      have := hr.cls; rw [hc] at this; cases this
      cases h with
      | shape => exact ⟨.bool true, hbool.1, hbool.2, loads_cls_not_obj hk skip hr _ (fun _ h => by cases h)⟩
      | unknown hsk => subst hsk; exact unknown_occurs hk hr hn hsam
      | missing hf hreq =>
        refine cls_occurs hk hr hn hsam hf (o := none) (by simp) ?_
        intro kvs hl
        unfold readField; unfold IsRequired at hreq
        rw [hl, hreq]
      | null hf hreq =>
        refine cls_occurs hk hr hn hsam hf (o := some .null) (by simpa using .null) ?_
        intro kvs hl
        unfold readField; unfold IsRequired at hreq
        rw [hl, hreq]
  | @field c cd f e hc hcu hf _ ih =>
    cases hp _ .here with
    | scalar h => exact absurd rfl h
    | hook hc' hcu' _ _ => rw [hc] at hc'; cases hc'; rw [hcu] at hcu'; cases hcu'
    | @cls _ cd' hr hn hsam =>
      have := hr.cls; rw [hc] at this; cases this
      obtain ⟨j, h1, h2, h3⟩ := ih (hr.fields f hf) (fun u hu => hp u (.field hc hcu hf hu))
      refine cls_occurs hk hr hn hsam hf (o := some j) (by simpa using h1) ?_
      intro kvs hl
      rw [readField_sample hl h2, h3]
  | @untyped c cd hc hkind hne =>
    cases hp _ .here with
    | scalar h => exact absurd rfl h
    | hook hc' hcu' _ _ =>
      rw [hc] at hc'; cases hc'
      unfold ClassDef.custom at hcu'; rw [hkind] at hcu'; cases hcu'
    | cls hr _ _ =>
      have := hr.cls; rw [hc] at this; cases this
      exact absurd (hr.typed hkind) hne
  | @unbuilt c hb =>
    cases hp _ .here with
    | scalar h => exact absurd rfl h
    | hook hc' hcu' _ _ => exact absurd ⟨_, hc', fun h => by rw [h] at hcu'; cases hcu'⟩ hb
    | cls hr _ _ => exact absurd ⟨_, hr.cls, fun _ => hr.fields⟩ hb

theorem plain_mayRaise {env : Env} {skip : Bool} {t : Ty} {e : Err} (h : MayRaise env skip t e)
    (hp : ∀ u, Part env t u → DocumentedNode env u) : e = .jsonKey ∨ e = .jsonType := by
  induction h with
  | scalar h => cases hp _ .here <;> simp [scalarErrors] at h <;> exact .inr h
  | nan h => cases hp _ .here
  | list | dict | literal | literalOther => exact .inr rfl
  | item _ ih => exact ih fun u hu => hp u (.list hu)
  | key => cases hp _ .here
  | value _ ih => exact ih fun u hu => hp u (.dict hu)
  | set | member | unhashable | tuple | length | component => cases hp _ .here
  | annotated _ ih => exact ih fun u hu => hp u (.annotated hu)
  | literalEnum hm => cases hp _ (.literal hm)
  | noMatch => exact .inl rfl
  | alternative _ ht _ _ _ ih => exact ih fun u hu => hp u (.union ht hu)
  | noTag => exact .inr rfl
  | tagShape ht =>
    cases hp _ .here with
    | union hu => exact absurd (mem_discProps.2 ht) (by rw [(discProps_nil_iff env _).2 hu]; simp)
  | tagged _ ht _ ih => exact ih fun u hu => hp u (.union ht hu)
  | hook hc hcu hf hj he =>
    cases hp _ .here with
    | hook hc' _ hf' h =>
      rw [hc] at hc'; cases hc'
      rw [hf] at hf'; cases hf'
      exact h _ _ he
    | cls hr _ =>
      have := hr.cls; rw [hc] at this; cases this
      rw [hr.standard] at hcu; cases hcu
  | cls hc hcu h =>
    cases hp _ .here with
    | hook hc' hcu' _ _ => rw [hc] at hc'; cases hc'; rw [hcu] at hcu'; cases hcu'
    | cls hr hreq =>
      have := hr.cls; rw [hc] at this; cases this
      cases h with
      | shape => exact .inr rfl
      | unknown => exact .inl rfl
      | missing => exact .inl rfl
      | null hf hq => exact absurd hq (hreq _ hf)
  | field hc hcu hf _ ih => exact ih fun u hu => hp u (.field hc hcu hf hu)
  | untyped hc hkind hne =>
    cases hp _ .here with
    | hook hc' hcu' _ _ =>
      rw [hc] at hc'; cases hc'
      unfold ClassDef.custom at hcu'; rw [hkind] at hcu'; cases hcu'
    | cls hr _ =>
      have := hr.cls; rw [hc] at this; cases this
      exact absurd (hr.typed hkind) hne
  | unbuilt hb =>
    cases hp _ .here with
    | hook hc' hcu' _ _ => exact absurd ⟨_, hc', fun h => by rw [h] at hcu'; cases hcu'⟩ hb
    | cls hr _ => exact absurd ⟨_, hr.cls, fun _ => hr.fields⟩ hb

theorem buildTags_errors {items : List (Str × Lit × Option TKey)} {table : List (Str × Lit × TKey)} {e : Err}
    (h : buildTags table items = .error e) : e = .jsonType ∨ e = .outOfModel := by
  induction items generalizing table with
  | nil => cases h
  | cons x r ih =>
    obtain ⟨p, l, k⟩ := x
    simp only [buildTags] at h
    split at h
    · cases h; exact .inr rfl
    · split at h
      · rename_i h1
        cases h
        unfold addTag at h1
        split at h1
        · cases h1; exact .inl rfl
        · cases h1
      · exact ih h

end Verif
