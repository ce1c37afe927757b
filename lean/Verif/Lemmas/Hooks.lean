import Verif.Spec.Hooks
import Verif.Lemmas.Ser
import Verif.Lemmas.ClassRead
import Verif.Props.C13_PlainJson
import Verif.Props.C15_Containers
import Verif.Props.C17_C18_Unknown
/-!
# Lemmas about positions in values and data
-/
namespace Verif

/-! ### Writing -/

theorem genProps_keep {kind : ClassKind} {fs : List (Str × Val × (Ty → Res Json))} {fd : FieldDef} {v : Val}
    {g : Ty → Res Json} {x : Json} (hl : lookupKey fd.name fs = some (v, g)) (hx : g fd.ty = .ok x) :
    ∀ (fds : List FieldDef) (acc ps : List (Str × Json)), (∀ h ∈ fds, writeProp kind h = writeProp kind fd → h = fd) →
      genProps kind fs acc fds = .ok (.obj ps) → lookupKey (writeProp kind fd) acc = some x →
      lookupKey (writeProp kind fd) ps = some x := by
  intro fds
  induction fds with
  | nil => intro acc ps _ h ha; simp only [genProps] at h; cases h; exact ha
  | cons f fds ih =>
    intro acc ps hu h ha
    simp only [genProps] at h
    split at h
    · cases h
    rename_i w k hw
    split at h
    · exact ih _ _ (fun h hh => hu h (by simp [hh])) h ha
    split at h
    · cases h
    rename_i y hy
    refine ih _ _ (fun h hh => hu h (by simp [hh])) h ?_
    rw [lookupKey_upsert]
    split
    · rename_i he
      have := hu f (by simp) he
      subst this
      rw [hl] at hw
      cases hw
      rw [hx] at hy
      cases hy
      rfl
    · exact ha

theorem genProps_at {kind : ClassKind} {fs : List (Str × Val × (Ty → Res Json))} {fd : FieldDef} {v : Val}
    {g : Ty → Res Json} (hl : lookupKey fd.name fs = some (v, g)) (hv : v ≠ .none) :
    ∀ (fds : List FieldDef) (acc ps : List (Str × Json)), (∀ h ∈ fds, writeProp kind h = writeProp kind fd → h = fd) →
      fd ∈ fds → genProps kind fs acc fds = .ok (.obj ps) →
      ∃ x, g fd.ty = .ok x ∧ lookupKey (writeProp kind fd) ps = some x := by
  intro fds
  induction fds with
  | nil => intro _ _ _ h; cases h
  | cons f fds ih =>
    intro acc ps hu hm h
    by_cases hf : fd ∈ fds
    · simp only [genProps] at h
      split at h
      · cases h
      split at h
      · exact ih _ _ (fun h hh => hu h (by simp [hh])) hf h
      split at h
      · cases h
      exact ih _ _ (fun h hh => hu h (by simp [hh])) hf h
    · rcases List.mem_cons.1 hm with rfl | hm
      · simp only [genProps, hl] at h
        rw [if_neg (by rw [Val.isNone_iff]; exact hv)] at h
        split at h
        · cases h
        rename_i y hy
        exact ⟨y, hy, genProps_keep hl hy _ _ _ (fun h hh => hu h (by simp [hh])) h (by rw [lookupKey_upsert]; simp)⟩
      · exact absurd hm hf

theorem genUntypedTuple_keep {fs : List (Str × Val × (Ty → Res Json))} {fd : FieldDef} {v : Val}
    {g : Ty → Res Json} {x : Json} (hl : lookupKey fd.name fs = some (v, g)) (hx : g dynTy = .ok x) :
    ∀ (fds : List FieldDef) (acc ps : List (Str × Json)),
      (∀ h ∈ fds, fieldToProperty h.name Option.none = fieldToProperty fd.name Option.none → h = fd) →
      genUntypedTuple fs acc fds = .ok (.obj ps) → lookupKey (fieldToProperty fd.name Option.none) acc = some x →
      lookupKey (fieldToProperty fd.name Option.none) ps = some x := by
  intro fds
  induction fds with
  | nil => intro acc ps _ h ha; simp only [genUntypedTuple] at h; cases h; exact ha
  | cons f fds ih =>
    intro acc ps hu h ha
    simp only [genUntypedTuple] at h
    split at h
    · cases h
    rename_i w k hw
    split at h
    · cases h
    rename_i y hy
    refine ih _ _ (fun h hh => hu h (by simp [hh])) h ?_
    rw [lookupKey_upsert]
    split
    · rename_i he
      have := hu f (by simp) he
      subst this
      rw [hl] at hw
      cases hw
      rw [hx] at hy
      cases hy
      rfl
    · exact ha

theorem genUntypedTuple_at {fs : List (Str × Val × (Ty → Res Json))} {fd : FieldDef} {v : Val}
    {g : Ty → Res Json} (hl : lookupKey fd.name fs = some (v, g)) :
    ∀ (fds : List FieldDef) (acc ps : List (Str × Json)),
      (∀ h ∈ fds, fieldToProperty h.name Option.none = fieldToProperty fd.name Option.none → h = fd) →
      fd ∈ fds → genUntypedTuple fs acc fds = .ok (.obj ps) →
      ∃ x, g dynTy = .ok x ∧ lookupKey (fieldToProperty fd.name Option.none) ps = some x := by
  intro fds
  induction fds with
  | nil => intro _ _ _ h; cases h
  | cons f fds ih =>
    intro acc ps hu hm h
    by_cases hf : fd ∈ fds
    · simp only [genUntypedTuple] at h
      split at h
      · cases h
      split at h
      · cases h
      exact ih _ _ (fun h hh => hu h (by simp [hh])) hf h
    · rcases List.mem_cons.1 hm with rfl | hm
      · simp only [genUntypedTuple, hl] at h
        split at h
        · cases h
        rename_i y hy
        exact ⟨y, hy, genUntypedTuple_keep hl hy _ _ _ (fun h hh => hu h (by simp [hh])) h (by rw [lookupKey_upsert]; simp)⟩
      · exact absurd hm hf

theorem genUntyped_keep {n : Str} {v : Val} {g : Ty → Res Json} {x : Json} (hx : g dynTy = .ok x) :
    ∀ (fs : List (Str × Val × (Ty → Res Json))) (acc ps : List (Str × Json)),
      (∀ kv ∈ fs, fieldToProperty kv.1 Option.none = fieldToProperty n Option.none → kv = (n, v, g)) →
      genUntyped acc fs = .ok (.obj ps) → lookupKey (fieldToProperty n Option.none) acc = some x →
      lookupKey (fieldToProperty n Option.none) ps = some x := by
  intro fds
  induction fds with
  | nil => intro acc ps _ h ha; simp only [genUntyped] at h; cases h; exact ha
  | cons f fds ih =>
    obtain ⟨m, w, k⟩ := f
    intro acc ps hu h ha
    simp only [genUntyped] at h
    split at h
    · exact ih _ _ (fun h hh => hu h (by simp [hh])) h ha
    split at h
    · cases h
    rename_i y hy
    refine ih _ _ (fun h hh => hu h (by simp [hh])) h ?_
    rw [lookupKey_upsert]
    split
    · rename_i he
      have := hu (m, w, k) (by simp) he
      cases this
      rw [hx] at hy
      cases hy
      rfl
    · exact ha

theorem genUntyped_at {n : Str} {v : Val} {g : Ty → Res Json} (hv : v ≠ .none) (hr : isReserved n = false) :
    ∀ (fs : List (Str × Val × (Ty → Res Json))) (acc ps : List (Str × Json)),
      (∀ kv ∈ fs, fieldToProperty kv.1 Option.none = fieldToProperty n Option.none → kv = (n, v, g)) →
      (n, v, g) ∈ fs → genUntyped acc fs = .ok (.obj ps) →
      ∃ x, g dynTy = .ok x ∧ lookupKey (fieldToProperty n Option.none) ps = some x := by
  intro fds
  induction fds with
  | nil => intro _ _ _ h; cases h
  | cons f fds ih =>
    obtain ⟨m, w, k⟩ := f
    intro acc ps hu hm h
    by_cases hf : (n, v, g) ∈ fds
    · simp only [genUntyped] at h
      split at h
      · exact ih _ _ (fun h hh => hu h (by simp [hh])) hf h
      split at h
      · cases h
      exact ih _ _ (fun h hh => hu h (by simp [hh])) hf h
    · rcases List.mem_cons.1 hm with he | hm
      · cases he
        simp only [genUntyped] at h
        rw [if_neg (by rw [Bool.or_eq_true, Val.isNone_iff, hr]; simp [hv])] at h
        split at h
        · cases h
        rename_i y hy
        exact ⟨y, hy, genUntyped_keep hy _ _ _ (fun h hh => hu h (by simp [hh])) h (by rw [lookupKey_upsert]; simp)⟩
      · exact absurd hm hf

theorem genPairs_keep {key : Key → Res Str} {t : Ty} {k : Key} {g : Ty → Res Json} {s : Str} {x : Json}
    (hx : g t = .ok x) : ∀ (fs : List (Key × (Ty → Res Json))) (acc ps : List (Str × Json)),
      (∀ kv ∈ fs, key kv.1 = .ok s → kv = (k, g)) → genPairs key t acc fs = .ok (.obj ps) →
      lookupKey s acc = some x → lookupKey s ps = some x := by
  intro fs
  induction fs with
  | nil => intro acc ps _ h ha; simp only [genPairs] at h; cases h; exact ha
  | cons f fs ih =>
    obtain ⟨k', g'⟩ := f
    intro acc ps hu h ha
    simp only [genPairs] at h
    split at h
    · cases h
    rename_i s' hs
    split at h
    · cases h
    rename_i y hy
    refine ih _ _ (fun h hh => hu h (by simp [hh])) h ?_
    rw [lookupKey_upsert]
    split
    · rename_i he
      subst he
      cases hu (k', g') (by simp) hs
      rw [hx] at hy
      cases hy
      rfl
    · exact ha

theorem genPairs_at {key : Key → Res Str} {t : Ty} {k : Key} {g : Ty → Res Json} {s : Str} (hs : key k = .ok s) :
    ∀ (fs : List (Key × (Ty → Res Json))) (acc ps : List (Str × Json)),
      (∀ kv ∈ fs, key kv.1 = .ok s → kv = (k, g)) → (k, g) ∈ fs → genPairs key t acc fs = .ok (.obj ps) →
      ∃ x, g t = .ok x ∧ lookupKey s ps = some x := by
  intro fs
  induction fs with
  | nil => intro _ _ _ h; cases h
  | cons f fs ih =>
    obtain ⟨k', g'⟩ := f
    intro acc ps hu hm h
    by_cases hf : (k, g) ∈ fs
    · simp only [genPairs] at h
      split at h
      · cases h
      split at h
      · cases h
      exact ih _ _ (fun h hh => hu h (by simp [hh])) hf h
    · rcases List.mem_cons.1 hm with he | hm
      · cases he
        simp only [genPairs, hs] at h
        split at h
        · cases h
        rename_i y hy
        exact ⟨y, hy, genPairs_keep hy _ _ _ (fun h hh => hu h (by simp [hh])) h (by rw [lookupKey_upsert]; simp)⟩
      · exact absurd hm hf

/-- The writers of keys agree with `keyText`. -/
theorem keyText_self {env : Env} {k : Key} {s : Str} (h : keySelf k = .ok s) : keyText env k = some s := by
  cases k <;> simp [keySelf] at h
  subst h; rfl

theorem keyText_value {env : Env} {k : Key} {s : Str} (h : keyValue env k = .ok s) : keyText env k = some s := by
  cases k with
  | enum e m =>
    simp only [keyValue, enumValue] at h
    simp only [keyText]
    cases he : env.enums[e]? with
    | none => rw [he] at h; cases h
    | some ed =>
      rw [he] at h
      simp only at h ⊢
      cases hm : ed.members[m]? with
      | none => rw [hm] at h; cases h
      | some p =>
        rw [hm] at h
        obtain ⟨n, a⟩ := p
        cases a <;> simp [Scalar.jsonKey] at h
        subst h; rfl
  | _ => cases h

theorem dict_at {env : Env} {key : Key → Res Str} {t : Ty} {kvs : List (Key × Val)} {kv : Key × Val} {s : Str} {j : Json}
    (ho : OnlyKey env kvs kv s) (hk : ∀ kv ∈ kvs, ∀ s, key kv.1 = .ok s → keyText env kv.1 = some s)
    (h : genPairs key t [] (kvs.map fun kv => (kv.1, gen env kv.2)) = .ok j) :
    ∃ ps x, j = .obj ps ∧ gen env kv.2 t = .ok x ∧ lookupKey s ps = some x := by
  obtain ⟨hm, ht, hu⟩ := ho
  have hks : key kv.1 = .ok s := by
    have : ∀ (fs : List (Key × (Ty → Res Json))) (acc : List (Str × Json)), genPairs key t acc fs = .ok j →
        ∀ kv ∈ fs, ∃ s, key kv.1 = .ok s := by
      intro fs
      induction fs with
      | nil => intro _ _ kv h; cases h
      | cons f fs ih =>
        obtain ⟨k, g⟩ := f
        intro acc h kv hkv
        simp only [genPairs] at h
        split at h
        · cases h
        rename_i s hs
        split at h
        · cases h
        rcases List.mem_cons.1 hkv with rfl | hkv
        · exact ⟨s, hs⟩
        · exact ih _ h kv hkv
    obtain ⟨s', hs'⟩ := this _ _ h (kv.1, gen env kv.2) (List.mem_map.2 ⟨kv, hm, rfl⟩)
    rw [hk kv hm s' hs'] at ht
    cases ht
    exact hs'
  obtain ⟨ps, rfl⟩ : ∃ ps, j = .obj ps := by
    obtain ⟨ps, h, _⟩ := genPairs_obj _ _ _ h
    exact ⟨ps, h⟩
  obtain ⟨x, h1, h2⟩ := genPairs_at hks _ _ _ (by
    intro p hp hps
    obtain ⟨kv', hkv', rfl⟩ := List.mem_map.1 hp
    rw [hu kv' hkv' (hk kv' hkv' _ hps)]) (List.mem_map.2 ⟨kv, hm, rfl⟩) h
  exact ⟨ps, x, rfl, h1, h2⟩

theorem arrOf_at {f : α → Res Json} {as : List α} {a : α} {i : Nat} {j : Json} {p : List JStep} {Q : Json → Prop}
    (h : arrOf (mapRes f as) = .ok j) (ha : as[i]? = some a) (ih : ∀ {y : Json}, f a = .ok y → ∃ x, y.at p = some x ∧ Q x) :
    ∃ x, j.at (.idx i :: p) = some x ∧ Q x := by
  unfold arrOf at h
  split at h
  · rename_i js hjs
    cases h
    obtain ⟨y, hy, hf⟩ := ((mapRes_ok_iff _ _ _).1 hjs).get i a ha
    obtain ⟨x, h1, h2⟩ := ih hf
    exact ⟨x, by simp only [Json.at, hy]; exact h1, h2⟩
  · cases h

/-- What is written at a position. -/
theorem written_at {env : Env} {t u : Ty} {v w : Val} {p : List JStep} (hr : WrittenAt env t v p u w) :
    ∀ {j : Json}, gen env v t = .ok j → ∃ x, j.at p = some x ∧ gen env w u = .ok x := by
  have hdyn : ∀ {x : Val} {y : Json}, objectToJson env x = .ok y → gen env x (typeOf x) = .ok y := by
    intro x y h
    unfold objectToJson dumps at h
    split at h
    · cases h
    · exact h
  induction hr with
  | here => intro j h; exact ⟨j, rfl, h⟩
  | union _ ih => intro j h; rw [gen_union] at h; exact ih (hdyn h)
  | annotated _ ih => intro j h; rw [gen_annotated] at h; exact ih h
  | list hi _ ih => intro j h; rw [gen_list] at h; exact arrOf_at h hi ih
  | set hi _ ih => intro j h; rw [gen_set] at h; exact arrOf_at h hi ih
  | tuple ht hi _ ih =>
    intro j h
    rw [gen_tuple] at h
    exact arrOf_at h (a := (_, _)) (List.getElem?_zip_eq_some.2 ⟨ht, hi⟩) ih
  | @dict k t kvs kv s p u w ho _ ih =>
    intro j h
    obtain ⟨ps, x, rfl, h1, h2⟩ : ∃ ps x, j = .obj ps ∧ gen env kv.2 t = .ok x ∧ lookupKey s ps = some x := by
      cases k with
      | str => rw [gen_dict_str] at h; exact dict_at ho (fun _ _ _ => keyText_self) h
      | enum e => rw [gen_dict_enum] at h; exact dict_at ho (fun _ _ _ => keyText_value) h
      | int | other => cases h
    obtain ⟨y, h3, h4⟩ := ih h1
    exact ⟨y, by simp only [Json.at, h2]; exact h3, h4⟩
  | @bareList vs i x _ _ _ hi _ ih =>
    intro j h
    replace h := (gen_dyn_ok (env := env) (v := .list vs) rfl).trans h
    rw [dyn_list] at h
    exact arrOf_at h hi fun hy => ih (hdyn hy)
  | @bareSet vs i x _ _ _ hi _ ih =>
    intro j h
    replace h := (gen_dyn_ok (env := env) (v := .set vs) rfl).trans h
    rw [dyn_set] at h
    exact arrOf_at h hi fun hy => ih (hdyn hy)
  | @bareTuple vs i x _ _ _ hi _ ih =>
    intro j h
    replace h := (gen_dyn_ok (env := env) (v := .tuple vs) rfl).trans h
    rw [dyn_tuple] at h
    exact arrOf_at h hi fun hy => ih (hdyn hy)
  | @bareDict kvs kv s p u w hsame ho _ ih =>
    intro j h
    replace h := (gen_dyn_ok (env := env) (v := .dict kvs) rfl).trans h
    rw [dyn_dict] at h
    obtain ⟨ps, x, rfl, h1, h2⟩ : ∃ ps x, j = .obj ps ∧ gen env kv.2 dynTy = .ok x ∧ lookupKey s ps = some x := by
      refine dict_at ho ?_ h
      rcases hsame with hs | hs
      · intro kv' hkv' s' h'
        obtain ⟨a, ha⟩ := hs kv' hkv'
        have hne : untypedKey env (kvs.map fun kv => (kv.1, gen env kv.2)) = keyStr env := by
          cases kvs with
          | nil => cases hkv'
          | cons kv0 r =>
            obtain ⟨b, hb⟩ := hs kv0 (by simp)
            obtain ⟨k0, v0⟩ := kv0
            simp only at hb
            subst hb
            rfl
        rw [hne, ha] at h'
        rw [ha]
        cases h'
        rfl
      · intro kv' hkv' s' h'
        have hne : untypedKey env (kvs.map fun kv => (kv.1, gen env kv.2)) = keyValue env := by
          cases kvs with
          | nil => cases hkv'
          | cons kv0 r =>
            obtain ⟨e, m, hb⟩ := hs kv0 (by simp)
            obtain ⟨k0, v0⟩ := kv0
            simp only at hb
            subst hb
            rfl
        rw [hne] at h'
        exact keyText_value h'
    rw [gen_dyn] at h1
    obtain ⟨y, h3, h4⟩ := ih (hdyn h1)
    exact ⟨y, by simp only [Json.at, h2]; exact h3, h4⟩
  | @cls c cd f c' fs x p u w hc hj hkind hf hu hl hx _ ih =>
    intro j h
    have hg : genProps cd.kind (genObj env fs) [] cd.fields = .ok j := by
      have h' : genCls env (.obj c' fs) (.obj (genObj env fs)) c = .ok j := h
      simp only [genCls, hc, hj] at h'
      revert h'
      cases hcd : cd.kind with
      | plain =>
        simp only
        intro h'
        rw [if_neg (by cases hff : cd.fields with | nil => rw [hff] at hf; cases hf | cons a b => simp)] at h'
        exact h'
      | dataclass b => simp only; exact id
      | namedTuple b =>
        cases b with
        | false => exact absurd hcd hkind
        | true => simp only; exact id
    obtain ⟨ps, rfl, _⟩ := genProps_obj _ _ _ hg
    have hl' : lookupKey f.name (genObj env fs) = some (x, gen env x) := by
      rw [genObj_eq]
      have := lookupKey_map (fun v => (v, gen env v)) f.name fs
      rw [hl] at this
      exact this
    obtain ⟨y, h1, h2⟩ := genProps_at hl' hx _ _ _ hu hf hg
    obtain ⟨z, h3, h4⟩ := ih h1
    exact ⟨z, by simp only [Json.at, h2]; exact h3, h4⟩
  | @untypedTuple c cd f c' fs x p u w hc hj hkind hf hu hl _ ih =>
    intro j h
    have hg : genUntypedTuple (genObj env fs) [] cd.fields = .ok j := by
      have h' : genCls env (.obj c' fs) (.obj (genObj env fs)) c = .ok j := h
      simp only [genCls, hc, hj, hkind] at h'
      exact h'
    obtain ⟨ps, rfl⟩ := genUntypedTuple_obj _ _ _ hg
    have hl' : lookupKey f.name (genObj env fs) = some (x, gen env x) := by
      rw [genObj_eq]
      have := lookupKey_map (fun v => (v, gen env v)) f.name fs
      rw [hl] at this
      exact this
    obtain ⟨y, h1, h2⟩ := genUntypedTuple_at hl' _ _ _ hu hf hg
    rw [gen_dyn] at h1
    obtain ⟨z, h3, h4⟩ := ih (hdyn h1)
    exact ⟨z, by simp only [Json.at, h2]; exact h3, h4⟩
  | @untyped c cd c' fs n x p u w hc hj hkind hf hm hu hres hx _ ih =>
    intro j h
    have hg : genUntyped [] (sortByName (genObj env fs)) = .ok j := by
      have h' : genCls env (.obj c' fs) (.obj (genObj env fs)) c = .ok j := h
      simp only [genCls, hc, hj, hkind, hf] at h'
      exact h'
    have hperm : ∀ y, y ∈ sortByName (genObj env fs) ↔ y ∈ genObj env fs := fun _ => mem_sortByName
    obtain ⟨ps, rfl, _⟩ := genUntyped_obj _ _ _ hg
    obtain ⟨y, h1, h2⟩ := genUntyped_at (n := n) (v := x) (g := gen env x) hx hres _ _ _ (by
      intro kv hkv he
      rw [hperm, genObj_eq] at hkv
      obtain ⟨kv', hkv', rfl⟩ := List.mem_map.1 hkv
      rw [hu kv' hkv' he]) (by
      rw [hperm, genObj_eq]
      exact List.mem_map.2 ⟨_, hm, rfl⟩) hg
    rw [gen_dyn] at h1
    obtain ⟨z, h3, h4⟩ := ih (hdyn h1)
    exact ⟨z, by simp only [Json.at, h2]; exact h3, h4⟩

/-! ### Programs that differ in classes with `to_json` -/

theorem SameButHooked.createWith {env env' : Env} (h : SameButHooked env env') {f g : Nat → Res Unit} (hfg : ∀ c, g c = f c) :
    ∀ t, createWith env' g t = createWith env f t
  | .list t => by simp only [Verif.createWith]; exact h.createWith hfg t
  | .set t => by simp only [Verif.createWith]; exact h.createWith hfg t
  | .annotated t _ => by simp only [Verif.createWith]; exact h.createWith hfg t
  | .dict k t => by
    have := h.createWith hfg t
    cases k <;> simp only [Verif.createWith, this, h.enums]
  | .tuple ts => by
    simp only [Verif.createWith]
    have : ∀ us : List Ty, (∀ u ∈ us, Verif.createWith env' g u = Verif.createWith env f u) →
        createWithL env' g us = createWithL env f us := by
      intro us
      induction us with
      | nil => intro _; rfl
      | cons u us ih => intro hu; simp only [createWithL, hu u (by simp), ih fun w hw => hu w (by simp [hw])]
    exact this ts fun u _ => h.createWith hfg u
  | .union _ => rfl
  | .literal _ => rfl
  | .enum e => by simp only [Verif.createWith, h.enums]
  | .cls c => by simp only [Verif.createWith]; exact hfg c
  | .none | .bool | .int | .float | .str | .bytes | .datetime | .date | .time | .timedelta | .uuid | .ipv4 | .ipv6
  | .bareList | .bareDict | .bareSet | .bareTuple => rfl

theorem SameButHooked.look {env env' : Env} (h : SameButHooked env env') (c : Nat) :
    (env.classes[c]? = none ∧ env'.classes[c]? = none) ∨ ∃ cd cd', env.classes[c]? = some cd ∧ env'.classes[c]? = some cd' ∧
      (cd' = cd ∨ ∃ f, cd.toJson = some f ∧ cd'.toJson = some f) := by
  cases h1 : env.classes[c]? with
  | none =>
    left
    refine ⟨rfl, ?_⟩
    rw [List.getElem?_eq_none_iff] at h1 ⊢
    rw [h.length]; exact h1
  | some cd =>
    right
    have hlt : c < env'.classes.length := by rw [h.length]; exact (List.getElem?_eq_some_iff.1 h1).1
    exact ⟨cd, env'.classes[c], rfl, List.getElem?_eq_getElem hlt, h.classes c _ _ h1 (List.getElem?_eq_getElem hlt)⟩

theorem SameButHooked.createCls {env env' : Env} (h : SameButHooked env env') :
    ∀ n c, createCls env' n c = createCls env n c := by
  intro n
  induction n with
  | zero => intro c; rfl
  | succ n ih =>
    intro c
    simp only [Verif.createCls]
    rcases h.look c with ⟨h1, h2⟩ | ⟨cd, cd', h1, h2, rfl | ⟨f, h3, h4⟩⟩
    · rw [h1, h2]
    · rw [h1, h2]
      simp only [h.createWith ih]
    · rw [h1, h2]
      simp only [ClassDef.serFields, h3, h4, forRes]

theorem SameButHooked.serCreate {env env' : Env} (h : SameButHooked env env') (t : Ty) : serCreate env' t = serCreate env t := by
  unfold Verif.serCreate
  rw [h.length]
  exact h.createWith (h.createCls _) t

theorem SameButHooked.genD {env env' : Env} (h : SameButHooked env env') (raw : Val) (kids : VKids) :
    ∀ t, genD env' raw kids t = genD env raw kids t := by
  have hev : enumValue env' = enumValue env := by funext e m; simp only [enumValue, h.enums]
  have hkv : keyValue env' = keyValue env := by funext k; cases k <;> simp only [keyValue, hev]
  have hks : keyStr env' = keyStr env := by funext k; cases k <;> simp only [keyStr, h.enums]
  have huk : ∀ fs, untypedKey env' fs = untypedKey env fs := by
    intro fs
    unfold untypedKey
    split <;> assumption
  have hen : ∀ e, genEnum env' raw e = genEnum env raw e := by intro e; simp only [genEnum, h.enums, hev]
  have hcl : ∀ c, genCls env' raw kids c = genCls env raw kids c := by
    intro c
    simp only [genCls]
    rcases h.look c with ⟨h1, h2⟩ | ⟨cd, cd', h1, h2, rfl | ⟨f, h3, h4⟩⟩
    · rw [h1, h2]
    · rw [h1, h2]
    · rw [h1, h2]; simp only [h3, h4]
  have hsh : ∀ t, genShape env' raw kids t = genShape env raw kids t := by
    intro t
    cases t <;> simp only [genShape, huk, hkv, hen, hcl]
    
  intro t
  generalize hsz : sizeOf t = sz
  induction sz using Nat.strongRecOn generalizing t with
  | _ sz ih =>
    cases t <;> simp only [Verif.genD, hsh, h.serCreate]
    exact ih _ (by subst hsz; simp; omega) _ rfl

mutual
theorem SameButHooked.gen {env env' : Env} (h : SameButHooked env env') : ∀ v t, gen env' v t = gen env v t
  | .list vs, t => by simp only [Verif.gen, h.genSeq vs, h.genD]
  | .set vs, t => by simp only [Verif.gen, h.genSeq vs, h.genD]
  | .tuple vs, t => by simp only [Verif.gen, h.genSeq vs, h.genD]
  | .dict kvs, t => by simp only [Verif.gen, h.genDict kvs, h.genD]
  | .obj c fs, t => by simp only [Verif.gen, h.genObj fs, h.genD]
  | .none, _ | .bool _, _ | .int _, _ | .float _, _ | .str _, _ | .bytes _, _ | .datetime _, _ | .date _, _ | .time _, _
  | .timedelta _, _ | .uuid _, _ | .ipv4 _, _ | .ipv6 _ _, _ | .enum _ _, _ => by simp only [Verif.gen, h.genD]
theorem SameButHooked.genSeq {env env' : Env} (h : SameButHooked env env') : ∀ vs, genSeq env' vs = genSeq env vs
  | [] => rfl
  | v :: vs => by simp only [Verif.genSeq, h.genSeq vs, funext (h.gen v)]
theorem SameButHooked.genDict {env env' : Env} (h : SameButHooked env env') : ∀ vs, genDict env' vs = genDict env vs
  | [] => rfl
  | (k, v) :: vs => by simp only [Verif.genDict, h.genDict vs, funext (h.gen v)]
theorem SameButHooked.genObj {env env' : Env} (h : SameButHooked env env') : ∀ vs, genObj env' vs = genObj env vs
  | [] => rfl
  | (k, v) :: vs => by simp only [Verif.genObj, h.genObj vs, funext (h.gen v)]
end

/-! ### Reading -/

theorem parseKey_keyText {env : Env} (hk : env.Ok) {k : KeyTy} {s : Str} {key key' : Key} (ht : keyText env key = some s)
    (hm : match k with | .str => key = .str s | .enum e => ∃ m, key = .enum e m | .int | .other => False)
    (h : parseKey env k s = .ok key') : key' = key := by
  cases k with
  | str => simp only at hm; subst hm; simp [parseKey] at h; exact h.symm
  | int | other => exact hm.elim
  | enum e =>
    obtain ⟨m, rfl⟩ := hm
    obtain ⟨ed, m', name, h1, h2, rfl⟩ := parseKey_enum_ok h
    simp only [keyText, h1] at ht
    split at ht
    · rename_i n s' hms
      cases ht
      have hok := hk.enums ed (List.mem_of_getElem? h1)
      have key : ∀ a b : Nat, a < b → ∀ n1 n2, ed.members[a]? = some (n1, .str s) → ed.members[b]? = some (n2, .str s) → False := by
        intro a b hab n1 n2 ha hb
        obtain ⟨la, ea⟩ := List.getElem?_eq_some_iff.1 ha
        obtain ⟨lb, eb⟩ := List.getElem?_eq_some_iff.1 hb
        have := List.pairwise_iff_getElem.1 hok a b la lb hab
        rw [ea, eb] at this
        simp [Scalar.pyEq] at this
      rcases Nat.lt_trichotomy m m' with hlt | rfl | hlt
      · exact (key _ _ hlt _ _ hms h2).elim
      · rfl
      · exact (key _ _ hlt _ _ h2 hms).elim
    · cases ht

theorem All2.nodup_keys {α : Type} {β : Type} {R : Str × α → Key × β → Prop} {as : List (Str × α)} {bs : List (Key × β)}
    (hn : (as.map (·.1)).Nodup) (h : All2 R as bs) (hi : ∀ a b c d, R a b → R c d → b.1 = d.1 → a.1 = c.1) :
    (bs.map (·.1)).Nodup := by
  induction h with
  | nil => simp
  | @cons a b as bs hab htl ih =>
    simp only [List.map_cons, List.nodup_cons] at hn ⊢
    refine ⟨?_, ih hn.2⟩
    intro hm
    obtain ⟨d, hd, he⟩ := List.mem_map.1 hm
    obtain ⟨c, hc, hcd⟩ := htl.mem_right hd
    exact hn.1 (hi _ _ _ _ hab hcd he.symm ▸ List.mem_map.2 ⟨c, hc, rfl⟩)

theorem All2.names {R : FieldDef → Str × Val → Prop} {as : List FieldDef} {bs : List (Str × Val)} (h : All2 R as bs)
    (hn : ∀ a b, R a b → b.1 = a.name) : bs.map (·.1) = as.map (·.name) := by
  induction h with
  | nil => rfl
  | cons hab _ ih => simp [hn _ _ hab, ih]

/-- What is read at a position. -/
theorem read_at {env : Env} (hk : env.Ok) {skip : Bool} {t u : Ty} {j y : Json} {p : List JStep} {q : List VStep}
    (hr : ReadAt env skip t j p q u y) : ∀ {v : Val}, j.Wf → loads env skip t j = .ok v →
      ∃ w, j.at p = some y ∧ v.at q = some w ∧ loads env skip u y = .ok w := by
  induction hr with
  | here => intro v _ h; exact ⟨v, rfl, rfl, h⟩
  | union he _ ih => intro v hw h; rw [he] at h; exact ih hw h
  | annotated _ ih => intro v hw h; simp only [loads, compile] at h ih; exact ih hw h
  | list hi _ ih =>
    intro v hw h
    have hs := supported_list (loads_ok_supported h)
    obtain ⟨xs', vs, he, rfl, ha⟩ := (C15_list env skip _ hs _ _).1 h
    cases he
    obtain ⟨b, hb, hl⟩ := ha.get _ _ hi
    cases hw with
    | arr hw =>
      obtain ⟨w, h1, h2, h3⟩ := ih (hw _ (List.mem_of_getElem? hi)) hl
      exact ⟨w, by simp only [Json.at, hi]; exact h1, by simp only [Val.at, hb]; exact h2, h3⟩
  | @tuple ts xs i t x p q u y ht hi _ ih =>
    intro v hw h
    have hs := supported_tuple (loads_ok_supported h)
    obtain ⟨xs', vs, he, rfl, hl1, hl2, ha⟩ := (C15_tuple env skip _ hs _ _).1 h
    cases he
    have hlt : i < vs.length := by have := (List.getElem?_eq_some_iff.1 ht).1; omega
    have hb := List.getElem?_eq_getElem hlt
    cases hw with
    | arr hw =>
      obtain ⟨w, h1, h2, h3⟩ := ih (hw _ (List.mem_of_getElem? hi)) (ha _ _ _ _ hi ht hb)
      exact ⟨w, by simp only [Json.at, hi]; exact h1, by simp only [Val.at, hb]; exact h2, h3⟩
  | @dict k t kvs s key x p q u y hl ht hkm _ ih =>
    intro v hw h
    obtain ⟨d, hd⟩ := loads_ok_supported h
    simp only [compile] at hd
    split at hd
    · cases hd
    split at hd
    · rename_i d' hd'
      rw [loads_of_compile (d := .dict k d') (by simp only [compile]; rename_i hck _; rw [hck]; simp only [hd'])] at h
      cases hw with
      | obj hn hwk =>
        obtain ⟨out, rfl, ha⟩ := (parse_dict_obj _ _ _ _ _ hn _).1 h
        obtain ⟨⟨k1, w1⟩, hm1, hp1, hp2⟩ := ha.mem_left (lookupKey_some_mem hl)
        cases parseKey_keyText hk ht hkm hp1
        have hout : (out.map (·.1)).Nodup := by
          refine All2.nodup_keys hn ha fun a b c d h1 h2 he => ?_
          rw [he] at h1
          exact parseKey_inj h1.1 h2.1
        obtain ⟨w, h1, h2, h3⟩ := ih (hwk _ (lookupKey_some_mem hl)) (by rw [loads_of_compile hd']; exact hp2)
        exact ⟨w, by simp only [Json.at, hl]; exact h1, by simp only [Val.at, lookupKey_of_mem hout hm1]; exact h2, h3⟩
    · cases hd
  | @cls c cd f kvs x p q u y hc hcu hf hl hx _ ih =>
    intro v hw h
    obtain ⟨cd', hc', hrd⟩ := readable_of_ok hk h
    rw [hc] at hc'
    cases hc'
    have hrd : Readable env c cd := by
      rcases hrd with hrd | hrd
      · rw [hcu] at hrd; cases hrd
      · exact hrd
    obtain ⟨kvs', vs, he, rfl, ha, _⟩ := (loads_cls_ok_iff hk skip hrd _ _).1 h
    cases he
    obtain ⟨⟨n, w0⟩, hm, h1, h2⟩ := ha.mem_left hf
    simp only at h1 h2
    subst h1
    have hn : (vs.map (·.1)).Nodup := by
      have : vs.map (·.1) = cd.hints.map (·.name) := by
        exact All2.names ha fun _ _ h => h.1
      rw [this]
      exact hints_nodup hk hc
    have h2' : loads env skip (fieldTy cd.kind f) x = .ok w0 := by
      unfold readField at h2
      rw [hl] at h2
      cases x <;> first | exact absurd rfl hx | exact h2
    cases hw with
    | obj _ hwk =>
      obtain ⟨w, h4, h5, h6⟩ := ih (hwk _ (lookupKey_some_mem hl)) h2'
      exact ⟨w, by simp only [Json.at, hl]; exact h4, by simp only [Val.at, lookupKey_of_mem hn hm]; exact h5, h6⟩

end Verif
