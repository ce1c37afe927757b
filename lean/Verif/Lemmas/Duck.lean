import Verif.Spec.Duck
import Verif.Lemmas.Writes
/-!
# Serializers for objects of whatever type
-/
namespace Verif

variable {py : Builtins} {env : Env}

theorem pyIter_iff {v : Val} {vs : List Val} : pyIter env v = some vs ↔ Yields env v vs := by
  constructor
  · intro h
    unfold pyIter at h
    split at h <;> first | cases h | skip
    · exact .items .list
    · exact .items .set
    · exact .items .tuple
    · exact .str
    · exact .bytes
    · exact .dict
    · rename_i c fs
      split at h
      · rename_i cd hc
        split at h
        · rename_i b hk; cases h; exact .tuple hc hk
        · cases h
      · cases h
  · intro h
    cases h with
    | items h => cases h <;> rfl
    | str => rfl
    | bytes => rfl
    | dict => rfl
    | tuple hc hk => simp only [pyIter, hc, hk]

theorem pyIter_none {v : Val} : pyIter env v = none ↔ ∀ vs, ¬ Yields env v vs := by
  constructor
  · intro h vs hy
    rw [pyIter_iff.2 hy] at h; cases h
  · intro h
    cases hp : pyIter env v with
    | none => rfl
    | some vs => exact absurd (pyIter_iff.1 hp) (h vs)

theorem noAttr_error {α : Type} {names : List Str} {v : Val} {e : Err} (hm : e ≠ .outOfModel) (h : noAttr (α := α) names v = .error e) :
    e = .attribute := by
  unfold noAttr at h
  split at h
  · split at h <;> cases h
    · exact absurd rfl hm
    · rfl
  · cases h; rfl

theorem noAttr_ok {α : Type} {names : List Str} {v : Val} {x : α} : noAttr names v ≠ .ok x := by
  intro h
  unfold noAttr at h
  split at h
  · split at h <;> cases h
  · cases h

/-! ### Loops -/

section
variable {α : Type} {f : α → Res (Option (Key × Val))}

theorem wLoop_error {xs : List α} : ∀ {acc : List (Key × Val)} {e : Err}, wLoop f acc xs = .error e → ∃ x ∈ xs, f x = .error e := by
  induction xs with
  | nil => intro acc e h; cases h
  | cons x xs ih =>
    intro acc e h
    simp only [wLoop] at h
    split at h
    · rename_i hx; cases h; exact ⟨x, by simp, hx⟩
    · obtain ⟨y, hy, h⟩ := ih h; exact ⟨y, by simp [hy], h⟩
    · obtain ⟨y, hy, h⟩ := ih h; exact ⟨y, by simp [hy], h⟩

theorem wLoop_all {xs : List α} : ∀ {acc : List (Key × Val)} {r : Val}, wLoop f acc xs = .ok r → ∀ x ∈ xs, ∃ p, f x = .ok p := by
  induction xs with
  | nil => intro acc e h x hx; cases hx
  | cons x xs ih =>
    intro acc e h y hy
    simp only [wLoop] at h
    split at h
    · cases h
    · rename_i hx
      rcases List.mem_cons.1 hy with rfl | hy
      · exact ⟨_, hx⟩
      · exact ih h y hy
    · rename_i hx
      rcases List.mem_cons.1 hy with rfl | hy
      · exact ⟨_, hx⟩
      · exact ih h y hy

/-- Entries of the result come from the items. -/
theorem wLoop_entries {xs : List α} : ∀ {acc : List (Key × Val)} {r : Val}, wLoop f acc xs = .ok r →
    ∃ kvs, r = .dict kvs ∧ ∀ kv ∈ kvs, kv ∈ acc ∨ ∃ x ∈ xs, f x = .ok (some kv) := by
  induction xs with
  | nil => intro acc e h; cases h; exact ⟨_, rfl, fun kv h => .inl h⟩
  | cons x xs ih =>
    intro acc e h
    simp only [wLoop] at h
    split at h
    · cases h
    · obtain ⟨kvs, rfl, hk⟩ := ih h
      refine ⟨kvs, rfl, fun kv hkv => ?_⟩
      rcases hk kv hkv with h | ⟨y, hy, h⟩
      · exact .inl h
      · exact .inr ⟨y, by simp [hy], h⟩
    · rename_i p hx
      obtain ⟨kvs, rfl, hk⟩ := ih h
      refine ⟨kvs, rfl, fun kv hkv => ?_⟩
      rcases hk kv hkv with h | ⟨y, hy, h⟩
      · rcases upsert_mem h with h | h
        · exact .inr ⟨x, by simp, by rw [hx, h]⟩
        · exact .inl h
      · exact .inr ⟨y, by simp [hy], h⟩

end

theorem wPair_error {key : Key → Res Key} {gen : Val → Res Val} {kv : Key × Val} {e : Err} (h : wPair key gen kv = .error e) :
    key kv.1 = .error e ∨ gen kv.2 = .error e := by
  unfold wPair at h
  split at h
  · rename_i he; cases h; exact .inl he
  · split at h
    · rename_i he; cases h; exact .inr he
    · cases h

theorem wPair_ok {key : Key → Res Key} {gen : Val → Res Val} {kv : Key × Val} {p : Option (Key × Val)} (h : wPair key gen kv = .ok p) :
    ∃ k x, key kv.1 = .ok k ∧ gen kv.2 = .ok x ∧ p = some (k, x) := by
  unfold wPair at h
  split at h
  · cases h
  · rename_i k hk
    split at h
    · cases h
    · rename_i x hx; cases h; exact ⟨k, x, hk, hx, rfl⟩

theorem wField_error {kind : ClassKind} {gen : Val → Ty → Res Val} {fs : List (Str × Val)} {fd : FieldDef} {e : Err}
    (h : wField kind gen fs fd = .error e) :
    (e = .attribute ∧ lookupKey fd.name fs = none) ∨ ∃ v, lookupKey fd.name fs = some v ∧ v ≠ .none ∧ gen v fd.ty = .error e := by
  unfold wField at h
  split at h
  · rename_i hl; cases h; exact .inl ⟨rfl, hl⟩
  · rename_i v hl
    split at h
    · cases h
    · rename_i hn
      split at h
      · rename_i he; cases h; exact .inr ⟨v, hl, isNone_false.1 (by simpa using hn), he⟩
      · cases h

theorem wField_ok {kind : ClassKind} {gen : Val → Ty → Res Val} {fs : List (Str × Val)} {fd : FieldDef} {p : Option (Key × Val)}
    (h : wField kind gen fs fd = .ok p) : ∃ v, lookupKey fd.name fs = some v ∧
      ((v = .none ∧ p = none) ∨ (v ≠ .none ∧ ∃ x, gen v fd.ty = .ok x ∧ p = some (.str (writeProp kind fd), x))) := by
  unfold wField at h
  split at h
  · cases h
  · rename_i v hl
    refine ⟨v, hl, ?_⟩
    split at h
    · rename_i hn
      cases h
      cases v <;> simp [Val.isNone] at hn
      exact .inl ⟨rfl, rfl⟩
    · rename_i hn
      split at h
      · cases h
      · rename_i x hx; cases h; exact .inr ⟨isNone_false.1 (by simpa using hn), x, hx, rfl⟩

theorem wMember_error {gen : Val → Res Val} {fs : List (Str × Val)} {fd : FieldDef} {e : Err}
    (h : wMember gen fs fd = .error e) :
    (e = .attribute ∧ lookupKey fd.name fs = none) ∨ ∃ v, lookupKey fd.name fs = some v ∧ gen v = .error e := by
  unfold wMember at h
  split at h
  · rename_i hl; cases h; exact .inl ⟨rfl, hl⟩
  · rename_i v hl
    split at h
    · rename_i he; cases h; exact .inr ⟨v, hl, he⟩
    · cases h

theorem wMember_ok {gen : Val → Res Val} {fs : List (Str × Val)} {fd : FieldDef} {p : Option (Key × Val)}
    (h : wMember gen fs fd = .ok p) : ∃ v x, lookupKey fd.name fs = some v ∧ gen v = .ok x ∧
      p = some (.str (fieldToProperty fd.name none), x) := by
  unfold wMember at h
  split at h
  · cases h
  · rename_i v hl
    split at h
    · cases h
    · rename_i x hx; cases h; exact ⟨v, x, hl, hx, rfl⟩

theorem wAttr_error {gen : Val → Res Val} {f : Str × Val} {e : Err} (h : wAttr gen f = .error e) :
    ¬ SpecialName f.1 ∧ f.2 ≠ .none ∧ gen f.2 = .error e := by
  unfold wAttr at h
  split at h
  · cases h
  · rename_i hn
    simp only [Bool.or_eq_true, not_or, Bool.not_eq_true] at hn
    split at h
    · rename_i he
      cases h
      exact ⟨fun h => (by rw [← isReserved_iff] at h; rw [h] at hn; cases hn.1), isNone_false.1 hn.2, he⟩
    · cases h

theorem wAttr_ok {gen : Val → Res Val} {f : Str × Val} {p : Option (Key × Val)} (h : wAttr gen f = .ok p) :
    ((SpecialName f.1 ∨ f.2 = .none) ∧ p = none) ∨
      (¬ SpecialName f.1 ∧ f.2 ≠ .none ∧ ∃ x, gen f.2 = .ok x ∧ p = some (.str (fieldToProperty f.1 none), x)) := by
  unfold wAttr at h
  split at h
  · rename_i hn
    cases h
    refine .inl ⟨?_, rfl⟩
    simp only [Bool.or_eq_true] at hn
    rcases hn with hn | hn
    · exact .inl (isReserved_iff.1 hn)
    · refine .inr ?_
      generalize f.2 = v at hn
      cases v <;> simp [Val.isNone] at hn
      rfl
  · rename_i hn
    simp only [Bool.or_eq_true, not_or, Bool.not_eq_true] at hn
    split at h
    · cases h
    · rename_i x hx
      cases h
      exact .inr ⟨fun h => (by rw [← isReserved_iff] at h; rw [h] at hn; cases hn.1), isNone_false.1 hn.2, x, hx, rfl⟩

theorem wItems_error {f : Val → Res Val} {vs : List Val} {e : Err} (h : wItems f vs = .error e) : ∃ x ∈ vs, f x = .error e := by
  unfold wItems at h
  split at h
  · rename_i he
    cases h
    obtain ⟨pre, x, post, rfl, hx, -⟩ := (mapRes_error_iff _ _ _).1 he
    exact ⟨x, by simp, hx⟩
  · cases h

theorem wItems_ok {f : Val → Res Val} {vs : List Val} {r : Val} (h : wItems f vs = .ok r) :
    ∃ rs, r = .list rs ∧ All2 (fun x y => f x = .ok y) vs rs := by
  unfold wItems at h
  split at h
  · cases h
  · rename_i rs hr; cases h; exact ⟨rs, rfl, (mapRes_ok_iff _ _ _).1 hr⟩

/-! ### The cases of `wgen` -/

theorem wgen_iter {n : Nat} {v : Val} {t : Ty} {r : Res Val} (h : (match pyIter env v with
      | some vs => wItems (fun x => wgen py env n x t) vs | none => .error .typeError) = r) :
    (r = .error .typeError ∧ ∀ vs, ¬ Yields env v vs) ∨ ∃ vs, Yields env v vs ∧ wItems (fun x => wgen py env n x t) vs = r := by
  cases hp : pyIter env v with
  | none => rw [hp] at h; exact .inl ⟨h.symm, pyIter_none.1 hp⟩
  | some vs => rw [hp] at h; exact .inr ⟨vs, pyIter_iff.1 hp, h⟩

theorem bare_ty {t : Ty} (ht : t ∈ [Ty.bareList, .bareSet, .bareTuple]) {n : Nat} {v : Val} : wgen py env (n + 1) v t =
    match pyIter env v with | some vs => wItems (fun x => wgen py env n x dynTy) vs | none => .error .typeError := by
  simp only [List.mem_cons, List.not_mem_nil, or_false] at ht
  rcases ht with rfl | rfl | rfl <;> rfl

theorem wItems_mem {n : Nat} {t : Ty} {v : Val} {vs : List Val} {x r : Val} (hy : Yields env v vs) (hx : x ∈ vs)
    (h : (match pyIter env v with | some vs => wItems (fun x => wgen py env n x t) vs | none => .error .typeError) = .ok r) :
    ∃ r', wgen py env n x t = .ok r' := by
  rw [pyIter_iff.2 hy] at h
  obtain ⟨rs, -, ha⟩ := wItems_ok h
  obtain ⟨y, _, hy⟩ := ha.mem_left hx
  exact ⟨y, hy⟩

theorem annotated_props {cd : ClassDef} (ha : cd.Annotated) {gen : Val → Ty → Res Val} {c c' : Nat} {fs : List (Str × Val)}
    (hc : env.classes[c]? = some cd) (hj : cd.toJson = none) :
    wCls py env gen c (.obj c' fs) = wLoop (wField cd.kind gen fs) [] cd.fields := by
  simp only [wCls, hc, hj]
  rcases ha with ⟨fr, hk⟩ | hk | ⟨hk, hne⟩
  · rw [hk]
  · rw [hk]
  · rw [hk]
    dsimp only
    rw [if_neg (by simpa using hne)]

/-! ### Parts of an object that was written were written -/

theorem step_written {t u : Ty} {v w : Val} (hp : DuckStep env t v u w) {n : Nat} {r : Val} (h : wgen py env (n + 1) v t = .ok r) :
    ∃ r, wgen py env n w u = .ok r := by
  cases hp with
  | annotated => exact ⟨r, h⟩
  | union =>
    simp only [wgen] at h
    split at h
    · cases h
    · exact ⟨r, h⟩
  | list he hx | set he hx => exact wItems_mem he hx h
  | tuple he hx =>
    simp only [wgen, pyIter_iff.2 he] at h
    split at h
    · cases h
    · rename_i rs hr
      obtain ⟨y, _, hy⟩ := ((mapRes_ok_iff _ _ _).1 hr).mem_left hx
      exact ⟨y, hy⟩
  | bare ht he hx =>
    rw [bare_ty ht] at h
    exact wItems_mem he hx h
  | @dict k _ kvs kv hx =>
    have : ∃ key, wLoop (wPair key (fun x => wgen py env n x u)) [] kvs = .ok r := by
      cases k <;> simp only [wgen] at h
      all_goals first | exact ⟨_, h⟩ | cases h
    obtain ⟨key, h⟩ := this
    obtain ⟨p, hp⟩ := wLoop_all h kv hx
    obtain ⟨_, x, _, hx, _⟩ := wPair_ok hp
    exact ⟨x, hx⟩
  | @bareDict kvs kv hx =>
    obtain ⟨p, hp⟩ := wLoop_all h kv hx
    obtain ⟨_, x, _, hx, _⟩ := wPair_ok hp
    exact ⟨x, hx⟩
  | @field c cd c' fs f x hc hj ha hf hl hn =>
    have h : wCls py env (wgen py env n) c (.obj c' fs) = .ok r := h
    rw [annotated_props ha hc hj] at h
    obtain ⟨p, hp⟩ := wLoop_all h f hf
    obtain ⟨v, hv, ⟨rfl, _⟩ | ⟨_, y, hy, _⟩⟩ := wField_ok hp
    · rw [hl] at hv; cases hv; exact absurd rfl hn
    · rw [hl] at hv; cases hv; exact ⟨y, hy⟩
  | @untypedField c cd c' fs f x hc hj hk hf hl =>
    simp only [wgen, wCls, hc, hj, hk] at h
    obtain ⟨p, hp⟩ := wLoop_all h f hf
    obtain ⟨v, y, hv, hy, _⟩ := wMember_ok hp
    rw [hl] at hv; cases hv; exact ⟨y, hy⟩
  | @attr c cd c' fs m x hc hj hk hf hm hr hn =>
    simp only [wgen, wCls, hc, hj, hk, hf] at h
    rw [List.isEmpty_nil, if_pos rfl] at h
    obtain ⟨p, hp⟩ := wLoop_all h (m, w) (mem_sortByName.2 hm)
    rcases wAttr_ok hp with ⟨h | h, _⟩ | ⟨_, _, y, hy, _⟩
    · exact absurd h hr
    · exact absurd h hn
    · exact ⟨y, hy⟩

theorem duck_written {t u : Ty} {v w : Val} (hp : DuckPart env t v u w) : ∀ {n : Nat} {r : Val}, wgen py env n v t = .ok r →
    ∃ n r, wgen py env n w u = .ok r := by
  induction hp with
  | here => intro n r h; exact ⟨n, r, h⟩
  | step hs _ ih =>
    intro n r h
    cases n with
    | zero => cases h
    | succ n =>
      obtain ⟨r', h⟩ := step_written hs h
      exact ih h

/-! ### What fails is not written -/

theorem wKeyValue_key {k k' : Key} (h : wKeyValue env k = .ok k') : ∃ e m, k = .enum e m := by
  cases k with
  | enum e m => exact ⟨e, m, rfl⟩
  | _ => cases h

theorem duck_fails {u : Ty} {w : Val} {e : Err} (hf : DuckFails env u w e) : ∀ n r, wgen py env n w u ≠ .ok r := by
  intro n r h
  cases n with
  | zero => cases h
  | succ n =>
    cases hf with
    | same hf =>
      cases hf with
      | naive hd => simp only [wgen, wDateTime, dtSerialize, hd] at h; cases h
      | creation hc => simp only [wgen, hc] at h; cases h
      | method hc hf he => simp only [wgen, wCls, hc, hf, he] at h; cases h
      | enumMethod hc hf he => simp only [wgen, wEnum, hc, hf, he, if_true] at h; cases h
      | literalMethod hc hf he => simp only [wgen, wEnum, hc, hf, he, if_true] at h; cases h
      | @missing c cd c' fs f hc hj hf hl =>
        simp only [wgen, wCls, hc, hj] at h
        split at h
        · obtain ⟨p, hp⟩ := wLoop_all h f hf
          obtain ⟨v, y, hv, _⟩ := wMember_ok hp
          rw [hl] at hv; cases hv
        · split at h
          · rename_i hne
            rw [List.isEmpty_iff] at hne
            rw [hne] at hf; cases hf
          · obtain ⟨p, hp⟩ := wLoop_all h f hf
            obtain ⟨v, hv, _⟩ := wField_ok hp
            rw [hl] at hv; cases hv
        · obtain ⟨p, hp⟩ := wLoop_all h f hf
          obtain ⟨v, hv, _⟩ := wField_ok hp
          rw [hl] at hv; cases hv
      | key hm hk =>
        obtain ⟨p, hp⟩ := wLoop_all h _ hm
        obtain ⟨k, _, h1, _⟩ := wPair_ok hp
        obtain ⟨e, m, he⟩ := wKeyValue_key h1
        exact hk e m he
      | mixedKeys hm hk =>
        obtain ⟨p, hp⟩ := wLoop_all h _ (List.mem_cons_of_mem _ hm)
        obtain ⟨k, _, h1, _⟩ := wPair_ok hp
        obtain ⟨e, m, he⟩ := wKeyValue_key h1
        exact hk e m he
    | bytes hw =>
      cases w <;> first | exact hw _ rfl | cases h
    | naiveTime ht => simp only [wgen, wDateTime, ht] at h; cases h
    | datetime h1 h2 =>
      cases w <;> simp only [wgen, wDateTime] at h <;> first | exact h1 _ rfl | exact h2 _ rfl | exact noAttr_ok h
    | date h1 | time h1 =>
      cases w <;> simp only [wgen, wIso] at h <;> first | exact h1 (by constructor) | exact noAttr_ok h
    | timedelta h1 =>
      cases w <;> simp only [wgen] at h <;> first | exact h1 _ rfl | exact noAttr_ok h
    | list hy | set hy => simp only [wgen, pyIter_none.2 hy] at h; cases h
    | tuple hy => simp only [wgen, pyIter_none.2 hy] at h; cases h
    | bare ht hy => rw [bare_ty ht, pyIter_none.2 hy] at h; cases h
    | dict h1 => cases w <;> simp only [wgen] at h <;> first | exact h1 _ rfl | exact noAttr_ok h
    | bareDict h1 => cases w <;> simp only [wgen] at h <;> first | exact h1 _ rfl | exact noAttr_ok h
    | enum hc hj h1 h2 | literal hc hj h1 h2 =>
      simp only [wgen, wEnum, hc, hj] at h
      split at h
      · exact h1 _ _ rfl
      · split at h
        · rename_i hl; exact h2 _ _ _ rfl hl
        · cases h
      · cases h
    | cls hc hj hne h1 =>
      cases w with
      | obj c fs => exact h1 _ _ rfl
      | _ =>
        simp only [wgen, wCls, hc, hj] at h
        split at h
        · cases h
        · split at h
          · rename_i hn; exact hne hn
          · split at h <;> cases h

/-! ### Exceptions come from parts -/

theorem noAttr_cases {names : List Str} {v : Val} {e : Err} (h : noAttr names v = (.error e : Res α)) :
    e = .attribute ∨ (e = .outOfModel ∧ v.HasMember names) := by
  unfold noAttr at h
  split at h
  · split at h
    · rename_i ha
      cases h
      obtain ⟨f, hf, hn⟩ := List.any_eq_true.1 ha
      exact .inr ⟨rfl, _, _, f.1, f.2, rfl, hf, by simpa using hn⟩
    · cases h; exact .inl rfl
  · cases h; exact .inl rfl

theorem Val.HasMember.mono {v : Val} {ns ms : List Str} (h : v.HasMember ns) (hs : ns ⊆ ms) : v.HasMember ms := by
  obtain ⟨c, fs, n, x, h1, h2, h3⟩ := h
  exact ⟨c, fs, n, x, h1, h2, hs h3⟩

theorem enumValue_error {a b : Nat} {e : Err} (h : enumValue env a b = .error e) : e = .outOfModel := by
  unfold enumValue at h
  split at h
  · cases h; rfl
  · split at h
    · cases h; rfl
    · cases h

theorem wKeyValue_error {k : Key} {e : Err} (h : wKeyValue env k = .error e) :
    (e = .attribute ∧ ∀ n m, k ≠ .enum n m) ∨ (e = .outOfModel ∧ ∃ a b, k = .enum a b ∧ (∀ s, enumValue env a b ≠ .ok (.str s)) ∧
      ∀ i, enumValue env a b ≠ .ok (.int i)) := by
  unfold wKeyValue at h
  split at h
  · rename_i a b
    split at h
    · rename_i e' he
      cases h
      exact .inr ⟨enumValue_error he, a, b, rfl, fun s h => (by rw [he] at h; cases h), fun s h => (by rw [he] at h; cases h)⟩
    · cases h
    · cases h
    · rename_i x h1 h2 hv
      cases h
      refine .inr ⟨rfl, a, b, rfl, fun s h => ?_, fun s h => ?_⟩
      · rw [hv] at h; cases h; exact h1 s rfl
      · rw [hv] at h; cases h; exact h2 s rfl
  · rename_i hk
    cases h
    exact .inl ⟨rfl, fun n m h => hk n m h⟩

theorem keyStr_outside {k : Key} {e : Err} (h : keyStr env k = .error e) :
    e = .outOfModel ∧ ∃ a b, k = .enum a b ∧ (∀ s, enumValue env a b ≠ .ok (.str s)) ∧ ∀ i, enumValue env a b ≠ .ok (.int i) := by
  unfold keyStr at h
  split at h
  · cases h
  · cases h
  · rename_i a b
    have hv : e = .outOfModel ∧ enumValue env a b = .error .outOfModel := by
      split at h
      · rename_i hn; cases h; exact ⟨rfl, by simp only [enumValue, hn]⟩
      · rename_i ed hn
        split at h
        · rename_i hk; cases h; exact ⟨rfl, by simp only [enumValue, hn, hk]⟩
        · cases h
    exact ⟨hv.1, a, b, rfl, fun s h => (by rw [hv.2] at h; cases h), fun s h => (by rw [hv.2] at h; cases h)⟩

theorem wEnum_error {n : Nat} {w : Val} {e : Err} (h : wEnum env n w = .error e) :
    (e = .outOfModel ∧ env.enums[n]? = none) ∨ ∃ ed, env.enums[n]? = some ed ∧
      ((∃ f m, ed.toJson = some f ∧ w = .enum n m ∧ f m = .error e) ∨
      (e = .outOfModel ∧ ∃ f, ed.toJson = some f ∧ ∀ m, w ≠ .enum n m) ∨
      (e = .outOfModel ∧ ∃ a b, w = .enum a b ∧ enumValue env a b = .error .outOfModel) ∨
      (e = .attribute ∧ ed.toJson = none ∧ (∀ e m, w ≠ .enum e m) ∧ ∀ c fs x, w = .obj c fs → lookupKey c!"value" fs ≠ some x)) := by
  unfold wEnum at h
  split at h
  · rename_i hn; cases h; exact .inl ⟨rfl, hn⟩
  · rename_i ed hc
    refine .inr ⟨ed, hc, ?_⟩
    split at h
    · rename_i f hf
      split at h
      · split at h
        · rename_i hn
          split at h
          · rename_i he; cases h; exact .inl ⟨f, _, hf, by rw [hn], he⟩
          · cases h
        · rename_i hn; cases h; exact .inr (.inl ⟨rfl, f, hf, fun m h => (by cases h; exact hn rfl)⟩)
      · rename_i hn; cases h; exact .inr (.inl ⟨rfl, f, hf, fun m h => hn _ _ h⟩)
    · rename_i hj
      split at h
      · split at h
        · rename_i e' he
          cases h
          obtain rfl := enumValue_error he
          exact .inr (.inr (.inl ⟨rfl, _, _, rfl, he⟩))
        · cases h
      · split at h
        · cases h
        · rename_i hl
          cases h
          refine .inr (.inr (.inr ⟨rfl, hj, fun _ _ h => (by cases h), fun c fs x h => ?_⟩))
          cases h; rw [hl]; simp
      · rename_i h1 h2
        cases h
        exact .inr (.inr (.inr ⟨rfl, hj, fun e m h => h1 e m h, fun c fs x h => absurd h (h2 c fs)⟩))

theorem iter_error {n : Nat} {t : Ty} {v : Val} {e : Err} (h : (match pyIter env v with
      | some vs => wItems (fun x => wgen py env n x t) vs | none => .error .typeError) = .error e) :
    (e = .typeError ∧ ∀ vs, ¬ Yields env v vs) ∨ ∃ vs x, Yields env v vs ∧ x ∈ vs ∧ wgen py env n x t = .error e := by
  cases hp : pyIter env v with
  | none => rw [hp] at h; cases h; exact .inl ⟨rfl, pyIter_none.1 hp⟩
  | some vs =>
    rw [hp] at h
    obtain ⟨x, hx, h⟩ := wItems_error h
    exact .inr ⟨vs, x, pyIter_iff.1 hp, hx, h⟩

theorem not_dict {v : Val} : (∃ kvs, v = .dict kvs) ∨ ∀ kvs, v ≠ .dict kvs := by
  cases v with
  | dict kvs => exact .inl ⟨kvs, rfl⟩
  | _ => exact .inr fun _ h => (by cases h)

/-- Why `v` is not written as type `t`. -/
def Why (py : Builtins) (env : Env) (n : Nat) (t : Ty) (v : Val) (e : Err) : Prop :=
  DuckFails env t v e ∨ (e = .outOfModel ∧ Outside py env t v) ∨ ∃ u w, DuckStep env t v u w ∧ wgen py env n w u = .error e

theorem Why.fails {n : Nat} {t : Ty} {v : Val} {e : Err} (h : DuckFails env t v e) : Why py env n t v e := .inl h
theorem Why.out {n : Nat} {t : Ty} {v : Val} (h : Outside py env t v) : Why py env n t v .outOfModel := .inr (.inl ⟨rfl, h⟩)
theorem Why.step {n : Nat} {t u : Ty} {v w : Val} {e : Err} (h : DuckStep env t v u w) (he : wgen py env n w u = .error e) :
    Why py env n t v e := .inr (.inr ⟨u, w, h, he⟩)

theorem step_error {e : Err} {n : Nat} {v : Val} {t : Ty} (h : wgen py env (n + 1) v t = .error e) : Why py env n t v e := by
  cases t with
  | none | bool | int | float | str | uuid | ipv4 | ipv6 => cases h
  | bytes =>
    simp only [wgen] at h
    split at h
    · cases h
    · rename_i hb; cases h; exact .fails (.bytes fun b h => hb b h)
  | datetime =>
    simp only [wgen, wDateTime] at h
    split at h
    · split at h
      · rename_i he
        cases h
        unfold dtSerialize at he
        split at he
        · rename_i ho; cases he; exact .fails (.same (.naive ho))
        · cases he
      · cases h
    · split at h
      · rename_i ho; cases h; exact .fails (.naiveTime ho)
      · cases h
    · rename_i h1 h2
      rcases noAttr_cases h with rfl | ⟨rfl, hh⟩
      · exact .fails (.datetime (fun d h => h1 d h) fun t h => h2 t h)
      · exact .out (.names (.inl (by simp)) (hh.mono (by intro x; simp; intro h; cases h <;> simp [*])))
  | date =>
    simp only [wgen, wIso] at h
    split at h
    · cases h
    · cases h
    · cases h
    · rename_i h1 h2 h3
      rcases noAttr_cases h with rfl | ⟨rfl, hh⟩
      · refine .fails (.date fun h => ?_)
        cases h
        · exact h1 _ rfl
        · exact h2 _ rfl
        · exact h3 _ rfl
      · exact .out (.names (.inl (by simp)) (hh.mono (by intro x; simp; intro h; simp [*])))
  | time =>
    simp only [wgen, wIso] at h
    split at h
    · cases h
    · cases h
    · cases h
    · rename_i h1 h2 h3
      rcases noAttr_cases h with rfl | ⟨rfl, hh⟩
      · refine .fails (.time fun h => ?_)
        cases h
        · exact h1 _ rfl
        · exact h2 _ rfl
        · exact h3 _ rfl
      · exact .out (.names (.inl (by simp)) (hh.mono (by intro x; simp; intro h; simp [*])))
  | timedelta =>
    simp only [wgen] at h
    split at h
    · cases h
    · rename_i h1
      rcases noAttr_cases h with rfl | ⟨rfl, hh⟩
      · exact .fails (.timedelta fun d h => h1 d h)
      · exact .out (.names (.inl (by simp)) (hh.mono (by intro x; simp; intro h; simp [*])))
  | bareList | bareSet | bareTuple =>
    rcases iter_error h with ⟨rfl, hy⟩ | ⟨vs, x, hy, hx, h⟩
    · exact .fails (.bare (by simp) hy)
    · exact .step (.bare (by simp) hy hx) h
  | list t =>
    rcases iter_error h with ⟨rfl, hy⟩ | ⟨vs, x, hy, hx, h⟩
    · exact .fails (.list hy)
    · exact .step (.list hy hx) h
  | set t =>
    rcases iter_error h with ⟨rfl, hy⟩ | ⟨vs, x, hy, hx, h⟩
    · exact .fails (.set hy)
    · exact .step (.set hy hx) h
  | tuple ts =>
    simp only [wgen] at h
    split at h
    · rename_i vs hy
      split at h
      · rename_i he
        cases h
        obtain ⟨pre, p, post, hz, hp, -⟩ := (mapRes_error_iff _ _ _).1 he
        exact .step (.tuple (pyIter_iff.1 hy) (t := p.1) (x := p.2) (by rw [hz]; simp)) hp
      · cases h
    · rename_i hy
      cases h
      exact .fails (.tuple (pyIter_none.1 hy))
  | bareDict =>
    rcases not_dict (v := v) with ⟨kvs, rfl⟩ | hd
    · obtain ⟨kv, hkv, h⟩ := wLoop_error h
      rcases wPair_error h with h | h
      · cases kvs with
        | nil => cases hkv
        | cons p r =>
          obtain ⟨k, x⟩ := p
          have hstr : (match keyStr env kv.1 with | .error e => .error e | .ok s => .ok (Key.str s)) = (.error e : Res Key) →
              Why py env n .bareDict (.dict ((k, x) :: r)) e := by
            intro h
            split at h
            · rename_i he
              cases h
              obtain ⟨rfl, a, b, hk, h1, h2⟩ := keyStr_outside he
              exact .out (.bareKeyValue (e := a) (m := b) (x := kv.2) (by rw [← hk]; exact hkv) h1 h2)
            · cases h
          cases k with
          | enum a b =>
            rcases wKeyValue_error h with ⟨rfl, hk⟩ | ⟨rfl, c, d, hk, h1, h2⟩
            · rcases List.mem_cons.1 hkv with rfl | hkv
              · exact absurd rfl (hk a b)
              · exact .fails (.same (.mixedKeys hkv hk))
            · exact .out (.bareKeyValue (e := c) (m := d) (x := kv.2) (by rw [← hk]; exact hkv) h1 h2)
          | str s => exact hstr h
          | int i => exact hstr h
      · exact .step (.bareDict hkv) h
    · have h : noAttr [c!"items", c!"keys"] v = (.error e : Res Val) := by
        cases v <;> first | exact h | exact absurd rfl (hd _)
      rcases noAttr_cases h with rfl | ⟨rfl, hh⟩
      · exact .fails (.bareDict hd)
      · exact .out (.names (.inl (by simp)) (hh.mono (by intro x; simp; intro h; cases h <;> simp [*])))
  | dict k t =>
    rcases not_dict (v := v) with ⟨kvs, rfl⟩ | hd
    · cases k with
      | str =>
        obtain ⟨kv, hkv, h⟩ := wLoop_error h
        rcases wPair_error h with h | h
        · cases h
        · exact .step (.dict hkv) h
      | enum a =>
        obtain ⟨kv, hkv, h⟩ := wLoop_error h
        rcases wPair_error h with h | h
        · rcases wKeyValue_error h with ⟨rfl, hk⟩ | ⟨rfl, c, d, hk, h1, h2⟩
          · exact .fails (.same (.key hkv hk))
          · exact .out (.keyValue (e := c) (m := d) (x := kv.2) (by rw [← hk]; exact hkv) h1 h2)
        · exact .step (.dict hkv) h
      | int => cases h; exact .out .keyType
      | other => cases h; exact .out .keyType'
    · have h : noAttr [c!"items"] v = (.error e : Res Val) := by
        cases v <;> first | exact h | exact absurd rfl (hd _)
      rcases noAttr_cases h with rfl | ⟨rfl, hh⟩
      · exact .fails (.dict hd)
      · exact .out (.names (.inr ⟨_, _, rfl⟩) (hh.mono (by intro x; simp; intro h; simp [*])))
  | literal ls =>
    simp only [wgen] at h
    split at h
    · rcases wEnum_error h with ⟨rfl, hn⟩ | ⟨ed, hc, ⟨f, m, hf, rfl, he⟩ | ⟨rfl, f, hf, hw⟩ | ⟨rfl, a, b, rfl, he⟩ | ⟨rfl, hj, h1, h2⟩⟩
      · exact .out (.noEnum' hn)
      · exact .fails (.same (.literalMethod hc hf he))
      · exact .out (.foreign' hc hf hw)
      · exact .out (.noMember' he)
      · exact .fails (.literal hc hj h1 h2)
    · cases h
    · cases h
  | enum a =>
    rcases wEnum_error h with ⟨rfl, hn⟩ | ⟨ed, hc, ⟨f, m, hf, rfl, he⟩ | ⟨rfl, f, hf, hw⟩ | ⟨rfl, a, b, rfl, he⟩ | ⟨rfl, hj, h1, h2⟩⟩
    · exact .out (.noEnum hn)
    · exact .fails (.same (.enumMethod hc hf he))
    · exact .out (.foreign hc hf hw)
    · exact .out (.noMember he)
    · exact .fails (.enum hc hj h1 h2)
  | annotated t ms => exact .step .annotated h
  | union ts =>
    simp only [wgen] at h
    split at h
    · rename_i he; cases h; exact .fails (.same (.creation he))
    · exact .step .union h
  | cls c =>
    have h : wCls py env (wgen py env n) c v = .error e := h
    cases hc : env.classes[c]? with
    | none => simp only [wCls, hc] at h; cases h; exact .out (.noClass hc)
    | some cd =>
      cases hj : cd.toJson with
      | some f =>
        simp only [wCls, hc, hj] at h
        split at h
        · rename_i he; cases h; exact .fails (.same (.method hc hj he))
        · cases h
      | none =>
        cases v with
        | obj c' fs =>
          have hprops : cd.Annotated → Why py env n (.cls c) (.obj c' fs) e := by
            intro ha
            rw [annotated_props ha hc hj] at h
            obtain ⟨fd, hfd, h⟩ := wLoop_error h
            rcases wField_error h with ⟨rfl, hl⟩ | ⟨x, hl, hn, h⟩
            · exact .fails (.same (.missing hc hj hfd hl))
            · exact .step (.field hc hj ha hfd hl hn) h
          cases hk : cd.kind with
          | dataclass fr => exact hprops (.inl ⟨fr, hk⟩)
          | namedTuple b =>
            cases b with
            | true => exact hprops (.inr (.inl hk))
            | false =>
              simp only [wCls, hc, hj, hk] at h
              obtain ⟨fd, hfd, h⟩ := wLoop_error h
              rcases wMember_error h with ⟨rfl, hl⟩ | ⟨x, hl, h⟩
              · exact .fails (.same (.missing hc hj hfd hl))
              · exact .step (.untypedField hc hj hk hfd hl) h
          | plain =>
            by_cases hne : cd.fields = []
            · simp only [wCls, hc, hj, hk, hne] at h
              rw [List.isEmpty_nil, if_pos rfl] at h
              obtain ⟨p, hp, h⟩ := wLoop_error h
              obtain ⟨h1, h2, h⟩ := wAttr_error h
              exact .step (.attr hc hj hk hne (mem_sortByName.1 hp) h1 h2) h
            · exact hprops (.inr (.inr ⟨hk, hne⟩))
        | _ =>
          simp only [wCls, hc, hj] at h
          split at h
          · rename_i hp
            rw [Bool.and_eq_true, decide_eq_true_eq, List.isEmpty_iff] at hp
            cases h; exact .out (.attributes hc hj (fun _ _ h => (by cases h)) hp.1 hp.2)
          · split at h
            · cases h
            · rename_i fd r hfd
              split at h
              · rename_i hp; cases h; exact .out (.attr hc hj (fun _ _ h => (by cases h)) hfd hp)
              · cases h
                exact .fails (.cls hc hj (by rw [hfd]; simp) fun _ _ h => (by cases h))

/-! ### Calls are nested to a bounded depth -/

/-- Calls for `v` and `t` are nested to a depth of less than `n`. -/
def Bound (env : Env) : Nat → Ty → Val → Prop
  | 0, _, _ => False
  | n + 1, t, v => ∀ u w, DuckStep env t v u w → Bound env n u w

theorem Bound.succ : ∀ {n : Nat} {t : Ty} {v : Val}, Bound env n t v → Bound env (n + 1) t v
  | 0, _, _, h => h.elim
  | _ + 1, _, _, h => fun u w hs => (h u w hs).succ

theorem Bound.le {n m : Nat} {t : Ty} {v : Val} (h : Bound env n t v) (hm : n ≤ m) : Bound env m t v := by
  induction hm with
  | refl => exact h
  | step _ ih => exact ih.succ

theorem bound_list {l : List (Ty × Val)} (h : ∀ p ∈ l, ∃ n, Bound env n p.1 p.2) : ∃ n, ∀ p ∈ l, Bound env n p.1 p.2 := by
  induction l with
  | nil => exact ⟨0, fun _ h => (by cases h)⟩
  | cons p l ih =>
    obtain ⟨n, hn⟩ := ih fun q hq => h q (by simp [hq])
    obtain ⟨m, hm⟩ := h p (by simp)
    refine ⟨n + m, fun q hq => ?_⟩
    rcases List.mem_cons.1 hq with rfl | hq
    · exact hm.le (by omega)
    · exact (hn q hq).le (by omega)

/-- All objects that are reached from an object in one step. -/
def Val.kids : Val → List Val
  | .list vs | .set vs | .tuple vs => vs
  | .str s => s.map fun c => .str [c]
  | .bytes b => b.map fun x => .int x.val
  | .dict kvs => kvs.map (fun kv => kv.1.toVal) ++ kvs.map Prod.snd
  | .obj _ fs => fs.map Prod.snd
  | _ => []

/-- All types that are reached from a type in one step. -/
def subTys (env : Env) : Ty → List Ty
  | .list t | .set t | .dict _ t => [t]
  | .tuple ts => ts
  | .cls c => .union [] :: (match env.classes[c]? with | some cd => cd.fields.map (·.ty) | none => [])
  | _ => [.union []]

/-- Types that are neither unions nor annotated. -/
def Ty.Firm (t : Ty) : Prop := (∀ ts, t ≠ .union ts) ∧ ∀ s ms, t ≠ .annotated s ms

theorem yields_kids {v : Val} {vs : List Val} (h : Yields env v vs) {x : Val} (hx : x ∈ vs) : x ∈ v.kids := by
  cases h with
  | items h => cases h <;> exact hx
  | str => exact hx
  | bytes => exact hx
  | dict => exact List.mem_append.2 (.inl hx)
  | tuple => exact hx

theorem step_kids {t u : Ty} {v w : Val} (ht : t.Firm) (h : DuckStep env t v u w) : w ∈ v.kids ∧ u ∈ subTys env t := by
  cases h with
  | annotated => exact absurd rfl (ht.2 _ _)
  | union => exact absurd rfl (ht.1 _)
  | list hy hx | set hy hx => exact ⟨yields_kids hy hx, by simp [subTys]⟩
  | tuple hy hx => exact ⟨yields_kids hy (List.of_mem_zip hx).2, (List.of_mem_zip hx).1⟩
  | bare ht hy hx =>
    refine ⟨yields_kids hy hx, ?_⟩
    simp only [List.mem_cons, List.not_mem_nil, or_false] at ht
    rcases ht with rfl | rfl | rfl <;> simp [subTys]
  | dict hk => exact ⟨List.mem_append.2 (.inr (List.mem_map.2 ⟨_, hk, rfl⟩)), by simp [subTys]⟩
  | bareDict hk => exact ⟨List.mem_append.2 (.inr (List.mem_map.2 ⟨_, hk, rfl⟩)), by simp [subTys]⟩
  | field hc _ _ hf hl =>
    refine ⟨List.mem_map.2 ⟨_, lookupKey_some_mem hl, rfl⟩, ?_⟩
    simp only [subTys, hc]
    exact List.mem_cons_of_mem _ (List.mem_map.2 ⟨_, hf, rfl⟩)
  | untypedField hc _ _ hf hl => exact ⟨List.mem_map.2 ⟨_, lookupKey_some_mem hl, rfl⟩, by simp [subTys]⟩
  | attr hc _ _ _ hm => exact ⟨List.mem_map.2 ⟨_, hm, rfl⟩, by simp [subTys]⟩

theorem bound_firm {t : Ty} {v : Val} (ht : t.Firm) (h : ∀ x ∈ v.kids, ∀ u ∈ subTys env t, ∃ n, Bound env n u x) : ∃ n, Bound env n t v := by
  obtain ⟨n, hn⟩ := bound_list (env := env) (l := (subTys env t).flatMap fun u => v.kids.map fun x => (u, x)) (by
    intro p hp
    obtain ⟨u, hu, hp⟩ := List.mem_flatMap.1 hp
    obtain ⟨x, hx, rfl⟩ := List.mem_map.1 hp
    exact h x hx u hu)
  refine ⟨n + 1, fun u w hs => ?_⟩
  obtain ⟨h1, h2⟩ := step_kids ht hs
  exact hn (u, w) (List.mem_flatMap.2 ⟨u, h2, List.mem_map.2 ⟨w, h1, rfl⟩⟩)

theorem firm_typeOf {v : Val} : (typeOf v).Firm := by
  cases v <;> exact ⟨fun _ h => (by cases h), fun _ _ h => (by cases h)⟩

theorem bound_all {v : Val} (h : ∀ t : Ty, t.Firm → ∃ n, Bound env n t v) : ∀ t : Ty, ∃ n, Bound env n t v
  | .union ts => by
    obtain ⟨n, hn⟩ := h (typeOf v) firm_typeOf
    exact ⟨n + 1, fun u w hs => (by cases hs with | union => exact hn | bare ht => simp at ht)⟩
  | .annotated t ms => by
    obtain ⟨n, hn⟩ := bound_all h t
    exact ⟨n + 1, fun u w hs => (by cases hs with | annotated => exact hn | bare ht => simp at ht)⟩
  | .none | .bool | .int | .float | .str | .bytes | .datetime | .date | .time | .timedelta | .uuid | .ipv4 | .ipv6 | .bareList | .bareSet
  | .bareTuple | .bareDict | .list _ | .set _ | .tuple _ | .dict _ _ | .literal _ | .enum _ | .cls _ =>
    h _ ⟨fun _ h => (by cases h), fun _ _ h => (by cases h)⟩

/-- Objects without parts, but for those obtained by iterating over them. -/
inductive Leaf : Val → Prop
  | str {s} : Leaf (.str s)
  | bytes {b} : Leaf (.bytes b)
  | none {v} : v.kids = [] → Leaf v

theorem Leaf.kid {v x : Val} (h : Leaf v) (hx : x ∈ v.kids) : Leaf x := by
  cases h with
  | str => obtain ⟨c, _, rfl⟩ := List.mem_map.1 hx; exact .str
  | bytes => obtain ⟨c, _, rfl⟩ := List.mem_map.1 hx; exact .none rfl
  | none h => rw [h] at hx; cases hx

theorem leaf_union {ts : List Ty} {v : Val} (h : Leaf v) : ∃ n, Bound env n (.union ts) v := by
  obtain ⟨n, hn⟩ : ∃ n, Bound env n (typeOf v) v := by
    cases h with
    | str => exact ⟨1, fun u w hs => (by cases hs with | bare ht => simp [typeOf] at ht)⟩
    | bytes => exact ⟨1, fun u w hs => (by cases hs with | bare ht => simp [typeOf] at ht)⟩
    | none h => exact bound_firm firm_typeOf (by rw [h]; intro x hx; cases hx)
  exact ⟨n + 1, fun u w hs => (by cases hs with | union => exact hn | bare ht => simp at ht)⟩

theorem leaf_sub {t : Ty} {v : Val} (ht : t.Firm) (h : Leaf v) (hs : ∀ u ∈ subTys env t, ∀ x, Leaf x → ∃ n, Bound env n u x) :
    ∃ n, Bound env n t v := bound_firm ht fun x hx u hu => hs u hu x (h.kid hx)

mutual
theorem leaf_bound : ∀ (t : Ty) (v : Val), Leaf v → ∃ n, Bound env n t v
  | .union ts, v, h => leaf_union h
  | .annotated t ms, v, h => by
    obtain ⟨n, hn⟩ := leaf_bound t v h
    exact ⟨n + 1, fun u w hs => (by cases hs with | annotated => exact hn | bare ht => simp at ht)⟩
  | .list t, v, h => leaf_sub ⟨fun _ h => (by cases h), fun _ _ h => (by cases h)⟩ h fun u hu x hx => by
    rw [List.mem_singleton.1 hu]; exact leaf_bound t x hx
  | .set t, v, h => leaf_sub ⟨fun _ h => (by cases h), fun _ _ h => (by cases h)⟩ h fun u hu x hx => by
    rw [List.mem_singleton.1 hu]; exact leaf_bound t x hx
  | .dict _ t, v, h => leaf_sub ⟨fun _ h => (by cases h), fun _ _ h => (by cases h)⟩ h fun u hu x hx => by
    rw [List.mem_singleton.1 hu]; exact leaf_bound t x hx
  | .tuple ts, v, h => leaf_sub ⟨fun _ h => (by cases h), fun _ _ h => (by cases h)⟩ h fun u hu x hx => leaf_bounds ts u hu x hx
  | .cls c, v, h => by
    cases h with
    | str => exact ⟨1, fun u w hs => (by cases hs with | bare ht => simp at ht)⟩
    | bytes => exact ⟨1, fun u w hs => (by cases hs with | bare ht => simp at ht)⟩
    | none h => exact bound_firm ⟨fun _ h => (by cases h), fun _ _ h => (by cases h)⟩ (by rw [h]; intro x hx; cases hx)
  | .none, v, h | .bool, v, h | .int, v, h | .float, v, h | .str, v, h | .bytes, v, h | .datetime, v, h | .date, v, h | .time, v, h
  | .timedelta, v, h | .uuid, v, h | .ipv4, v, h | .ipv6, v, h | .bareList, v, h | .bareSet, v, h | .bareTuple, v, h | .bareDict, v, h
  | .literal _, v, h | .enum _, v, h => leaf_sub ⟨fun _ h => (by cases h), fun _ _ h => (by cases h)⟩ h fun u hu x hx => by
    rw [List.mem_singleton.1 hu]; exact leaf_union hx
theorem leaf_bounds : ∀ (ts : List Ty), ∀ u ∈ ts, ∀ x, Leaf x → ∃ n, Bound env n u x
  | [], u, hu => by cases hu
  | t :: ts, u, hu => by
    intro x hx
    by_cases h : u = t
    · rw [h]; exact leaf_bound t x hx
    · exact leaf_bounds ts u ((List.mem_cons.1 hu).resolve_left h) x hx
end

theorem bound_of_kids {v : Val} (h : ∀ x ∈ v.kids, ∀ t, ∃ n, Bound env n t x) : ∀ t, ∃ n, Bound env n t v :=
  bound_all fun _ ht => bound_firm ht fun x hx u _ => h x hx u

theorem leaf_key (k : Key) : Leaf k.toVal := by
  cases k with
  | str s => exact .str
  | int i => exact .none rfl
  | enum e m => exact .none rfl

mutual
theorem bound : ∀ (v : Val) (t : Ty), ∃ n, Bound env n t v
  | .list vs, t => bound_of_kids (v := .list vs) (fun x hx t => bounds vs x hx t) t
  | .set vs, t => bound_of_kids (v := .set vs) (fun x hx t => bounds vs x hx t) t
  | .tuple vs, t => bound_of_kids (v := .tuple vs) (fun x hx t => bounds vs x hx t) t
  | .dict kvs, t => bound_of_kids (v := .dict kvs) (fun x hx t => by
      by_cases h : x ∈ kvs.map Prod.snd
      · exact boundsD kvs x h t
      · obtain ⟨kv, _, he⟩ := List.mem_map.1 ((List.mem_append.1 hx).resolve_right h)
        rw [← he]
        exact leaf_bound t _ (leaf_key kv.1)) t
  | .obj c fs, t => bound_of_kids (v := .obj c fs) (fun x hx t => boundsO fs x hx t) t
  | .str s, t => leaf_bound t _ .str
  | .bytes b, t => leaf_bound t _ .bytes
  | .none, t | .bool _, t | .int _, t | .float _, t | .datetime _, t | .date _, t | .time _, t | .timedelta _, t | .uuid _, t
  | .ipv4 _, t | .ipv6 _ _, t | .enum _ _, t => leaf_bound t _ (.none rfl)
theorem bounds : ∀ (vs : List Val), ∀ x ∈ vs, ∀ t, ∃ n, Bound env n t x
  | [], x, hx => by cases hx
  | v :: vs, x, hx => by
    intro t
    by_cases h : x = v
    · rw [h]; exact bound v t
    · exact bounds vs x ((List.mem_cons.1 hx).resolve_left h) t
theorem boundsD : ∀ (kvs : List (Key × Val)), ∀ x ∈ kvs.map Prod.snd, ∀ t, ∃ n, Bound env n t x
  | [], x, hx => by cases hx
  | (k, v) :: vs, x, hx => by
    intro t
    by_cases h : x = v
    · rw [h]; exact bound v t
    · exact boundsD vs x ((List.mem_cons.1 hx).resolve_left h) t
theorem boundsO : ∀ (fs : List (Str × Val)), ∀ x ∈ fs.map Prod.snd, ∀ t, ∃ n, Bound env n t x
  | [], x, hx => by cases hx
  | (k, v) :: vs, x, hx => by
    intro t
    by_cases h : x = v
    · rw [h]; exact bound v t
    · exact boundsO vs x ((List.mem_cons.1 hx).resolve_left h) t
end

/-! ### Outcome -/

theorem duck_error {e : Err} : ∀ (n : Nat) {v : Val} {t : Ty}, wgen py env n v t = .error e → e ≠ .outOfModel ∨ Bound env n t v →
    ∃ u w, DuckPart env t v u w ∧ (DuckFails env u w e ∨ (e = .outOfModel ∧ Outside py env u w)) := by
  intro n
  induction n with
  | zero =>
    intro v t h hb
    cases h
    rcases hb with hb | hb
    · exact absurd rfl hb
    · exact hb.elim
  | succ n ih =>
    intro v t h hb
    rcases step_error h with h | h | ⟨u, w, hs, h⟩
    · exact ⟨t, v, .here, .inl h⟩
    · exact ⟨t, v, .here, .inr h⟩
    · obtain ⟨u', w', h1, h2⟩ := ih h (hb.imp id fun hb => hb u w hs)
      exact ⟨u', w', .step hs h1, h2⟩

theorem wLoop_congr {α : Type} {f g : α → Res (Option (Key × Val))} : ∀ {xs : List α} {acc : List (Key × Val)}, (∀ x ∈ xs, f x = g x) →
    wLoop f acc xs = wLoop g acc xs := by
  intro xs
  induction xs with
  | nil => intro acc _; rfl
  | cons x xs ih =>
    intro acc h
    simp only [wLoop, h x (by simp)]
    split
    · rfl
    · exact ih fun y hy => h y (by simp [hy])
    · exact ih fun y hy => h y (by simp [hy])

theorem wPair_congr {key : Key → Res Key} {f g : Val → Res Val} {kv : Key × Val} (h : f kv.2 = g kv.2) : wPair key f kv = wPair key g kv := by
  simp only [wPair, h]

/-- Deeper nesting does not change the outcome. -/
theorem bound_succ : ∀ {n : Nat} {v : Val} {t : Ty}, Bound env n t v → wgen py env (n + 1) v t = wgen py env n v t := by
  intro n
  induction n with
  | zero => intro v t h; exact h.elim
  | succ n ih =>
    intro v t h
    have key : ∀ u w, DuckStep env t v u w → wgen py env (n + 1) w u = wgen py env n w u := fun u w hs => ih (h u w hs)
    have items : ∀ u, (∀ vs x, Yields env v vs → x ∈ vs → DuckStep env t v u x) →
        (match pyIter env v with | some vs => wItems (fun x => wgen py env (n + 1) x u) vs | none => .error .typeError) =
        (match pyIter env v with | some vs => wItems (fun x => wgen py env n x u) vs | none => .error .typeError) := by
      intro u hs
      split
      · rename_i vs hy
        simp only [wItems, mapRes_congr (fun x hx => key _ _ (hs vs x (pyIter_iff.1 hy) hx))]
      · rfl
    cases t with
    | none | bool | int | float | str | bytes | datetime | date | time | timedelta | uuid | ipv4 | ipv6 | enum | literal => rfl
    | bareList | bareSet | bareTuple => exact items _ fun vs x hy hx => .bare (by simp) hy hx
    | list t => exact items _ fun vs x hy hx => .list hy hx
    | set t => exact items _ fun vs x hy hx => .set hy hx
    | annotated t ms => exact key _ _ .annotated
    | union ts =>
      show (match serCreate env (typeOf v) with | .error e => _ | .ok _ => wgen py env (n + 1) v (typeOf v)) =
        (match serCreate env (typeOf v) with | .error e => _ | .ok _ => wgen py env n v (typeOf v))
      rw [key _ _ .union]
    | tuple ts =>
      show (match pyIter env v with | some vs => _ | none => _) = (match pyIter env v with | some vs => _ | none => _)
      split
      · rename_i vs hy
        rw [mapRes_congr (fun p hp => key _ _ (.tuple (pyIter_iff.1 hy) (t := p.1) (x := p.2) hp))]
      · rfl
    | bareDict =>
      rcases not_dict (v := v) with ⟨kvs, rfl⟩ | hd
      · exact wLoop_congr fun kv hkv => wPair_congr (key _ _ (.bareDict hkv))
      · cases v <;> first | rfl | exact absurd rfl (hd _)
    | dict k t =>
      rcases not_dict (v := v) with ⟨kvs, rfl⟩ | hd
      · cases k with
        | str | enum => exact wLoop_congr fun kv hkv => wPair_congr (key _ _ (.dict hkv))
        | int | other => rfl
      · cases v <;> first | rfl | exact absurd rfl (hd _)
    | cls c =>
      show wCls py env _ c v = wCls py env _ c v
      cases hc : env.classes[c]? with
      | none => simp only [wCls, hc]
      | some cd =>
        cases hj : cd.toJson with
        | some f => simp only [wCls, hc, hj]
        | none =>
          cases v with
          | obj c' fs =>
            have hprops : cd.Annotated → wCls py env (wgen py env (n + 1)) c (.obj c' fs) = wCls py env (wgen py env n) c (.obj c' fs) := by
              intro ha
              rw [annotated_props ha hc hj, annotated_props ha hc hj]
              refine wLoop_congr fun fd hfd => ?_
              unfold wField
              split
              · rfl
              · rename_i x hl
                split
                · rfl
                · rename_i hn
                  rw [key _ _ (.field hc hj ha hfd hl (fun h => hn (by rw [h]; rfl)))]
            cases hk : cd.kind with
            | dataclass fr => exact hprops (.inl ⟨fr, hk⟩)
            | namedTuple b =>
              cases b with
              | true => exact hprops (.inr (.inl hk))
              | false =>
                simp only [wCls, hc, hj, hk]
                refine wLoop_congr fun fd hfd => ?_
                unfold wMember
                split
                · rfl
                · rename_i x hl
                  dsimp only [dynTy]
                  rw [key _ _ (.untypedField hc hj hk hfd hl)]
            | plain =>
              by_cases hne : cd.fields = []
              · simp only [wCls, hc, hj, hk, hne]
                rw [List.isEmpty_nil, if_pos rfl, if_pos rfl]
                refine wLoop_congr fun p hp => ?_
                unfold wAttr
                split
                · rfl
                · rename_i hr
                  rw [Bool.or_eq_true, not_or] at hr
                  dsimp only [dynTy]
                  rw [key _ _ (.attr (n := p.1) hc hj hk hne (mem_sortByName.1 hp) (fun h => hr.1 (isReserved_iff.2 h)) (fun h => hr.2 (by rw [h]; rfl)))]
              · exact hprops (.inr (.inr ⟨hk, hne⟩))
          | _ => rfl

theorem bound_stable {n m : Nat} {v : Val} {t : Ty} (h : Bound env n t v) (hm : n ≤ m) : wgen py env m v t = wgen py env n v t := by
  induction hm with
  | refl => rfl
  | step hm ih => rw [bound_succ (h.le hm), ih]

end Verif
