import Verif.Lemmas.Deser
import Verif.Spec.Env
/-!
# Lemmas about `loads`, `compile` and container deserializers
-/
namespace Verif

theorem loads_of_compile {env : Env} {skip : Bool} {t : Ty} {d : Deser} (h : compile env t = .ok d) (j : Json) :
    loads env skip t j = parse env (fullHeap env skip) j d := by
  simp [loads, h]

theorem compileL_ok {env : Env} {ts : List Ty} {ds : List Deser} :
    compileL env ts = .ok ds ↔ All2 (fun t d => compile env t = .ok d) ts ds := by
  induction ts generalizing ds with
  | nil =>
    constructor
    · intro h; cases h; exact .nil
    · intro h; cases h; rfl
  | cons t ts ih =>
    constructor
    · intro h
      simp only [compileL] at h
      split at h
      · cases h
      · rename_i d hd
        split at h
        · rename_i ds' hds; cases h; exact .cons hd (ih.1 hds)
        · cases h
    · intro h
      cases h with
      | cons h1 h2 => simp [compileL, h1, ih.2 h2]

theorem compileL_eq (env : Env) (ts : List Ty) : compileL env ts = mapRes (compile env) ts := by
  induction ts with
  | nil => rfl
  | cons t ts ih =>
    simp only [compileL, mapRes, ih]
    cases compile env t with
    | error e => rfl
    | ok d => cases mapRes (compile env) ts <;> rfl

theorem findIdx?_some {p : α → Bool} {l : List α} {i : Nat} (h : l.findIdx? p = some i) :
    ∃ x, l[i]? = some x ∧ p x = true := by
  induction l generalizing i with
  | nil => simp at h
  | cons a l ih =>
    rw [List.findIdx?_cons] at h
    split at h
    · rename_i ha; cases h; exact ⟨a, rfl, ha⟩
    · cases hl : l.findIdx? p with
      | none => rw [hl] at h; cases h
      | some k =>
        rw [hl] at h
        cases h
        obtain ⟨x, hx, hp⟩ := ih hl
        exact ⟨x, by simpa using hx, hp⟩

theorem findIdx?_none {p : α → Bool} {l : List α} (h : l.findIdx? p = none) : ∀ x ∈ l, p x = false := by
  simpa using List.findIdx?_eq_none_iff.1 h

/-- If only position `i` can satisfy `p`, it is found. -/
theorem findIdx?_unique {p : α → Bool} {l : List α} {i : Nat} {x : α} (hx : l[i]? = some x) (hp : p x = true)
    (hu : ∀ k y, k < i → l[k]? = some y → p y = false) : l.findIdx? p = some i := by
  induction l generalizing i with
  | nil => simp at hx
  | cons a l ih =>
    rw [List.findIdx?_cons]
    cases i with
    | zero => simp at hx; subst hx; simp [hp]
    | succ i =>
      have ha : p a = false := hu 0 a (by omega) rfl
      rw [if_neg (by simp [ha])]
      rw [ih (i := i) (by simpa using hx) (fun k y hk hy => hu (k + 1) y (by omega) (by simpa using hy))]
      rfl

theorem str_pyEq {s : Str} {x : Scalar} : (Scalar.str s).pyEq x = true ↔ x = .str s := by
  cases x <;> simp [Scalar.pyEq, Scalar.asInt, eq_comm]

theorem enumLookup_str {env : Env} {e : Nat} {s : Str} {v : Val} (h : enumLookup env e (.str s) = .ok v) :
    ∃ ed m name, env.enums[e]? = some ed ∧ ed.members[m]? = some (name, .str s) ∧ v = .enum e m := by
  unfold enumLookup at h
  split at h
  · cases h
  · rename_i ed hed
    simp only [Json.scalar] at h
    split at h
    · rename_i i hi
      cases h
      obtain ⟨⟨name, x⟩, hx, hp⟩ := findIdx?_some hi
      have := str_pyEq.1 hp
      simp only at this
      subst this
      exact ⟨ed, i, name, hed, hx, rfl⟩
    · split at h <;> cases h

theorem parseKey_enum_ok {env : Env} {e : Nat} {s : Str} {key : Key} (h : parseKey env (.enum e) s = .ok key) :
    ∃ ed m name, env.enums[e]? = some ed ∧ ed.members[m]? = some (name, .str s) ∧ key = .enum e m := by
  unfold parseKey at h
  simp only at h
  split at h
  · rename_i e' m' hl
    cases h
    obtain ⟨ed, m, name, h1, h2, h3⟩ := enumLookup_str hl
    cases h3
    exact ⟨ed, _, name, h1, h2, rfl⟩
  · cases h
  · cases h

theorem parseKey_inj {env : Env} {k : KeyTy} {s s' : Str} {key : Key} (h : parseKey env k s = .ok key)
    (h' : parseKey env k s' = .ok key) : s = s' := by
  cases k with
  | str => simp [parseKey] at h h'; rw [← h] at h'; simpa using h'.symm
  | int | other => simp [parseKey] at h
  | enum e =>
    obtain ⟨ed, m, name, h1, h2, h3⟩ := parseKey_enum_ok h
    obtain ⟨ed', m', name', h1', h2', h3'⟩ := parseKey_enum_ok h'
    rw [h3] at h3'
    cases h3'
    rw [h1] at h1'; cases h1'
    rw [h2] at h2'; cases h2'
    rfl

theorem parsePairs_ok {env : Env} {k : KeyTy} {d : Deser} {fs : List (Str × Json × (Deser → Res Val))}
    {acc out : List (Key × Val)} (hn : (fs.map (·.1)).Nodup)
    (hd : ∀ s ∈ fs.map (·.1), ∀ key, parseKey env k s = .ok key → key ∉ acc.map (·.1)) :
    parsePairs env k d acc fs = .ok out ↔
      ∃ new, out = acc ++ new ∧ All2 (fun f w => parseKey env k f.1 = .ok w.1 ∧ f.2.2 d = .ok w.2) fs new := by
  induction fs generalizing acc out with
  | nil =>
    simp only [parsePairs]
    constructor
    · intro h; cases h; exact ⟨[], by simp, .nil⟩
    · rintro ⟨new, rfl, h⟩; cases h; simp
  | cons f fs ih =>
    obtain ⟨s, j, g⟩ := f
    simp only [List.map_cons, List.nodup_cons] at hn
    have hstep : ∀ key v, parseKey env k s = .ok key → upsert key v acc = acc ++ [(key, v)] := by
      intro key v hk
      exact upsert_of_not_mem (hd s (by simp) key hk)
    have hd' : ∀ key v, parseKey env k s = .ok key → ∀ s' ∈ fs.map (·.1), ∀ key', parseKey env k s' = .ok key' →
        key' ∉ List.map Prod.fst (acc ++ [(key, v)]) := by
      intro key v hk s' hs' key' hk'
      simp only [List.map_append, List.map_cons, List.map_nil, List.mem_append, List.mem_singleton, not_or]
      refine ⟨hd s' (by simp [hs']) key' hk', ?_⟩
      intro e; subst e
      have := parseKey_inj hk hk'
      subst this
      exact hn.1 hs'
    constructor
    · intro h
      simp only [parsePairs] at h
      split at h
      · cases h
      · rename_i key hk
        split at h
        · cases h
        · rename_i v hv
          rw [hstep key v hk] at h
          obtain ⟨new, rfl, hall⟩ := (ih hn.2 (hd' key v hk)).1 h
          exact ⟨(key, v) :: new, by simp, .cons ⟨hk, hv⟩ hall⟩
    · rintro ⟨new, rfl, hall⟩
      cases hall with
      | @cons a b as bs h1 h2 =>
        obtain ⟨key, v⟩ := b
        obtain ⟨hk, hv⟩ := h1
        simp only at hk hv
        simp only [parsePairs, hk, hv]
        rw [hstep key v hk]
        rw [(ih hn.2 (hd' key v hk))]
        exact ⟨bs, by simp, h2⟩

/-- Properties of the members that `setAdd` accumulates. -/
theorem parseSetItems_ok {env : Env} {d : Deser} {fs : List (Deser → Res Val)} {acc out : List Val} :
    parseSetItems env d acc fs = .ok out →
      ∃ vs, All2 (fun f v => f d = .ok v) fs vs ∧ (∀ v ∈ vs, hashable env v = true) ∧
        ∃ new, out = acc ++ new ∧ new.Sublist vs ∧
          (∀ v ∈ vs, v ∈ new ∨ ∃ w ∈ out, valEq env v w = true) ∧
          (∀ pre x post, new = pre ++ x :: post → ∀ w ∈ acc ++ pre, valEq env x w = false) := by
  induction fs generalizing acc out with
  | nil =>
    intro h
    simp only [parseSetItems] at h
    cases h
    exact ⟨[], .nil, by simp, [], by simp, by simp, by simp, by simp⟩
  | cons f fs ih =>
    intro h
    simp only [parseSetItems] at h
    split at h
    · cases h
    · rename_i v hv
      unfold setAdd at h
      by_cases hh : hashable env v = true
      · rw [if_pos hh] at h
        simp only at h
        by_cases hany : (acc.any fun w => valEq env v w) = true
        · rw [if_pos hany] at h
          obtain ⟨vs, h1, h2, new, h3, h4, h5, h6⟩ := ih h
          refine ⟨v :: vs, .cons hv h1, ?_, new, h3, h4.cons v, ?_, h6⟩
          · intro w hw
            rcases List.mem_cons.1 hw with rfl | hw
            · exact hh
            · exact h2 w hw
          · intro w hw
            rcases List.mem_cons.1 hw with rfl | hw
            · right
              obtain ⟨x, hx, he⟩ := List.any_eq_true.1 hany
              exact ⟨x, by rw [h3]; simp [hx], he⟩
            · exact h5 w hw
        · rw [if_neg hany] at h
          obtain ⟨vs, h1, h2, new, h3, h4, h5, h6⟩ := ih h
          refine ⟨v :: vs, .cons hv h1, ?_, v :: new, by rw [h3]; simp, h4.cons_cons v, ?_, ?_⟩
          · intro w hw
            rcases List.mem_cons.1 hw with rfl | hw
            · exact hh
            · exact h2 w hw
          · intro w hw
            rcases List.mem_cons.1 hw with rfl | hw
            · left; simp
            · rcases h5 w hw with h | h
              · left; simp [h]
              · right; exact h
          · intro pre x post he w hw
            cases pre with
            | nil =>
              simp only [List.nil_append, List.cons.injEq] at he
              obtain ⟨rfl, _⟩ := he
              simp only [List.append_nil] at hw
              cases hb : valEq env v w with
              | false => rfl
              | true => exact absurd (List.any_eq_true.2 ⟨w, hw, hb⟩) hany
            | cons y pre =>
              simp only [List.cons_append, List.cons.injEq] at he
              obtain ⟨rfl, he⟩ := he
              exact h6 pre x post he w (by simpa using hw)
      · rw [if_neg hh] at h
        cases h

theorem parseSetItems_total {env : Env} {d : Deser} {fs : List (Deser → Res Val)} {vs : List Val}
    (h : All2 (fun f v => f d = .ok v) fs vs) (hh : ∀ v ∈ vs, hashable env v = true) :
    ∀ acc, ∃ out, parseSetItems env d acc fs = .ok out := by
  induction h with
  | nil => intro acc; exact ⟨acc, rfl⟩
  | @cons f v fs vs h1 _ ih =>
    intro acc
    have hv := hh v (by simp)
    simp only [parseSetItems, h1, setAdd, hv, if_true]
    exact ih (fun w hw => hh w (by simp [hw])) _

/-- Pairwise different hashable items are all kept. -/
theorem parseSetItems_distinct {env : Env} {d : Deser} {fs : List (Deser → Res Val)} {vs : List Val}
    (h : All2 (fun f v => f d = .ok v) fs vs) (hh : ∀ v ∈ vs, hashable env v = true) :
    ∀ acc, (∀ v ∈ vs, ∀ w ∈ acc, valEq env v w = false) → vs.Pairwise (fun a b => valEq env b a = false) →
      parseSetItems env d acc fs = .ok (acc ++ vs) := by
  induction h with
  | nil => intro acc _ _; simp [parseSetItems]
  | @cons f v fs vs h1 _ ih =>
    intro acc hacc hp
    have hv := hh v (by simp)
    rw [List.pairwise_cons] at hp
    have hany : ¬ ((acc.any fun w => valEq env v w) = true) := by
      intro hc
      obtain ⟨w, hw, he⟩ := List.any_eq_true.1 hc
      rw [hacc v (by simp) w hw] at he
      cases he
    simp only [parseSetItems, h1, setAdd, hv, if_true]
    rw [if_neg hany]
    rw [ih (fun w hw => hh w (by simp [hw])) (acc ++ [v]) ?_ hp.2]
    · simp
    · intro w hw x hx
      rcases List.mem_append.1 hx with hx | hx
      · exact hacc w (by simp [hw]) x hx
      · simp at hx; subst hx
        exact hp.1 w hw

end Verif
