import Verif.Spec.Recursion
import Verif.Lemmas.Ser
/-!
# Lemmas about creation of serializers for recursive classes
-/
namespace Verif

/-- A duplicate-free list of numbers below `n` has at most `n` elements. -/
theorem nodup_bound : ∀ (n : Nat) (l : List Nat), l.Nodup → (∀ x ∈ l, x < n) → l.length ≤ n
  | 0, [], _, _ => Nat.le_refl _
  | 0, x :: _, _, h => absurd (h x (by simp)) (by omega)
  | n + 1, l, hd, h => by
    by_cases hm : n ∈ l
    · have := nodup_bound n (l.erase n) (hd.erase n) (fun x hx => by
        have h1 := (hd.mem_erase_iff).1 hx
        have := h x h1.2
        have := h1.1
        omega)
      rw [List.length_erase_of_mem hm] at this
      omega
    · have := nodup_bound n l hd (fun x hx => by
        have h1 := h x hx
        have : x ≠ n := by rintro rfl; exact hm hx
        omega)
      omega

mutual
/-- Creation stops at the first error. -/
theorem createWith_err {env : Env} {f : Nat → Res Unit} : ∀ t, createWith env f t = .error .recursion →
    ∃ c, Static t c ∧ f c = .error .recursion
  | .list t, h => by
    simp only [createWith] at h
    obtain ⟨c, h1, h2⟩ := createWith_err t h
    exact ⟨c, .list h1, h2⟩
  | .set t, h => by
    simp only [createWith] at h
    obtain ⟨c, h1, h2⟩ := createWith_err t h
    exact ⟨c, .set h1, h2⟩
  | .annotated t _, h => by
    simp only [createWith] at h
    obtain ⟨c, h1, h2⟩ := createWith_err t h
    exact ⟨c, .annotated h1, h2⟩
  | .dict k t, h => by
    have : createWith env f t = .error .recursion := by
      cases k with
      | str => simpa only [createWith] using h
      | enum e =>
        simp only [createWith] at h
        cases ht : createWith env f t with
        | error e => rw [ht] at h; exact h
        | ok u =>
          rw [ht] at h
          simp only at h
          cases he : env.enums[e]? with
          | none => rw [he] at h; cases h
          | some ed =>
            rw [he] at h
            simp only at h
            split at h <;> cases h
      | int | other => simp [createWith] at h
    obtain ⟨c, h1, h2⟩ := createWith_err t this
    exact ⟨c, .dict h1, h2⟩
  | .tuple ts, h => by
    simp only [createWith] at h
    obtain ⟨t, ht, c, h1, h2⟩ := createWithL_err ts h
    exact ⟨c, .tuple ht h1, h2⟩
  | .cls c, h => ⟨c, .cls, by simpa only [createWith] using h⟩
  | .literal ls, h => by
    simp only [createWith] at h
    split at h <;> cases h
  | .enum e, h => by
    simp only [createWith] at h
    split at h <;> cases h
  | .none, h | .bool, h | .int, h | .float, h | .str, h | .bytes, h | .datetime, h | .date, h | .time, h | .timedelta, h
  | .uuid, h | .ipv4, h | .ipv6, h | .bareList, h | .bareDict, h | .bareSet, h | .bareTuple, h | .union _, h => by
    simp [createWith] at h
theorem createWithL_err {env : Env} {f : Nat → Res Unit} : ∀ ts, createWithL env f ts = .error .recursion →
    ∃ t ∈ ts, ∃ c, Static t c ∧ f c = .error .recursion
  | [], h => by simp [createWithL] at h
  | t :: ts, h => by
    simp only [createWithL] at h
    cases ht : createWith env f t with
    | error e =>
      rw [ht] at h
      obtain ⟨c, h1, h2⟩ := createWith_err t (by rw [ht]; exact h)
      exact ⟨t, by simp, c, h1, h2⟩
    | ok u =>
      rw [ht] at h
      obtain ⟨t', ht', c, h1, h2⟩ := createWithL_err ts h
      exact ⟨t', by simp [ht'], c, h1, h2⟩
end

mutual
theorem createWith_ok_static {env : Env} {f : Nat → Res Unit} : ∀ t, createWith env f t = .ok () →
    ∀ c, Static t c → f c = .ok ()
  | .list t, h, c, hs => by
    simp only [createWith] at h
    cases hs with | list hs => exact createWith_ok_static t h c hs
  | .set t, h, c, hs => by
    simp only [createWith] at h
    cases hs with | set hs => exact createWith_ok_static t h c hs
  | .annotated t _, h, c, hs => by
    simp only [createWith] at h
    cases hs with | annotated hs => exact createWith_ok_static t h c hs
  | .dict k t, h, c, hs => by
    have : createWith env f t = .ok () := by
      cases k with
      | str => simpa only [createWith] using h
      | enum e =>
        simp only [createWith] at h
        cases ht : createWith env f t with
        | error e => rw [ht] at h; cases h
        | ok u => rfl
      | int | other => simp [createWith] at h
    cases hs with | dict hs => exact createWith_ok_static t this c hs
  | .tuple ts, h, c, hs => by
    simp only [createWith] at h
    cases hs with | tuple ht hs => exact createWithL_ok_static ts h _ ht c hs
  | .cls c', h, c, hs => by
    cases hs with | cls => simpa only [createWith] using h
  | .literal ls, _, c, hs | .enum e, _, c, hs | .none, _, c, hs | .bool, _, c, hs | .int, _, c, hs | .float, _, c, hs
  | .str, _, c, hs | .bytes, _, c, hs | .datetime, _, c, hs | .date, _, c, hs | .time, _, c, hs | .timedelta, _, c, hs
  | .uuid, _, c, hs | .ipv4, _, c, hs | .ipv6, _, c, hs | .bareList, _, c, hs | .bareDict, _, c, hs | .bareSet, _, c, hs
  | .bareTuple, _, c, hs | .union _, _, c, hs => by cases hs
theorem createWithL_ok_static {env : Env} {f : Nat → Res Unit} : ∀ ts, createWithL env f ts = .ok () →
    ∀ t ∈ ts, ∀ c, Static t c → f c = .ok ()
  | [], _, t, ht, _, _ => by simp at ht
  | t :: ts, h, t', ht', c, hs => by
    simp only [createWithL] at h
    cases ht : createWith env f t with
    | error e => rw [ht] at h; cases h
    | ok u =>
      rw [ht] at h
      have h1 := createWith_ok_static t ht
      have h2 := createWithL_ok_static ts h
      rcases List.mem_cons.1 ht' with he | ht'
      · subst he; exact h1 c hs
      · exact h2 t' ht' c hs
end

theorem forRes_err {f : α → Res Unit} {xs : List α} {e : Err} (h : forRes f xs = .error e) : ∃ x ∈ xs, f x = .error e := by
  induction xs with
  | nil => cases h
  | cons x xs ih =>
    simp only [forRes] at h
    cases hx : f x with
    | error e' => rw [hx] at h; cases h; exact ⟨x, by simp, hx⟩
    | ok u =>
      rw [hx] at h
      obtain ⟨y, hy, h'⟩ := ih h
      exact ⟨y, by simp [hy], h'⟩

mutual
theorem static_seenFwd {b : Bool} {c : Nat} : ∀ t : Ty, Static (t.seenFwd b) c → Static t c
  | .list t, h => by simp only [Ty.seenFwd] at h; cases h with | list h => exact .list (static_seenFwd t h)
  | .set t, h => by simp only [Ty.seenFwd] at h; cases h with | set h => exact .set (static_seenFwd t h)
  | .annotated t _, h => by simp only [Ty.seenFwd] at h; cases h with | annotated h => exact .annotated (static_seenFwd t h)
  | .dict k t, h => by
    cases k with
    | str => simp only [Ty.seenFwd] at h; cases h with | dict h => exact .dict (static_seenFwd t h)
    | enum e => simp only [Ty.seenFwd] at h; cases h with | dict h => exact .dict h
    | int | other => simp only [Ty.seenFwd] at h; cases h with | dict h => exact .dict (static_seenFwd t h)
  | .tuple ts, h => by
    simp only [Ty.seenFwd] at h
    cases h with | tuple ht h => exact let ⟨_, h1, h2⟩ := static_seenFwdL ts _ ht h; .tuple h1 h2
  | .cls e, h => by
    cases b
    · simp only [Ty.seenFwd, Bool.false_eq_true, if_false] at h; cases h
    · simpa only [Ty.seenFwd, if_true] using h
  | .enum e, h => by cases b <;> (simp only [Ty.seenFwd, Bool.false_eq_true, if_false, if_true] at h; cases h)
  | .none, h | .bool, h | .int, h | .float, h | .str, h | .bytes, h | .datetime, h | .date, h | .time, h
  | .timedelta, h | .uuid, h | .ipv4, h | .ipv6, h | .bareList, h | .bareSet, h | .bareTuple, h | .bareDict, h
  | .union _, h | .literal _, h => by simpa only [Ty.seenFwd] using h
theorem static_seenFwdL {b : Bool} {c : Nat} : ∀ (ts : List Ty) t, t ∈ Ty.seenFwdL b ts → Static t c → ∃ u ∈ ts, Static u c
  | [], t, h, _ => by simp [Ty.seenFwdL] at h
  | u :: ts, t, h, hs => by
    simp only [Ty.seenFwdL, List.mem_cons] at h
    rcases h with he | h
    · subst he; exact ⟨u, by simp, static_seenFwd u hs⟩
    · obtain ⟨w, h1, h2⟩ := static_seenFwdL ts t h hs
      exact ⟨w, by simp [h1], h2⟩
end

theorem static_seen {kind : ClassKind} {f : FieldDef} {c : Nat} (h : Static (f.seen kind) c) : Static f.ty c := by
  unfold FieldDef.seen at h
  split at h
  · split at h
    · exact static_seenFwd _ h
    · exact h
  · exact h

theorem createCls_err {env : Env} {n c : Nat} (h : createCls env (n + 1) c = .error .recursion) :
    ∃ c', Needs env c c' ∧ createCls env n c' = .error .recursion := by
  simp only [createCls] at h
  cases hc : env.classes[c]? with
  | none => rw [hc] at h; cases h
  | some cd =>
    rw [hc] at h
    obtain ⟨fd, hfd, h1⟩ := forRes_err h
    obtain ⟨c', h2, h3⟩ := createWith_err _ h1
    refine ⟨c', ⟨cd, hc, ?_, fd, ?_, static_seen h2⟩, h3⟩
    · cases ht : cd.toJson with
      | none => rfl
      | some g => simp [ClassDef.serFields, ht] at hfd
    · cases ht : cd.toJson with
      | none => simpa [ClassDef.serFields, ht] using hfd
      | some g => simp [ClassDef.serFields, ht] at hfd

theorem createCls_ok_needs {env : Env} {n c c' : Nat} (h : createCls env (n + 1) c = .ok ()) (hn : Needs env c c') :
    createCls env n c' = .ok () := by
  obtain ⟨cd, hc, ht, f, hf, hs⟩ := hn
  simp only [createCls, hc] at h
  exact createWith_ok_static _ (createWith_seen <| forRes_ok.1 h f (by simpa [ClassDef.serFields, ht] using hf)) c' hs

/-- A walk along `Needs`. -/
inductive Walk (env : Env) : Nat → List Nat → Prop
  | nil {c} : Walk env c []
  | cons {c c' l} : Needs env c c' → Walk env c' l → Walk env c (c' :: l)

theorem createCls_walk {env : Env} : ∀ (n c : Nat), createCls env n c = .error .recursion → ∃ l, l.length = n ∧ Walk env c l
  | 0, _, _ => ⟨[], rfl, .nil⟩
  | n + 1, _, h => by
    obtain ⟨c', h1, h2⟩ := createCls_err h
    obtain ⟨l, h3, h4⟩ := createCls_walk n c' h2
    exact ⟨c' :: l, by simp [h3], .cons h1 h4⟩

theorem Walk.trans {env : Env} {c : Nat} {l : List Nat} (h : Walk env c l) : ∀ c' ∈ l, Relation.TransGen (Needs env) c c' := by
  induction h with
  | nil => simp
  | cons hn _ ih =>
    intro c' hc
    rcases List.mem_cons.1 hc with rfl | hc
    · exact .single hn
    · exact (Relation.TransGen.single hn).trans (ih c' hc)

/-- A walk that meets a class twice meets a class that leads back to itself. -/
theorem Walk.loop {env : Env} {c : Nat} {l : List Nat} (h : Walk env c l) (hd : ¬ (c :: l).Nodup) :
    ∃ c' ∈ c :: l, SelfReferential env c' := by
  induction h with
  | nil => simp at hd
  | @cons c c1 l hn hw ih =>
    by_cases hm : c ∈ c1 :: l
    · exact ⟨c, by simp, (Walk.cons hn hw).trans c hm⟩
    · obtain ⟨c', h1, h2⟩ := ih (fun hd' => hd (List.nodup_cons.2 ⟨hm, hd'⟩))
      exact ⟨c', List.mem_cons_of_mem _ h1, h2⟩

theorem Needed.trans {env : Env} {t : Ty} {c c' : Nat} (h : Needed env t c) (h' : Relation.TransGen (Needs env) c c') :
    Needed env t c' := by
  induction h' with
  | single hn => exact .next h hn
  | tail _ hn ih => exact .next ih hn

/-! ### Depth -/

/-- The outcome with more depth, unless the depth is exceeded. -/
def Stable (r r' : Res Unit) : Prop := r ≠ .error .recursion → r' = r

mutual
theorem createWith_stable {env : Env} {f g : Nat → Res Unit} (h : ∀ c, Stable (f c) (g c)) : ∀ t,
    Stable (createWith env f t) (createWith env g t)
  | .list t => by simp only [createWith]; exact createWith_stable h t
  | .set t => by simp only [createWith]; exact createWith_stable h t
  | .annotated t _ => by simp only [createWith]; exact createWith_stable h t
  | .dict k t => by
    have ih := createWith_stable (env := env) h t
    cases k with
    | str => simp only [createWith]; exact ih
    | enum e =>
      simp only [createWith]
      intro hn
      cases ht : createWith env f t with
      | error e =>
        rw [ht] at hn ih
        rw [ih hn]
      | ok u =>
        rw [ht] at ih
        rw [ih (by simp)]
    | int | other => simp only [createWith]; exact fun _ => rfl
  | .tuple ts => by simp only [createWith]; exact createWithL_stable h ts
  | .cls c => by simp only [createWith]; exact h c
  | .literal ls => by simp only [createWith]; exact fun _ => rfl
  | .enum e => by simp only [createWith]; exact fun _ => rfl
  | .none | .bool | .int | .float | .str | .bytes | .datetime | .date | .time | .timedelta
  | .uuid | .ipv4 | .ipv6 | .bareList | .bareDict | .bareSet | .bareTuple | .union _ => by
    simp only [createWith]; exact fun _ => rfl
theorem createWithL_stable {env : Env} {f g : Nat → Res Unit} (h : ∀ c, Stable (f c) (g c)) : ∀ ts,
    Stable (createWithL env f ts) (createWithL env g ts)
  | [] => by simp only [createWithL]; exact fun _ => rfl
  | t :: ts => by
    have ih := createWith_stable (env := env) h t
    have ihs := createWithL_stable (env := env) h ts
    simp only [createWithL]
    intro hn
    cases ht : createWith env f t with
    | error e =>
      rw [ht] at hn ih
      rw [ih hn]
    | ok u =>
      rw [ht] at hn ih
      rw [ih (by simp)]
      exact ihs hn
end

theorem forRes_stable {f g : α → Res Unit} (h : ∀ x, Stable (f x) (g x)) : ∀ xs, Stable (forRes f xs) (forRes g xs)
  | [] => fun _ => rfl
  | x :: xs => by
    have ih := h x
    have ihs := forRes_stable h xs
    simp only [forRes]
    intro hn
    cases ht : f x with
    | error e =>
      rw [ht] at hn ih
      rw [ih hn]
    | ok u =>
      rw [ht] at hn ih
      rw [ih (by simp)]
      exact ihs hn

theorem createCls_stable_succ {env : Env} : ∀ n c, Stable (createCls env n c) (createCls env (n + 1) c)
  | 0, _ => fun h => absurd rfl h
  | n + 1, c => by
    simp only [createCls]
    cases env.classes[c]? with
    | none => exact fun _ => rfl
    | some cd => exact forRes_stable (fun x => createWith_stable (createCls_stable_succ n) _) _

theorem createCls_stable {env : Env} {m n : Nat} (h : m ≤ n) (c : Nat) : Stable (createCls env m c) (createCls env n c) := by
  obtain ⟨d, rfl⟩ := Nat.exists_eq_add_of_le h
  clear h
  induction d with
  | zero => exact fun _ => rfl
  | succ d ih =>
    intro hn
    have h1 := ih hn
    rw [← h1]
    exact createCls_stable_succ (m + d) c (by rw [h1]; exact hn)

mutual
/-- If the depth is exceeded once and not with more depth, this is due to a class that occurs in the type. -/
theorem createWith_gap {env : Env} {f g : Nat → Res Unit} (h : ∀ c, Stable (f c) (g c)) : ∀ t,
    createWith env f t = .error .recursion → createWith env g t ≠ .error .recursion →
    ∃ c, Static t c ∧ f c = .error .recursion ∧ g c ≠ .error .recursion
  | .list t, h1, h2 => by
    simp only [createWith] at h1 h2
    obtain ⟨c, h3, h4⟩ := createWith_gap h t h1 h2
    exact ⟨c, .list h3, h4⟩
  | .set t, h1, h2 => by
    simp only [createWith] at h1 h2
    obtain ⟨c, h3, h4⟩ := createWith_gap h t h1 h2
    exact ⟨c, .set h3, h4⟩
  | .annotated t _, h1, h2 => by
    simp only [createWith] at h1 h2
    obtain ⟨c, h3, h4⟩ := createWith_gap h t h1 h2
    exact ⟨c, .annotated h3, h4⟩
  | .dict k t, h1, h2 => by
    have h3 : createWith env f t = .error .recursion := by
      cases k with
      | str => simpa only [createWith] using h1
      | enum e =>
        simp only [createWith] at h1
        cases ht : createWith env f t with
        | error e => rw [ht] at h1; exact h1
        | ok u =>
          rw [ht] at h1
          simp only at h1
          cases he : env.enums[e]? with
          | none => rw [he] at h1; cases h1
          | some ed =>
            rw [he] at h1
            simp only at h1
            split at h1 <;> cases h1
      | int | other => simp [createWith] at h1
    have h4 : createWith env g t ≠ .error .recursion := by
      intro h4
      cases k with
      | str => simp only [createWith] at h2; exact h2 h4
      | enum e => simp only [createWith, h4] at h2; exact h2 rfl
      | int | other => simp [createWith] at h1
    obtain ⟨c, h5, h6⟩ := createWith_gap h t h3 h4
    exact ⟨c, .dict h5, h6⟩
  | .tuple ts, h1, h2 => by
    simp only [createWith] at h1 h2
    obtain ⟨t, ht, c, h3, h4⟩ := createWithL_gap h ts h1 h2
    exact ⟨c, .tuple ht h3, h4⟩
  | .cls c, h1, h2 => by
    simp only [createWith] at h1 h2
    exact ⟨c, .cls, h1, h2⟩
  | .literal ls, h, _ => by
    simp only [createWith] at h
    split at h <;> cases h
  | .enum e, h, _ => by
    simp only [createWith] at h
    split at h <;> cases h
  | .none, h, _ | .bool, h, _ | .int, h, _ | .float, h, _ | .str, h, _ | .bytes, h, _ | .datetime, h, _ | .date, h, _
  | .time, h, _ | .timedelta, h, _ | .uuid, h, _ | .ipv4, h, _ | .ipv6, h, _ | .bareList, h, _ | .bareDict, h, _
  | .bareSet, h, _ | .bareTuple, h, _ | .union _, h, _ => by
    simp [createWith] at h
theorem createWithL_gap {env : Env} {f g : Nat → Res Unit} (h : ∀ c, Stable (f c) (g c)) : ∀ ts,
    createWithL env f ts = .error .recursion → createWithL env g ts ≠ .error .recursion →
    ∃ t ∈ ts, ∃ c, Static t c ∧ f c = .error .recursion ∧ g c ≠ .error .recursion
  | [], h1, _ => by simp [createWithL] at h1
  | t :: ts, h1, h2 => by
    have hst := createWith_stable (env := env) h t
    simp only [createWithL] at h1 h2
    cases ht : createWith env f t with
    | error e =>
      rw [ht] at h1
      have h3 : createWith env g t ≠ .error .recursion := by
        intro h3
        rw [h3] at h2
        exact h2 rfl
      obtain ⟨c, h4, h5⟩ := createWith_gap h t (by rw [ht]; exact h1) h3
      exact ⟨t, by simp, c, h4, h5⟩
    | ok u =>
      rw [ht] at h1 hst
      rw [hst (by simp)] at h2
      obtain ⟨t', ht', c, h4, h5⟩ := createWithL_gap h ts h1 h2
      exact ⟨t', by simp [ht'], c, h4, h5⟩
end

theorem forRes_gap {f g : α → Res Unit} (h : ∀ x, Stable (f x) (g x)) : ∀ xs,
    forRes f xs = .error .recursion → forRes g xs ≠ .error .recursion →
    ∃ x ∈ xs, f x = .error .recursion ∧ g x ≠ .error .recursion
  | [], h1, _ => by cases h1
  | x :: xs, h1, h2 => by
    have hst := h x
    simp only [forRes] at h1 h2
    cases ht : f x with
    | error e =>
      rw [ht] at h1
      refine ⟨x, by simp, by rw [ht]; exact h1, ?_⟩
      intro h3
      rw [h3] at h2
      exact h2 rfl
    | ok u =>
      rw [ht] at h1 hst
      rw [hst (by simp)] at h2
      obtain ⟨y, hy, h3⟩ := forRes_gap h xs h1 h2
      exact ⟨y, by simp [hy], h3⟩

/-- The depth that is needed is exactly `k + 1`. -/
def Depth (env : Env) (k c : Nat) : Prop :=
  createCls env k c = .error .recursion ∧ createCls env (k + 1) c ≠ .error .recursion

theorem Depth.unique {env : Env} {k k' c : Nat} (h : Depth env k c) (h' : Depth env k' c) : k = k' := by
  rcases Nat.lt_trichotomy k k' with hlt | he | hlt
  · have := createCls_stable (Nat.succ_le_of_lt hlt) c h.2
    exact absurd (this.symm.trans h'.1) h.2
  · exact he
  · have := createCls_stable (Nat.succ_le_of_lt hlt) c h'.2
    exact absurd (this.symm.trans h.1) h'.2

theorem Depth.pred {env : Env} {k c : Nat} (h : Depth env (k + 1) c) : ∃ c', Needs env c c' ∧ Depth env k c' := by
  obtain ⟨h1, h2⟩ := h
  simp only [createCls] at h1 h2
  cases hc : env.classes[c]? with
  | none => rw [hc] at h1; cases h1
  | some cd =>
    rw [hc] at h1 h2
    obtain ⟨fd, hfd, h3, h4⟩ := forRes_gap (fun x => createWith_stable (createCls_stable_succ k) _) _ h1 h2
    obtain ⟨c', h5, h6⟩ := createWith_gap (createCls_stable_succ k) _ h3 h4
    refine ⟨c', ⟨cd, hc, ?_, fd, ?_, static_seen h5⟩, h6⟩
    · cases ht : cd.toJson with
      | none => rfl
      | some g => simp [ClassDef.serFields, ht] at hfd
    · cases ht : cd.toJson with
      | none => simpa [ClassDef.serFields, ht] using hfd
      | some g => simp [ClassDef.serFields, ht] at hfd

theorem Depth.chain {env : Env} {t : Ty} : ∀ (k c : Nat), Needed env t c → Depth env k c →
    ∃ l : List Nat, l.length = k + 1 ∧ l.Nodup ∧ ∀ x ∈ l, Needed env t x ∧ ∃ k', k' ≤ k ∧ Depth env k' x
  | 0, c, hn, h => ⟨[c], rfl, by simp, by intro x hx; rcases List.mem_singleton.1 hx with rfl; exact ⟨hn, 0, Nat.le_refl _, h⟩⟩
  | k + 1, c, hn, h => by
    obtain ⟨c', h1, h2⟩ := h.pred
    obtain ⟨l, h3, h4, h5⟩ := Depth.chain k c' (.next hn h1) h2
    refine ⟨c :: l, by simp [h3], List.nodup_cons.2 ⟨?_, h4⟩, ?_⟩
    · intro hm
      obtain ⟨_, k', hk', hd⟩ := h5 c hm
      have := h.unique hd
      omega
    · intro x hx
      rcases List.mem_cons.1 hx with rfl | hx
      · exact ⟨hn, k + 1, Nat.le_refl _, h⟩
      · obtain ⟨h6, k', h7, h8⟩ := h5 x hx
        exact ⟨h6, k', by omega, h8⟩

theorem lt_of_class {env : Env} {c : Nat} {cd : ClassDef} (h : env.classes[c]? = some cd) : c < env.classes.length :=
  (List.getElem?_eq_some_iff.1 h).1

/-- The number of classes is enough depth. -/
theorem createCls_enough {env : Env} {t : Ty} (hs : Scoped env t) {c : Nat} (hn : Needed env t c)
    (h : createCls env env.classes.length c = .error .recursion) : ∀ n, createCls env n c = .error .recursion := by
  intro n
  induction n with
  | zero => rfl
  | succ n ih =>
    apply Classical.byContradiction
    intro hne
    obtain ⟨l, h1, h2, h3⟩ := Depth.chain n c hn ⟨ih, hne⟩
    have h4 := nodup_bound env.classes.length l h2 (fun x hx => by
      obtain ⟨cd, hcd⟩ := hs x (h3 x hx).1
      exact lt_of_class hcd)
    have := createCls_stable (by omega : n + 1 ≤ env.classes.length) c hne
    exact hne (this.symm.trans h)

end Verif
