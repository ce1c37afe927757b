import Verif.Lemmas.Recursion
import Verif.Spec.Names
/-!
# Serializers for annotations with names of classes
-/
namespace Verif

theorem Hidden.namesClass {t : Ty} (h : Hidden t) : NamesClass t := by
  induction h with
  | key => exact .key
  | annotated h => exact .annotated h
  | dict _ ih => exact .dict ih
  | list _ ih => exact .list ih
  | set _ ih => exact .set ih
  | tuple hm _ ih => exact .tuple hm ih

mutual
theorem createWith_names {env : Env} {cls : Nat → Res Unit} : ∀ (t : Ty),
    (createWith env cls (t.seenFwd false) = .ok () ↔ createWith env cls t = .ok () ∧ ¬ NamesClass t) ∧
    (createWith env cls (t.seenFwd true) = .ok () ↔ createWith env cls t = .ok () ∧ ¬ Hidden t)
  | .list t => by
    have ih := createWith_names (env := env) (cls := cls) t
    simp only [Ty.seenFwd, createWith, ih]
    refine ⟨and_congr_right fun _ => not_congr ⟨.list, fun h => by cases h; assumption⟩,
      and_congr_right fun _ => not_congr ⟨.list, fun h => by cases h; assumption⟩⟩
  | .set t => by
    have ih := createWith_names (env := env) (cls := cls) t
    simp only [Ty.seenFwd, createWith, ih]
    refine ⟨and_congr_right fun _ => not_congr ⟨.set, fun h => by cases h; assumption⟩,
      and_congr_right fun _ => not_congr ⟨.set, fun h => by cases h; assumption⟩⟩
  | .annotated t ms => by
    have ih := createWith_names (env := env) (cls := cls) t
    simp only [Ty.seenFwd, createWith, ih.1]
    refine ⟨and_congr_right fun _ => not_congr ⟨.annotated, fun h => by cases h; assumption⟩,
      and_congr_right fun _ => not_congr ⟨.annotated, fun h => by cases h; assumption⟩⟩
  | .dict k t => by
    have ih := createWith_names (env := env) (cls := cls) t
    cases k with
    | str =>
      simp only [Ty.seenFwd, createWith, ih]
      refine ⟨and_congr_right fun _ => not_congr ⟨.dict, fun h => by cases h; assumption⟩,
        and_congr_right fun _ => not_congr ⟨.dict, fun h => by cases h; assumption⟩⟩
    | enum e =>
      have e1 : createWith env cls (Ty.dict .other t) ≠ .ok () := by simp [createWith]
      simp only [Ty.seenFwd]
      exact ⟨⟨fun h => absurd h e1, fun h => absurd .key h.2⟩, ⟨fun h => absurd h e1, fun h => absurd .key h.2⟩⟩
    | int | other => simp [Ty.seenFwd, createWith]
  | .tuple ts => by
    have ih := createWithL_names (env := env) (cls := cls) ts
    simp only [Ty.seenFwd, createWith, ih]
    refine ⟨and_congr_right fun _ => ⟨fun h h' => ?_, fun h t hm ht => h (.tuple hm ht)⟩,
      and_congr_right fun _ => ⟨fun h h' => ?_, fun h t hm ht => h (.tuple hm ht)⟩⟩
    · cases h' with | tuple hm ht => exact h _ hm ht
    · cases h' with | tuple hm ht => exact h _ hm ht
  | .cls c => by
    have e1 : createWith env cls (Ty.literal []) ≠ .ok () := by simp [createWith, litsUniform]
    simp only [Ty.seenFwd, Bool.false_eq_true, if_false, if_true]
    exact ⟨⟨fun h => absurd h e1, fun h => absurd .cls h.2⟩, ⟨fun h => ⟨h, fun h => by cases h⟩, fun h => h.1⟩⟩
  | .enum c => by
    have e1 : createWith env cls (Ty.literal []) ≠ .ok () := by simp [createWith, litsUniform]
    simp only [Ty.seenFwd, Bool.false_eq_true, if_false, if_true]
    exact ⟨⟨fun h => absurd h e1, fun h => absurd .enum h.2⟩, ⟨fun h => ⟨h, fun h => by cases h⟩, fun h => h.1⟩⟩
  | .none | .bool | .int | .float | .str | .bytes | .datetime | .date | .time
  | .timedelta | .uuid | .ipv4 | .ipv6 | .bareList | .bareSet | .bareTuple | .bareDict
  | .union _ | .literal _ => by
    simp only [Ty.seenFwd]
    exact ⟨⟨fun h => ⟨h, fun h => by cases h⟩, fun h => h.1⟩, ⟨fun h => ⟨h, fun h => by cases h⟩, fun h => h.1⟩⟩
theorem createWithL_names {env : Env} {cls : Nat → Res Unit} : ∀ (ts : List Ty),
    (createWithL env cls (Ty.seenFwdL false ts) = .ok () ↔ createWithL env cls ts = .ok () ∧ ∀ t ∈ ts, ¬ NamesClass t) ∧
    (createWithL env cls (Ty.seenFwdL true ts) = .ok () ↔ createWithL env cls ts = .ok () ∧ ∀ t ∈ ts, ¬ Hidden t)
  | [] => by simp [Ty.seenFwdL, createWithL]
  | t :: ts => by
    have i1 := createWith_names (env := env) (cls := cls) t
    have i2 := createWithL_names (env := env) (cls := cls) ts
    have e : ∀ (u : Ty) us, createWithL env cls (u :: us) = .ok () ↔ createWith env cls u = .ok () ∧ createWithL env cls us = .ok () := by
      intro u us
      rw [createWithL_ok, createWithL_ok]
      simp
    simp only [Ty.seenFwdL, e, i1, i2, List.mem_cons, forall_eq_or_imp]
    constructor <;> constructor <;> (rintro ⟨⟨h1, h2⟩, h3, h4⟩; exact ⟨⟨h1, h3⟩, h2, h4⟩)
end

theorem createWith_seen_iff {env : Env} {cls : Nat → Res Unit} {kind : ClassKind} {f : FieldDef} :
    createWith env cls (f.seen kind) = .ok () ↔
      createWith env cls f.ty = .ok () ∧ ((∃ q, kind = .dataclass q) → f.fwd = true → ¬ Hidden f.ty) := by
  cases kind with
  | dataclass q =>
    by_cases hf : f.fwd = true
    · simp only [FieldDef.seen, hf, if_true, createWith_names]
      exact and_congr_right fun _ => ⟨fun h _ _ => h, fun h => h ⟨q, rfl⟩ trivial⟩
    · simp [FieldDef.seen, hf]
  | namedTuple t => simp [FieldDef.seen]
  | plain => simp [FieldDef.seen]

/-! ### Types without serializer -/

theorem litsUniform_iff (ls : List Lit) : litsUniform ls = true ↔ ls ≠ [] ∧ ∀ l ∈ ls, ∀ l' ∈ ls, l.ty = l'.ty := by
  have key : ∀ a b : Lit, a.sameTy b = true ↔ a.ty = b.ty := by
    intro a b
    cases a <;> cases b <;> simp [Lit.sameTy, Lit.ty]
  cases ls with
  | nil => simp [litsUniform]
  | cons l r =>
    simp only [litsUniform, List.all_eq_true, key]
    constructor
    · refine fun h => ⟨by simp, fun a ha b hb => ?_⟩
      have g : ∀ x ∈ l :: r, l.ty = x.ty := fun x hx => by
        rcases List.mem_cons.1 hx with rfl | hx
        · rfl
        · exact h x hx
      exact (g a ha).symm.trans (g b hb)
    · exact fun h x hx => h.2 l (by simp) x (by simp [hx])

theorem strValued_iff (ed : EnumDef) : ed.strValued = true ↔ ed.members ≠ [] ∧ ∀ m ∈ ed.members, ∃ s, m.2 = .str s := by
  unfold EnumDef.strValued
  rw [Bool.and_eq_true, List.all_eq_true]
  refine and_congr ?_ ?_
  · cases ed.members <;> simp
  · refine forall_congr' fun m => imp_congr_right fun _ => ?_
    cases m.2 <;> simp

mutual
theorem createWith_sound {env : Env} {f : Nat → Res Unit} : ∀ t, createWith env f t = .ok () → ¬ Offends env t
  | .list t, h => by
    simp only [createWith] at h
    intro ho; cases ho with | list ho => exact createWith_sound t h ho
  | .set t, h => by
    simp only [createWith] at h
    intro ho; cases ho with | set ho => exact createWith_sound t h ho
  | .annotated t _, h => by
    simp only [createWith] at h
    intro ho; cases ho with | annotated ho => exact createWith_sound t h ho
  | .dict k t, h => by
    cases k with
    | str =>
      simp only [createWith] at h
      intro ho
      cases ho with
      | key hk => rcases hk with hk | hk <;> cases hk
      | dict ho => exact createWith_sound t h ho
    | enum e =>
      simp only [createWith] at h
      cases ht : createWith env f t with
      | error e => rw [ht] at h; cases h
      | ok u =>
        rw [ht] at h
        have := createWith_sound t ht
        intro ho
        cases ho with
        | key hk => rcases hk with hk | hk <;> cases hk
        | dict ho => exact this ho
        | enumKey hk =>
          simp only at h
          cases he : env.enums[e]? with
          | none => rw [he] at h; cases h
          | some ed =>
            rw [he] at h
            simp only at h
            by_cases hv : ed.strValued = true
            · exact hk ed he ((strValued_iff ed).1 hv)
            · rw [if_neg hv] at h; cases h
    | int | other => simp [createWith] at h
  | .tuple ts, h => by
    simp only [createWith] at h
    intro ho; cases ho with | tuple hm ho => exact createWithL_sound ts h _ hm ho
  | .literal ls, h => by
    simp only [createWith] at h
    intro ho
    cases ho with
    | literal hn =>
      by_cases hu : litsUniform ls = true
      · exact hn ((litsUniform_iff ls).1 hu)
      · rw [if_neg hu] at h; cases h
  | .enum e, h => by
    simp only [createWith] at h
    intro ho
    cases ho with | enum hn => rw [hn] at h; cases h
  | .cls _, _ | .none, _ | .bool, _ | .int, _ | .float, _ | .str, _ | .bytes, _ | .datetime, _ | .date, _ | .time, _
  | .timedelta, _ | .uuid, _ | .ipv4, _ | .ipv6, _ | .bareList, _ | .bareSet, _ | .bareTuple, _ | .bareDict, _
  | .union _, _ => fun ho => by cases ho
theorem createWithL_sound {env : Env} {f : Nat → Res Unit} : ∀ ts, createWithL env f ts = .ok () → ∀ t ∈ ts, ¬ Offends env t
  | [], _, t, hm => by simp at hm
  | t :: ts, h, u, hm => by
    simp only [createWithL] at h
    cases ht : createWith env f t with
    | error e => rw [ht] at h; cases h
    | ok x =>
      rw [ht] at h
      have h1 := createWith_sound t ht
      have h2 := createWithL_sound ts h
      rcases List.mem_cons.1 hm with he | hm
      · subst he; exact h1
      · exact h2 u hm
end

mutual
theorem createWith_made {env : Env} {f : Nat → Res Unit} : ∀ t, ¬ Offends env t → (∀ c, Static t c → f c = .ok () ∨ f c = .error .recursion) →
    createWith env f t = .ok () ∨ createWith env f t = .error .recursion
  | .list t, ho, hs => by
    simp only [createWith]
    exact createWith_made t (fun h => ho (.list h)) fun c h => hs c (.list h)
  | .set t, ho, hs => by
    simp only [createWith]
    exact createWith_made t (fun h => ho (.set h)) fun c h => hs c (.set h)
  | .annotated t _, ho, hs => by
    simp only [createWith]
    exact createWith_made t (fun h => ho (.annotated h)) fun c h => hs c (.annotated h)
  | .dict k t, ho, hs => by
    have ih := createWith_made t (fun h => ho (.dict h)) fun c h => hs c (.dict h)
    cases k with
    | str => simpa only [createWith] using ih
    | int | other => exact absurd (.key (by simp)) ho
    | enum e =>
      simp only [createWith]
      rcases ih with ih | ih <;> rw [ih]
      · left
        simp only
        cases he : env.enums[e]? with
        | none => exact absurd (.enumKey fun ed h => by rw [he] at h; cases h) ho
        | some ed =>
          simp only
          rw [if_pos]
          apply Classical.byContradiction
          intro hv
          exact ho (.enumKey fun ed' h hv' => hv ((strValued_iff ed).2 (by rw [he] at h; cases h; exact hv')))
      · right; rfl
  | .tuple ts, ho, hs => by
    simp only [createWith]
    exact createWithL_made ts (fun t hm h => ho (.tuple hm h)) fun t hm c h => hs c (.tuple hm h)
  | .literal ls, ho, _ => by
    simp only [createWith]
    left
    rw [if_pos]
    apply Classical.byContradiction
    intro hu
    exact ho (.literal fun h => hu ((litsUniform_iff ls).2 h))
  | .enum e, ho, _ => by
    simp only [createWith]
    left
    cases he : env.enums[e]? with
    | none => exact absurd (.enum he) ho
    | some ed => rfl
  | .cls c, _, hs => by simpa only [createWith] using hs c .cls
  | .none, _, _ | .bool, _, _ | .int, _, _ | .float, _, _ | .str, _, _ | .bytes, _, _ | .datetime, _, _ | .date, _, _ | .time, _, _
  | .timedelta, _, _ | .uuid, _, _ | .ipv4, _, _ | .ipv6, _, _ | .bareList, _, _ | .bareSet, _, _ | .bareTuple, _, _ | .bareDict, _, _
  | .union _, _, _ => .inl (by simp [createWith])
theorem createWithL_made {env : Env} {f : Nat → Res Unit} : ∀ ts, (∀ t ∈ ts, ¬ Offends env t) →
    (∀ t ∈ ts, ∀ c, Static t c → f c = .ok () ∨ f c = .error .recursion) →
    createWithL env f ts = .ok () ∨ createWithL env f ts = .error .recursion
  | [], _, _ => .inl rfl
  | t :: ts, ho, hs => by
    simp only [createWithL]
    rcases createWith_made t (ho t (by simp)) (hs t (by simp)) with h | h <;> rw [h]
    · exact createWithL_made ts (fun u hm => ho u (by simp [hm])) fun u hm => hs u (by simp [hm])
    · exact .inr rfl
end

mutual
theorem seenFwd_same : ∀ t : Ty, (¬ NamesClass t → t.seenFwd false = t) ∧ (¬ Hidden t → t.seenFwd true = t)
  | .list t => by
    have ih := seenFwd_same t
    simp only [Ty.seenFwd, Ty.list.injEq]
    exact ⟨fun h => ih.1 fun h' => h (.list h'), fun h => ih.2 fun h' => h (.list h')⟩
  | .set t => by
    have ih := seenFwd_same t
    simp only [Ty.seenFwd, Ty.set.injEq]
    exact ⟨fun h => ih.1 fun h' => h (.set h'), fun h => ih.2 fun h' => h (.set h')⟩
  | .annotated t ms => by
    have ih := seenFwd_same t
    simp only [Ty.seenFwd, Ty.annotated.injEq, and_true]
    exact ⟨fun h => ih.1 fun h' => h (.annotated h'), fun h => ih.1 fun h' => h (.annotated h')⟩
  | .dict k t => by
    have ih := seenFwd_same t
    cases k with
    | enum e => exact ⟨fun h => absurd .key h, fun h => absurd .key h⟩
    | str | int | other =>
      simp only [Ty.seenFwd, Ty.dict.injEq, true_and]
      exact ⟨fun h => ih.1 fun h' => h (.dict h'), fun h => ih.2 fun h' => h (.dict h')⟩
  | .tuple ts => by
    have ih := seenFwdL_same ts
    simp only [Ty.seenFwd, Ty.tuple.injEq]
    exact ⟨fun h => ih.1 fun t hm h' => h (.tuple hm h'), fun h => ih.2 fun t hm h' => h (.tuple hm h')⟩
  | .cls c => ⟨fun h => absurd .cls h, fun _ => by simp [Ty.seenFwd]⟩
  | .enum c => ⟨fun h => absurd .enum h, fun _ => by simp [Ty.seenFwd]⟩
  | .none | .bool | .int | .float | .str | .bytes | .datetime | .date | .time
  | .timedelta | .uuid | .ipv4 | .ipv6 | .bareList | .bareSet | .bareTuple | .bareDict
  | .union _ | .literal _ => by simp [Ty.seenFwd]
theorem seenFwdL_same : ∀ ts : List Ty, ((∀ t ∈ ts, ¬ NamesClass t) → Ty.seenFwdL false ts = ts) ∧
    ((∀ t ∈ ts, ¬ Hidden t) → Ty.seenFwdL true ts = ts)
  | [] => by simp [Ty.seenFwdL]
  | t :: ts => by
    have i1 := seenFwd_same t
    have i2 := seenFwdL_same ts
    simp only [Ty.seenFwdL, List.cons.injEq, List.mem_cons, forall_eq_or_imp]
    exact ⟨fun h => ⟨i1.1 h.1, i2.1 h.2⟩, fun h => ⟨i1.2 h.1, i2.2 h.2⟩⟩
end

theorem seen_same {kind : ClassKind} {f : FieldDef} (h : (∃ q, kind = .dataclass q) → f.fwd = true → ¬ Hidden f.ty) :
    f.seen kind = f.ty := by
  cases kind with
  | dataclass q =>
    by_cases hf : f.fwd = true
    · simp only [FieldDef.seen, hf, if_true]
      exact (seenFwd_same f.ty).2 (h ⟨q, rfl⟩ hf)
    · simp [FieldDef.seen, hf]
  | namedTuple t => rfl
  | plain => rfl

theorem forRes_made {f : α → Res Unit} : ∀ xs : List α, (∀ x ∈ xs, f x = .ok () ∨ f x = .error .recursion) →
    forRes f xs = .ok () ∨ forRes f xs = .error .recursion
  | [], _ => .inl rfl
  | x :: xs, h => by
    simp only [forRes]
    rcases h x (by simp) with h1 | h1 <;> rw [h1]
    · exact forRes_made xs fun y hy => h y (by simp [hy])
    · exact .inr rfl

theorem createCls_made {env : Env} {t : Ty} (hs : Scoped env t)
    (hp : ∀ c, Needed env t c → ∀ cd, env.classes[c]? = some cd → cd.Presentable env) : ∀ n c, Needed env t c →
    createCls env n c = .ok () ∨ createCls env n c = .error .recursion
  | 0, _, _ => .inr rfl
  | n + 1, c, hn => by
    obtain ⟨cd, hcd⟩ := hs c hn
    simp only [createCls, hcd]
    cases hj : cd.toJson with
    | some f => left; simp [ClassDef.serFields, hj, forRes]
    | none =>
      have he : cd.serFields = cd.hints := by simp [ClassDef.serFields, hj]
      rw [he]
      refine forRes_made _ fun f hf => ?_
      rcases hp c hn cd hcd with ⟨f', h⟩ | h
      · rw [hj] at h; cases h
      · obtain ⟨h1, h2⟩ := h f hf
        rw [seen_same h2]
        exact createWith_made _ h1 fun c' hc' => createCls_made hs hp n c' (.next hn ⟨cd, hcd, hj, f, hf, hc'⟩)

theorem createCls_presentable {env : Env} {n c : Nat} {cd : ClassDef} (hcd : env.classes[c]? = some cd) (h : createCls env n c = .ok ()) :
    cd.Presentable env := by
  cases n with
  | zero => cases h
  | succ n =>
    simp only [createCls, hcd] at h
    cases hj : cd.toJson with
    | some f => exact .inl ⟨f, hj⟩
    | none =>
      have he : cd.serFields = cd.hints := by simp [ClassDef.serFields, hj]
      rw [he] at h
      refine .inr fun f hf => ?_
      have := createWith_seen_iff.1 (forRes_ok.1 h f hf)
      exact ⟨createWith_sound _ this.1, this.2⟩

/-- Creation succeeds for all the classes that a type leads to. -/
theorem createCls_needed {env : Env} {t : Ty} {n : Nat} (h : createWith env (createCls env n) t = .ok ()) {c : Nat} (hn : Needed env t c) :
    ∃ m, createCls env m c = .ok () := by
  induction hn with
  | here hs => exact ⟨n, createWith_ok_static t h _ hs⟩
  | @next c1 c2 _ h2 ih =>
    obtain ⟨m, hm⟩ := ih
    cases m with
    | zero => cases hm
    | succ m => exact ⟨m, createCls_ok_needs hm h2⟩

end Verif
