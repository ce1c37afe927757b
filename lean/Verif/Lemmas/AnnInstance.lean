import Verif.Spec.AnnInstance
import Verif.Lemmas.AnnMeaning
import Verif.Lemmas.Inspection
/-!
# Lemmas about objects checked against types with names
-/
namespace Verif

variable {w : AnnWorld} {P : Objects} {lib : Nat} {d : Str → Option AnnObj}

theorem means_union {os : List AnnObj} {t : AnnObj} (h : w.Means d (.gen .union os) t) :
    ∃ ts, t = .gen .union ts ∧ All2 (w.Means d) os ts := by
  obtain ⟨n, h⟩ := h
  cases n with
  | zero => cases h
  | succ n =>
    rw [meaning_gen] at h
    have h : (allMean (argMeaning .union (w.meaning d n)) os).map (AnnObj.gen .union) = some t := h
    cases h1 : allMean (argMeaning .union (w.meaning d n)) os with
    | none => rw [h1] at h; cases h
    | some ts =>
      rw [h1] at h
      cases h
      exact ⟨ts, rfl, (allMean_iff.1 h1).imp fun _ _ hx => ⟨n, argMeaning_some hx⟩⟩

theorem means_atom {o t : AnnObj} (h : w.Means d o t) (ho : o = .noneType ∨ (∃ c, o = .cls c) ∨ (∃ c, o = .form (.builtin c)) ∨
    ∃ c, o = .form (.typing c)) : t = o := by
  obtain ⟨n, h⟩ := h
  cases n with
  | zero => cases h
  | succ n =>
    rcases ho with rfl | ⟨c, rfl⟩ | ⟨c, rfl⟩ | ⟨c, rfl⟩ <;> (cases h; rfl)

theorem knownTo_libLook (h : w.KnownTo lib d) (s : Str) (v : AnnVal) : ∀ n o, d n = some o → w.libLook lib s v n = some o := by
  intro n o hn
  obtain ⟨h1, h2⟩ := h n o hn
  simp only [List.mem_cons, List.not_mem_nil, or_false, not_or] at h1
  unfold AnnWorld.libLook
  rw [if_neg h1.1, if_neg h1.2.1, if_neg h1.2.2.1, if_neg h1.2.2.2]
  simp only [firstOf] at h2
  cases hm : w.inModule lib n with
  | some x => rw [hm] at h2; exact h2
  | none =>
    rw [hm] at h2
    simp only at h2 ⊢
    cases hb : lookupKey n w.builtins with
    | some x => rw [hb] at h2; exact h2
    | none => rw [hb] at h2; cases h2

theorem isInstanceOf_iff (L : Nat → Nat → Prop) (v : AnnVal) {o : AnnObj} (ho : o = .noneType ∨ (∃ c, o = .cls c) ∨ ∃ c, o = .form (.builtin c)) :
    P.isInstanceOf o v = true ↔ P.BelongsBy L v o := by
  rcases ho with rfl | ⟨c, rfl⟩ | ⟨c, rfl⟩
  · constructor
    · intro h; cases v <;> first | exact .noneType | cases h
    · intro h; cases h; rfl
  · exact ⟨.cls, fun h => by cases h with | cls h => exact h⟩
  · constructor
    · intro h
      cases c <;> cases v <;> first
        | (cases h; done)
        | exact .bareList (.inl rfl)
        | exact .bareSet (.inl rfl)
        | exact .bareDict (.inl rfl)
        | exact .bareTuple (.inl rfl)
    · intro h
      cases h with
      | bareList h | bareSet h | bareDict h | bareTuple h => rcases h with h | h <;> (cases h; try rfl)

theorem checkZip_decides {Q : AnnObj → AnnVal → Prop} : ∀ {os ts : List AnnObj} (vs : List AnnVal),
    All2 (fun o t => ∀ v, Decides (w.checkObj P lib o v) (Q t v)) os ts →
    Decides (w.checkZip P lib os vs) (∀ (i : Nat) v t, vs[i]? = some v → ts[i]? = some t → Q t v)
  | _, _, vs, .nil => ⟨true, by simp [AnnWorld.checkZip], by simp⟩
  | _, _, [], .cons _ _ => ⟨true, by simp [AnnWorld.checkZip], by simp⟩
  | o :: os, t :: ts, v :: vs, .cons h hs => by
    have h3 := Decides.andRes (b := fun _ => w.checkZip P lib os vs) (h v) (checkZip_decides vs hs)
    rw [← AnnWorld.checkZip] at h3
    refine h3.congr ⟨?_, ?_⟩
    · rintro ⟨ha, hb⟩ i x u hw hu
      cases i with
      | zero => simp at hw hu; subst hw; subst hu; exact ha
      | succ i => exact hb i x u (by simpa using hw) (by simpa using hu)
    · intro hall
      exact ⟨hall 0 v t rfl rfl, fun i x u hw hu => hall (i + 1) x u (by simpa using hw) (by simpa using hu)⟩

theorem checkAny_decides {Q : AnnObj → AnnVal → Prop} {v : AnnVal} : ∀ {os ts : List AnnObj},
    All2 (fun o t => ∀ v, Decides (w.checkObj P lib o v) (Q t v)) os ts →
    Decides (w.checkAny P lib os v) (∃ t ∈ ts, Q t v)
  | _, _, .nil => ⟨false, by simp [AnnWorld.checkAny], by simp⟩
  | o :: os, t :: ts, .cons h hs => by
    obtain ⟨b, h1, h2⟩ := h v
    simp only [AnnWorld.checkAny, h1]
    cases b with
    | true => exact ⟨true, rfl, by simp [h2.1 rfl]⟩
    | false =>
      refine (checkAny_decides hs).congr ⟨?_, ?_⟩
      · rintro ⟨u, hu, h⟩; exact ⟨u, by simp [hu], h⟩
      · rintro ⟨u, hu, h'⟩
        rcases List.mem_cons.1 hu with rfl | hu
        · cases h2.2 h'
        · exact ⟨u, hu, h'⟩

theorem checkObj_coll {f : AnnForm} {c : Coll} (hf : f.IsColl c) (os : List AnnObj) (v : AnnVal) :
    w.checkObj P lib (.gen f os) v = w.checkColl P lib c os v := by
  rcases hf with rfl | rfl <;> simp only [AnnWorld.checkObj]

theorem all2_one {R : α → β → Prop} {a : α} {bs : List β} (h : All2 R [a] bs) : ∃ b, bs = [b] ∧ R a b := by
  cases h with | cons h1 h2 => cases h2; exact ⟨_, rfl, h1⟩

theorem all2_two {R : α → β → Prop} {a a' : α} {bs : List β} (h : All2 R [a, a'] bs) : ∃ b b', bs = [b, b'] ∧ R a b ∧ R a' b' := by
  cases h with
  | cons h1 h2 => obtain ⟨b, rfl, h3⟩ := all2_one h2; exact ⟨_, b, rfl, h1, h3⟩

theorem checkObj_atom {o : AnnObj} (ho : o = .noneType ∨ (∃ c, o = .cls c) ∨ ∃ c, o = .form (.builtin c)) (v : AnnVal) :
    w.checkObj P lib o v = .ok (P.isInstanceOf o v) := by
  rcases ho with rfl | ⟨c, rfl⟩ | ⟨c, rfl⟩ <;> simp [AnnWorld.checkObj, AnnObj.isType]

section
variable {L : Nat → Nat → Prop} {v : AnnVal} {t k : AnnObj} {f : AnnForm}

theorem belongs_list (hf : f.IsColl .list) : P.BelongsBy L v (.gen f [t]) ↔ ∃ vs, v = .list vs ∧ ∀ v ∈ vs, P.BelongsBy L v t := by
  constructor
  · intro h
    rcases hf with rfl | rfl <;> cases h <;> first
      | exact ⟨_, rfl, by assumption⟩
      | (rename_i h _; rcases h with h | h <;> (cases h; done))
      | (rename_i h _ _; rcases h with h | h <;> (cases h; done))
  · rintro ⟨vs, rfl, h⟩; exact .list hf h

theorem belongs_set (hf : f.IsColl .set) : P.BelongsBy L v (.gen f [t]) ↔ ∃ vs, v = .set vs ∧ ∀ v ∈ vs, P.BelongsBy L v t := by
  constructor
  · intro h
    rcases hf with rfl | rfl <;> cases h <;> first
      | exact ⟨_, rfl, by assumption⟩
      | (rename_i h _; rcases h with h | h <;> (cases h; done))
      | (rename_i h _ _; rcases h with h | h <;> (cases h; done))
  · rintro ⟨vs, rfl, h⟩; exact .set hf h

theorem belongs_dict (hf : f.IsColl .dict) : P.BelongsBy L v (.gen f [k, t]) ↔
    ∃ kvs, v = .dict kvs ∧ ∀ kv ∈ kvs, P.BelongsBy L kv.1 k ∧ P.BelongsBy L kv.2 t := by
  constructor
  · intro h
    rcases hf with rfl | rfl <;> cases h <;> first
      | (rename_i h1 h2; exact ⟨_, rfl, fun kv hkv => ⟨h1 kv hkv, h2 kv hkv⟩⟩)
      | (rename_i h _; rcases h with h | h <;> (cases h; done))
      | (rename_i h _ _; rcases h with h | h <;> (cases h; done))
  · rintro ⟨vs, rfl, h⟩; exact .dict hf (fun kv hkv => (h kv hkv).1) (fun kv hkv => (h kv hkv).2)

theorem belongs_tuple {ts : List AnnObj} (hf : f.IsColl .tuple) : P.BelongsBy L v (.gen f ts) ↔
    ∃ vs, v = .tuple vs ∧ L vs.length ts.length ∧ ∀ (i : Nat) v t, vs[i]? = some v → ts[i]? = some t → P.BelongsBy L v t := by
  constructor
  · intro h
    cases h with
    | list h | set h | dict h => rcases hf with rfl | rfl <;> rcases h with h | h <;> cases h
    | tuple _ h1 h2 => exact ⟨_, rfl, h1, h2⟩
    | member h => rcases hf with rfl | rfl <;> rcases h with h | h <;> cases h
    | annotated | literal => rcases hf with h | h <;> cases h
  · rintro ⟨vs, rfl, h1, h⟩; exact .tuple hf h1 h

theorem belongs_union {ts : List AnnObj} : P.BelongsBy L v (.gen .union ts) ↔ ∃ t ∈ ts, P.BelongsBy L v t := by
  constructor
  · intro h
    cases h with
    | list h | set h | dict h | tuple h => rcases h with h | h <;> cases h
    | member _ h1 h2 => exact ⟨_, h1, h2⟩
  · rintro ⟨t, ht, h⟩; exact .member (.inl rfl) ht h
end

/-- What is decided: tuples are compared up to the shorter length. -/
theorem checkObj_decides (hd : w.KnownTo lib d) {T : Prop} {o : AnnObj} (h : w.Asked d T o) : ∀ {t : AnnObj}, w.Means d o t → ∀ v,
    Decides (w.checkObj P lib o v) (P.BelongsBy (fun _ _ => True) v t) := by
  have atom : ∀ {o t : AnnObj}, (o = .noneType ∨ (∃ c, o = .cls c) ∨ ∃ c, o = .form (.builtin c)) → w.Means d o t → ∀ v,
      Decides (w.checkObj P lib o v) (P.BelongsBy (fun _ _ => True) v t) := by
    intro o t ho ht v
    rw [means_atom ht (ho.imp id (Or.imp id .inl)), checkObj_atom ho]
    exact .pure (isInstanceOf_iff _ v ho)
  induction h with
  | noneType => exact atom (.inl rfl)
  | cls => exact atom (.inr (.inl ⟨_, rfl⟩))
  | untyped => exact atom (.inr (.inr ⟨_, rfl⟩))
  | tupleForm =>
    intro t ht v
    rw [means_atom ht (.inr (.inr (.inr ⟨_, rfl⟩)))]
    simp only [AnnWorld.checkObj]
    refine .pure ⟨fun h => ?_, fun h => ?_⟩
    · cases v <;> first | exact .bareTuple (.inr rfl) | cases h
    · cases h with
      | bareList h | bareSet h | bareDict h | bareTuple h => rcases h with h | h <;> (cases h; try rfl)
  | @ref s e o hp he ho =>
    intro t ht v
    have ht' : t = o := by
      obtain ⟨n, ht⟩ := ht
      cases n with
      | zero => cases ht
      | succ n =>
        rw [meaning_ref] at ht
        obtain ⟨e', o', h1, h2, h3⟩ := textMeaning_iff.1 ht
        rw [hp] at h1; cases h1
        rw [he] at h2; cases h2
        rcases h3 with ⟨rfl, -⟩ | ⟨-, h3⟩
        · rcases ho with h | ⟨c, h⟩ | ⟨c, h⟩ <;> cases h
        · exact means_atom ⟨n, h3⟩ (ho.imp id (Or.imp id .inl))
    subst ht'
    have : w.checkObj P lib (.ref s) v = .ok (P.isInstanceOf t v) := by
      simp only [AnnWorld.checkObj, AnnWorld.refInstance, AnnWorld.evalText, hp, annEval_mono (knownTo_libLook hd s v) e he]
      rcases ho with rfl | ⟨c, rfl⟩ | ⟨c, rfl⟩ <;> rfl
    rw [this]
    exact .pure (isInstanceOf_iff _ v ho)
  | list hf _ ih =>
    intro t ht v
    obtain ⟨ts, rfl, hts⟩ := means_coll hf ht
    obtain ⟨t1, rfl, h1⟩ := all2_one hts
    rw [checkObj_coll hf]
    cases v with
    | list vs =>
      simp only [AnnWorld.checkColl, AnnWorld.checkEach]
      exact (Decides.all fun v _ => ih h1 v).congr ⟨fun h => (belongs_list hf).2 ⟨vs, rfl, h⟩, fun h => by
        obtain ⟨_, h', h⟩ := (belongs_list hf).1 h; cases h'; exact h⟩
    | _ =>
      refine ⟨false, by simp [AnnWorld.checkColl], ?_⟩
      simp only [Bool.false_eq_true, false_iff]
      intro h; obtain ⟨_, h', h⟩ := (belongs_list hf).1 h; cases h'
  | set hf _ ih =>
    intro t ht v
    obtain ⟨ts, rfl, hts⟩ := means_coll hf ht
    obtain ⟨t1, rfl, h1⟩ := all2_one hts
    rw [checkObj_coll hf]
    cases v with
    | set vs =>
      simp only [AnnWorld.checkColl, AnnWorld.checkEach]
      exact (Decides.all fun v _ => ih h1 v).congr ⟨fun h => (belongs_set hf).2 ⟨vs, rfl, h⟩, fun h => by
        obtain ⟨_, h', h⟩ := (belongs_set hf).1 h; cases h'; exact h⟩
    | _ =>
      refine ⟨false, by simp [AnnWorld.checkColl], ?_⟩
      simp only [Bool.false_eq_true, false_iff]
      intro h; obtain ⟨_, h', h⟩ := (belongs_set hf).1 h; cases h'
  | dict hf _ _ ih1 ih2 =>
    intro t ht v
    obtain ⟨ts, rfl, hts⟩ := means_coll hf ht
    obtain ⟨t1, t2, rfl, h1, h2⟩ := all2_two hts
    rw [checkObj_coll hf]
    cases v with
    | dict kvs =>
      simp only [AnnWorld.checkColl, AnnWorld.checkPairs]
      exact (Decides.all fun kv _ => Decides.andRes (ih1 h1 kv.1) (ih2 h2 kv.2)).congr ⟨fun h => (belongs_dict hf).2 ⟨kvs, rfl, h⟩, fun h => by
        obtain ⟨_, h', h⟩ := (belongs_dict hf).1 h; cases h'; exact h⟩
    | _ =>
      refine ⟨false, by simp [AnnWorld.checkColl], ?_⟩
      simp only [Bool.false_eq_true, false_iff]
      intro h; obtain ⟨_, h', h⟩ := (belongs_dict hf).1 h; cases h'
  | tuple _ hf _ ih =>
    intro t ht v
    obtain ⟨ts, rfl, hts⟩ := means_coll hf ht
    rw [checkObj_coll hf]
    cases v with
    | tuple vs =>
      simp only [AnnWorld.checkColl]
      exact (checkZip_decides vs (hts.imp_mem fun o ho t _ h => ih o ho h)).congr
        ⟨fun h => (belongs_tuple hf).2 ⟨vs, rfl, trivial, h⟩, fun h => by
          obtain ⟨_, h', _, h⟩ := (belongs_tuple hf).1 h; cases h'; exact h⟩
    | _ =>
      refine ⟨false, by simp [AnnWorld.checkColl], ?_⟩
      simp only [Bool.false_eq_true, false_iff]
      intro h; obtain ⟨_, h', h⟩ := (belongs_tuple hf).1 h; cases h'
  | union _ ih =>
    intro t ht v
    obtain ⟨ts, rfl, hts⟩ := means_union ht
    simp only [AnnWorld.checkObj]
    exact (checkAny_decides (hts.imp_mem fun o ho t _ h => ih o ho h)).congr belongs_union.symm

theorem belongs_mono {L L' : Nat → Nat → Prop} (hL : ∀ m n, L m n → L' m n) {v : AnnVal} {t : AnnObj} (h : P.BelongsBy L v t) :
    P.BelongsBy L' v t := by
  induction h with
  | noneType => exact .noneType
  | cls h => exact .cls h
  | bareList h => exact .bareList h
  | bareSet h => exact .bareSet h
  | bareDict h => exact .bareDict h
  | bareTuple h => exact .bareTuple h
  | list h _ ih => exact .list h ih
  | set h _ ih => exact .set h ih
  | dict h _ _ ih1 ih2 => exact .dict h ih1 ih2
  | tuple h hl _ ih => exact .tuple h (hL _ _ hl) ih
  | member h ht _ ih => exact .member h ht ih
  | annotated _ ih => exact .annotated ih
  | literal h1 h2 => exact .literal h1 h2

/-- Lengths do not matter for annotations without tuples of fixed length. -/
theorem belongs_exact {L L' : Nat → Nat → Prop} {o : AnnObj} (h : w.Asked d False o) : ∀ {t : AnnObj} {v : AnnVal}, w.Means d o t →
    P.BelongsBy L v t → P.BelongsBy L' v t := by
  have atom : ∀ {o t : AnnObj} {v : AnnVal}, (o = .noneType ∨ (∃ c, o = .cls c) ∨ ∃ c, o = .form (.builtin c)) → w.Means d o t →
      P.BelongsBy L v t → P.BelongsBy L' v t := by
    intro o t v ho ht hb
    rw [means_atom ht (ho.imp id (Or.imp id .inl))] at hb ⊢
    exact (isInstanceOf_iff _ v ho).1 ((isInstanceOf_iff _ v ho).2 hb)
  induction h with
  | noneType => exact atom (.inl rfl)
  | cls => exact atom (.inr (.inl ⟨_, rfl⟩))
  | untyped => exact atom (.inr (.inr ⟨_, rfl⟩))
  | tupleForm =>
    intro t v ht hb
    rw [means_atom ht (.inr (.inr (.inr ⟨_, rfl⟩)))] at hb ⊢
    cases hb with
    | bareList h => exact .bareList h
    | bareSet h => exact .bareSet h
    | bareDict h => exact .bareDict h
    | bareTuple h => exact .bareTuple h
  | @ref s e o hp he ho =>
    intro t v ht
    refine atom ho ?_
    obtain ⟨n, ht⟩ := ht
    cases n with
    | zero => cases ht
    | succ n =>
      rw [meaning_ref] at ht
      obtain ⟨e', o', h1, h2, h3⟩ := textMeaning_iff.1 ht
      rw [hp] at h1; cases h1
      rw [he] at h2; cases h2
      rcases h3 with ⟨rfl, -⟩ | ⟨-, h3⟩
      · rcases ho with h | ⟨c, h⟩ | ⟨c, h⟩ <;> cases h
      · exact ⟨n, h3⟩
  | list hf _ ih =>
    intro t v ht hb
    obtain ⟨ts, rfl, hts⟩ := means_coll hf ht
    obtain ⟨t1, rfl, h1⟩ := all2_one hts
    obtain ⟨vs, rfl, hb'⟩ := (belongs_list hf).1 hb
    exact .list hf fun v hv => ih h1 (hb' v hv)
  | set hf _ ih =>
    intro t v ht hb
    obtain ⟨ts, rfl, hts⟩ := means_coll hf ht
    obtain ⟨t1, rfl, h1⟩ := all2_one hts
    obtain ⟨vs, rfl, hb'⟩ := (belongs_set hf).1 hb
    exact .set hf fun v hv => ih h1 (hb' v hv)
  | dict hf _ _ ih1 ih2 =>
    intro t v ht hb
    obtain ⟨ts, rfl, hts⟩ := means_coll hf ht
    obtain ⟨t1, t2, rfl, h1, h2⟩ := all2_two hts
    obtain ⟨vs, rfl, hb'⟩ := (belongs_dict hf).1 hb
    exact .dict hf (fun kv hkv => ih1 h1 (hb' kv hkv).1) (fun kv hkv => ih2 h2 (hb' kv hkv).2)
  | tuple hF => exact hF.elim
  | union _ ih =>
    intro t v ht hb
    obtain ⟨ts, rfl, hts⟩ := means_union ht
    obtain ⟨t, ht, hb⟩ := belongs_union.1 hb
    obtain ⟨o, ho, hm⟩ := hts.mem_right ht
    exact .member (.inl rfl) ht (ih o ho hm hb)

end Verif
