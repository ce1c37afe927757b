import Verif.Spec.Writes
import Verif.Lemmas.Ser
import Verif.Lemmas.GenInv
import Verif.Lemmas.DateTime
/-!
# Which values can be written
-/
namespace Verif

variable {env : Env}

theorem isReserved_iff {s : Str} : isReserved s = true ↔ SpecialName s := by
  unfold isReserved SpecialName
  simp only [Bool.or_eq_true, Bool.and_eq_true, decide_eq_true_eq]
  refine or_congr ?_ Iff.rfl
  constructor
  · rintro ⟨⟨hl, ht⟩, he⟩
    obtain ⟨p, rfl⟩ := endsWith_eq he
    match p, hl, ht with
    | [], hl, _ => simp at hl
    | [_], hl, _ => simp at hl
    | [_, _], hl, _ => simp at hl
    | a :: b :: c :: r, _, ht =>
      simp at ht
      obtain ⟨rfl, rfl⟩ := ht
      exact ⟨c :: r, by simp, by simp⟩
  · rintro ⟨m, hm, rfl⟩
    cases m with
    | nil => exact absurd rfl hm
    | cons c r => exact ⟨⟨by simp, by simp⟩, by simpa using endsWith_append c!"__" ('_' :: '_' :: c :: r)⟩

/-! ### Loops -/

section
variable {key : Key → Res Str} {t : Ty}

theorem genPairs_error {fs : List (Key × (Ty → Res Json))} : ∀ {acc : List (Str × Json)} {e : Err},
    genPairs key t acc fs = .error e → (∃ p ∈ fs, key p.1 = .error e) ∨ ∃ p ∈ fs, p.2 t = .error e := by
  induction fs with
  | nil => intro acc e h; cases h
  | cons p fs ih =>
    intro acc e h
    obtain ⟨k, f⟩ := p
    simp only [genPairs] at h
    split at h
    · rename_i e' he; cases h; exact Or.inl ⟨_, List.mem_cons_self, he⟩
    · split at h
      · rename_i e' he; cases h; exact Or.inr ⟨_, List.mem_cons_self, he⟩
      · rcases ih h with ⟨p, hp, h⟩ | ⟨p, hp, h⟩
        · exact Or.inl ⟨p, by simp [hp], h⟩
        · exact Or.inr ⟨p, by simp [hp], h⟩

theorem genPairs_all {fs : List (Key × (Ty → Res Json))} : ∀ {acc : List (Str × Json)} {j : Json},
    genPairs key t acc fs = .ok j → ∀ p ∈ fs, (∃ s, key p.1 = .ok s) ∧ ∃ j, p.2 t = .ok j := by
  induction fs with
  | nil => intro acc j h p hp; cases hp
  | cons p fs ih =>
    intro acc j h q hq
    obtain ⟨k, f⟩ := p
    simp only [genPairs] at h
    split at h
    · cases h
    · rename_i s hs
      split at h
      · cases h
      · rename_i x hx
        rcases List.mem_cons.1 hq with rfl | hq
        · exact ⟨⟨s, hs⟩, x, hx⟩
        · exact ih h q hq

end

section
variable {fs : List (Str × Val × (Ty → Res Json))}

theorem genProps_error {kind : ClassKind} {fds : List FieldDef} : ∀ {acc : List (Str × Json)} {e : Err},
    genProps kind fs acc fds = .error e → (e = .attribute ∧ ∃ fd ∈ fds, lookupKey fd.name fs = none) ∨
      ∃ fd ∈ fds, ∃ v f, lookupKey fd.name fs = some (v, f) ∧ v.isNone = false ∧ f fd.ty = .error e := by
  induction fds with
  | nil => intro acc e h; cases h
  | cons fd fds ih =>
    intro acc e h
    have next : ∀ {acc : List (Str × Json)}, genProps kind fs acc fds = .error e →
        (e = .attribute ∧ ∃ fd' ∈ fd :: fds, lookupKey fd'.name fs = none) ∨
        ∃ fd' ∈ fd :: fds, ∃ v f, lookupKey fd'.name fs = some (v, f) ∧ v.isNone = false ∧ f fd'.ty = .error e := by
      intro acc h
      rcases ih h with ⟨h1, fd', h2, h3⟩ | ⟨fd', h2, h3⟩
      · exact Or.inl ⟨h1, fd', by simp [h2], h3⟩
      · exact Or.inr ⟨fd', by simp [h2], h3⟩
    simp only [genProps] at h
    split at h
    · rename_i hl; cases h; exact Or.inl ⟨rfl, fd, by simp, hl⟩
    · rename_i v f hl
      split at h
      · exact next h
      · rename_i hn
        split at h
        · rename_i e' he; cases h
          exact Or.inr ⟨fd, by simp, v, f, hl, by simpa using hn, he⟩
        · exact next h

theorem genProps_all {kind : ClassKind} {fds : List FieldDef} : ∀ {acc : List (Str × Json)} {j : Json},
    genProps kind fs acc fds = .ok j → ∀ fd ∈ fds, ∃ v f, lookupKey fd.name fs = some (v, f) ∧
      (v.isNone = false → ∃ j, f fd.ty = .ok j) := by
  induction fds with
  | nil => intro acc j h fd hf; cases hf
  | cons fd fds ih =>
    intro acc j h fd' hf'
    simp only [genProps] at h
    split at h
    · cases h
    · rename_i v f hl
      split at h
      · rename_i hn
        rcases List.mem_cons.1 hf' with rfl | hf'
        · exact ⟨v, f, hl, fun h => by rw [hn] at h; cases h⟩
        · exact ih h fd' hf'
      · split at h
        · cases h
        · rename_i x hx
          rcases List.mem_cons.1 hf' with rfl | hf'
          · exact ⟨v, f, hl, fun _ => ⟨x, hx⟩⟩
          · exact ih h fd' hf'

theorem genUntypedTuple_error {fds : List FieldDef} : ∀ {acc : List (Str × Json)} {e : Err},
    genUntypedTuple fs acc fds = .error e → (e = .attribute ∧ ∃ fd ∈ fds, lookupKey fd.name fs = none) ∨
      ∃ fd ∈ fds, ∃ v f, lookupKey fd.name fs = some (v, f) ∧ f dynTy = .error e := by
  induction fds with
  | nil => intro acc e h; cases h
  | cons fd fds ih =>
    intro acc e h
    simp only [genUntypedTuple] at h
    split at h
    · rename_i hl; cases h; exact Or.inl ⟨rfl, fd, by simp, hl⟩
    · rename_i v f hl
      split at h
      · rename_i e' he; cases h
        exact Or.inr ⟨fd, by simp, v, f, hl, he⟩
      · rcases ih h with ⟨h1, fd', h2, h3⟩ | ⟨fd', h2, h3⟩
        · exact Or.inl ⟨h1, fd', by simp [h2], h3⟩
        · exact Or.inr ⟨fd', by simp [h2], h3⟩

theorem genUntypedTuple_all {fds : List FieldDef} : ∀ {acc : List (Str × Json)} {j : Json},
    genUntypedTuple fs acc fds = .ok j → ∀ fd ∈ fds, ∃ v f, lookupKey fd.name fs = some (v, f) ∧ ∃ j, f dynTy = .ok j := by
  induction fds with
  | nil => intro acc j h fd hf; cases hf
  | cons fd fds ih =>
    intro acc j h fd' hf'
    simp only [genUntypedTuple] at h
    split at h
    · cases h
    · rename_i v f hl
      split at h
      · cases h
      · rename_i x hx
        rcases List.mem_cons.1 hf' with rfl | hf'
        · exact ⟨v, f, hl, x, hx⟩
        · exact ih h fd' hf'

theorem genUntyped_error : ∀ {fs : List (Str × Val × (Ty → Res Json))} {acc : List (Str × Json)} {e : Err},
    genUntyped acc fs = .error e → ∃ p ∈ fs, isReserved p.1 = false ∧ p.2.1.isNone = false ∧ p.2.2 dynTy = .error e := by
  intro fs
  induction fs with
  | nil => intro acc e h; cases h
  | cons p fs ih =>
    intro acc e h
    obtain ⟨n, v, f⟩ := p
    simp only [genUntyped] at h
    split at h
    · obtain ⟨p, hp, h⟩ := ih h; exact ⟨p, by simp [hp], h⟩
    · rename_i hn
      simp only [Bool.or_eq_true, not_or, Bool.not_eq_true] at hn
      split at h
      · rename_i e' he; cases h; exact ⟨_, List.mem_cons_self, hn.1, hn.2, he⟩
      · obtain ⟨p, hp, h⟩ := ih h; exact ⟨p, by simp [hp], h⟩

theorem genUntyped_all : ∀ {fs : List (Str × Val × (Ty → Res Json))} {acc : List (Str × Json)} {j : Json},
    genUntyped acc fs = .ok j → ∀ p ∈ fs, isReserved p.1 = false → p.2.1.isNone = false → ∃ j, p.2.2 dynTy = .ok j := by
  intro fs
  induction fs with
  | nil => intro acc j h p hp; cases hp
  | cons p fs ih =>
    intro acc j h q hq h1 h2
    obtain ⟨n, v, f⟩ := p
    simp only [genUntyped] at h
    split at h
    · rename_i hn
      rcases List.mem_cons.1 hq with rfl | hq
      · simp only [Bool.or_eq_true] at hn
        rcases hn with hn | hn
        · rw [hn] at h1; cases h1
        · rw [hn] at h2; cases h2
      · exact ih h q hq h1 h2
    · split at h
      · cases h
      · rename_i x hx
        rcases List.mem_cons.1 hq with rfl | hq
        · exact ⟨x, hx⟩
        · exact ih h q hq h1 h2

end

theorem Elements.kids {v : Val} {vs : List Val} (h : Elements v vs) : vkids env v = .seq (vs.map (gen env)) := by
  cases h <;> simp only [vkids, genSeq_eq]

theorem seq_kids {v : Val} {fs : List (Ty → Res Json)} (h : vkids env v = .seq fs) :
    ∃ vs, Elements v vs ∧ fs = vs.map (gen env) := by
  cases v <;> simp only [vkids] at h <;> cases h
  all_goals exact ⟨_, by constructor, genSeq_eq env _⟩

theorem dict_kids {v : Val} {fs : List (Key × (Ty → Res Json))} (h : vkids env v = .dict fs) :
    ∃ kvs, v = .dict kvs ∧ fs = kvs.map fun kv => (kv.1, gen env kv.2) := by
  cases v <;> simp only [vkids] at h <;> cases h
  exact ⟨_, rfl, genDict_eq env _⟩

theorem obj_kids {v : Val} {fs : List (Str × Val × (Ty → Res Json))} (h : vkids env v = .obj fs) :
    ∃ c ps, v = .obj c ps ∧ fs = ps.map fun kv => (kv.1, kv.2, gen env kv.2) := by
  cases v <;> simp only [vkids] at h <;> cases h
  exact ⟨_, _, rfl, genObj_eq env _⟩

theorem lookup_genObj {ps : List (Str × Val)} {n : Str} :
    lookupKey n (ps.map fun kv => (kv.1, kv.2, gen env kv.2)) = (lookupKey n ps).map fun v => (v, gen env v) := by
  induction ps with
  | nil => rfl
  | cons p ps ih =>
    obtain ⟨k, v⟩ := p
    simp only [List.map_cons, lookupKey]
    split
    · rfl
    · exact ih

theorem isNone_false {v : Val} : v.isNone = false ↔ v ≠ .none := by cases v <;> simp [Val.isNone]

theorem gen_union_eq (v : Val) (ts : List Ty) : gen env v (.union ts) =
    match serCreate env (typeOf v) with | .error e => .error e | .ok _ => gen env v (typeOf v) := by
  rw [gen_eq, gen_eq]
  simp only [genD]
  cases v <;> simp only [typeOf, genD] <;> cases serCreate env _ <;> rfl

theorem gen_annotated_eq (v : Val) (t : Ty) (ms : List Meta) : gen env v (.annotated t ms) = gen env v t := by
  rw [gen_eq, gen_eq, genD]

/-! ### Parts of a value that was written were written -/

theorem part_written {t u : Ty} {v w : Val} (hp : WritePart env t v u w) : ∀ {j : Json}, gen env v t = .ok j →
    ∃ j, gen env w u = .ok j := by
  induction hp with
  | here => intro j h; exact ⟨j, h⟩
  | annotated _ ih => intro j h; rw [gen_annotated_eq] at h; exact ih h
  | union _ ih =>
    intro j h
    rw [gen_union_eq] at h
    split at h
    · cases h
    · exact ih h
  | list he hx _ ih | set he hx _ ih =>
    intro j h
    rw [gen_eq] at h
    simp only [genD, genShape, he.kids, mapRes_map] at h
    unfold arrOf at h
    split at h
    · rename_i js hjs
      obtain ⟨y, _, hy⟩ := ((mapRes_ok_iff _ _ _).1 hjs).mem_left hx
      exact ih hy
    · cases h
  | @tuple ts v vs t x u w he hx _ ih =>
    intro j h
    rw [gen_eq] at h
    simp only [genD, genShape, he.kids] at h
    unfold arrOf at h
    split at h
    · rename_i js hjs
      have hm : (t, gen env x) ∈ ts.zip (vs.map (gen env)) := by
        rw [List.zip_map_right]
        exact List.mem_map.2 ⟨(t, x), hx, rfl⟩
      obtain ⟨y, _, hy⟩ := ((mapRes_ok_iff _ _ _).1 hjs).mem_left hm
      exact ih hy
    · cases h
  | @bare t v vs x u w ht he hx _ ih =>
    intro j h
    rw [gen_eq] at h
    have h : arrOf (mapRes (fun f => f dynTy) (vs.map (gen env))) = .ok j := by
      simp only [List.mem_cons, List.not_mem_nil, or_false] at ht
      rcases ht with rfl | rfl | rfl <;> simpa only [genD, genShape, he.kids] using h
    rw [mapRes_map] at h
    unfold arrOf at h
    split at h
    · rename_i js hjs
      obtain ⟨y, _, hy⟩ := ((mapRes_ok_iff _ _ _).1 hjs).mem_left hx
      exact ih hy
    · cases h
  | @dict k t kvs kv u w hx _ ih =>
    intro j h
    rw [gen_eq] at h
    simp only [genD, genShape, vkids, genDict_eq] at h
    have : ∃ key, genPairs key t [] (kvs.map fun kv => (kv.1, gen env kv.2)) = .ok j := by
      cases k <;> simp only at h
      all_goals first | exact ⟨_, h⟩ | cases h
    obtain ⟨key, h⟩ := this
    obtain ⟨-, y, hy⟩ := genPairs_all h _ (List.mem_map.2 ⟨kv, hx, rfl⟩)
    exact ih hy
  | @bareDict kvs kv u w hx _ ih =>
    intro j h
    rw [gen_eq] at h
    simp only [genD, genShape, vkids, genDict_eq] at h
    obtain ⟨-, y, hy⟩ := genPairs_all h _ (List.mem_map.2 ⟨kv, hx, rfl⟩)
    exact ih hy
  | @field c cd c' fs f x u w hc hj ha hf hl hn _ ih =>
    intro j h
    rw [gen_eq] at h
    simp only [genD, genShape, vkids, genObj_eq, genCls, hc, hj] at h
    have h : genProps cd.kind (fs.map fun kv => (kv.1, kv.2, gen env kv.2)) [] cd.fields = .ok j := by
      rcases ha with ⟨fr, hk⟩ | hk | ⟨hk, hne⟩
      · rw [hk] at h ⊢; exact h
      · rw [hk] at h ⊢; exact h
      · rw [hk] at h ⊢
        dsimp only at h
        rw [if_neg (by simpa using hne)] at h; exact h
    obtain ⟨v, g, h1, h2⟩ := genProps_all h f hf
    rw [lookup_genObj, hl] at h1
    cases h1
    obtain ⟨y, hy⟩ := h2 (isNone_false.2 hn)
    exact ih hy
  | @untypedField c cd c' fs f x u w hc hj hk hf hl _ ih =>
    intro j h
    rw [gen_eq] at h
    simp only [genD, genShape, vkids, genObj_eq, genCls, hc, hj, hk] at h
    obtain ⟨v, g, h1, y, hy⟩ := genUntypedTuple_all h f hf
    rw [lookup_genObj, hl] at h1
    cases h1
    exact ih hy
  | @attr c cd c' fs n x u w hc hj hk hf hm hr hn _ ih =>
    intro j h
    rw [gen_eq] at h
    simp only [genD, genShape, vkids, genObj_eq, genCls, hc, hj, hk, hf] at h
    rw [List.isEmpty_nil, if_pos rfl] at h
    obtain ⟨y, hy⟩ := genUntyped_all h (n, x, gen env x) (mem_sortByName.2 (List.mem_map.2 ⟨(n, x), hm, rfl⟩))
      (by simpa using fun h => hr (isReserved_iff.1 h)) (isNone_false.2 hn)
    exact ih hy

theorem fails_not_written {u : Ty} {w : Val} {e : Err} (h : WriteFails env u w e) : ∀ j, gen env w u ≠ .ok j := by
  cases h with
  | naive hd => intro j h; rw [gen_eq] at h; simp only [genD, genShape, dtSerialize, hd] at h; cases h
  | creation hc => intro j h; rw [gen_union_eq, hc] at h; cases h
  | method hc hf he =>
    intro j h; rw [gen_eq] at h; simp only [genD, genShape, genCls, hc, hf, he] at h; cases h
  | enumMethod hc hf he => intro j h; rw [gen_eq] at h; simp only [genD, genShape, genEnum, hc, hf, he, if_true] at h; cases h
  | literalMethod hc hf he => intro j h; rw [gen_eq] at h; simp only [genD, genShape, genEnum, hc, hf, he, if_true] at h; cases h
  | @missing c cd c' fs f hc hj hf hl =>
    intro j h
    rw [gen_eq] at h
    simp only [genD, genShape, vkids, genObj_eq, genCls, hc, hj] at h
    have hl' : lookupKey f.name (fs.map fun kv => (kv.1, kv.2, gen env kv.2)) = none := by rw [lookup_genObj, hl]; rfl
    split at h
    · obtain ⟨v, g, h1, -⟩ := genUntypedTuple_all h f hf
      rw [hl'] at h1; cases h1
    · split at h
      · rename_i hne
        rw [List.isEmpty_iff] at hne
        rw [hne] at hf; cases hf
      · obtain ⟨v, g, h1, -⟩ := genProps_all h f hf
        rw [hl'] at h1; cases h1
    · obtain ⟨v, g, h1, -⟩ := genProps_all h f hf
      rw [hl'] at h1; cases h1
  | @key n t kvs kv hm hk =>
    intro j h
    rw [gen_eq] at h
    simp only [genD, genShape, vkids, genDict_eq] at h
    obtain ⟨⟨s, hs⟩, -⟩ := genPairs_all h _ (List.mem_map.2 ⟨kv, hm, rfl⟩)
    unfold keyValue at hs
    split at hs
    · rename_i e m he; exact hk e m he
    · cases hs
  | @mixedKeys e m x kvs kv hm hk =>
    intro j h
    rw [gen_eq] at h
    simp only [genD, genShape, vkids, genDict_eq, List.map_cons, untypedKey] at h
    obtain ⟨⟨s, hs⟩, -⟩ := genPairs_all h (kv.1, gen env kv.2) (List.mem_cons_of_mem _ (List.mem_map.2 ⟨kv, hm, rfl⟩))
    unfold keyValue at hs
    split at hs
    · rename_i e m he; exact hk e m he
    · cases hs

/-! ### Exceptions come from parts -/

/-- The statement for the values of a list of results. -/
def FailsAt (env : Env) (t : Ty) (v : Val) (e : Err) : Prop := ∃ u w, WritePart env t v u w ∧ WriteFails env u w e

theorem FailsAt.of_fails {t : Ty} {v : Val} {e : Err} (h : WriteFails env t v e) : FailsAt env t v e := ⟨t, v, .here, h⟩

theorem keyValue_error {k : Key} {e : Err} (hm : e ≠ .outOfModel) (h : keyValue env k = .error e) :
    e = .attribute ∧ ∀ n m, k ≠ .enum n m := by
  unfold keyValue at h
  split at h
  · rename_i n m
    exfalso
    split at h
    · rename_i e' he
      cases h
      unfold enumValue at he
      split at he
      · cases he; exact hm rfl
      · split at he
        · cases he; exact hm rfl
        · cases he
    · rename_i s _
      cases s <;> simp only [Scalar.jsonKey] at h <;> cases h
      all_goals exact hm rfl
  · rename_i hk
    cases h
    exact ⟨rfl, fun n m h => hk n m h⟩

theorem keyStr_error {k : Key} {e : Err} (hm : e ≠ .outOfModel) : keyStr env k ≠ .error e := by
  intro h
  unfold keyStr at h
  split at h
  · cases h
  · cases h
  · split at h
    · cases h; exact hm rfl
    · split at h
      · cases h; exact hm rfl
      · cases h

theorem keySelf_error {k : Key} {e : Err} (hm : e ≠ .outOfModel) : keySelf k ≠ .error e := by
  intro h
  unfold keySelf at h
  split at h
  · cases h
  · cases h; exact hm rfl

theorem enum_error {v : Val} {n : Nat} {e : Err} (hm : e ≠ .outOfModel) (h : genEnum env v n = .error e) :
    ∃ ed f m, env.enums[n]? = some ed ∧ ed.toJson = some f ∧ v = .enum n m ∧ f m = .error e := by
  unfold genEnum at h
  split at h
  · rename_i ed n' m he
    split at h
    · rename_i f hf
      split at h
      · rename_i hn; exact ⟨ed, f, m, he, hf, by rw [hn], h⟩
      · cases h; exact absurd rfl hm
    · split at h
      · cases h
      · rename_i err hv
        cases h
        unfold enumValue at hv
        split at hv
        · cases hv; exact absurd rfl hm
        · split at hv
          · cases hv; exact absurd rfl hm
          · cases hv
  · cases h; exact absurd rfl hm

theorem same_error {v : Val} {e : Err} (hm : e ≠ .outOfModel) : genSame v ≠ .error e := by
  intro h
  unfold genSame at h
  split at h
  · cases h
  · cases h; exact hm rfl

theorem arr_error {f : α → Res Json} {xs : List α} {e : Err} (h : arrOf (mapRes f xs) = .error e) : ∃ x ∈ xs, f x = .error e := by
  unfold arrOf at h
  split at h
  · cases h
  · rename_i e' he
    cases h
    obtain ⟨pre, x, post, rfl, hx, -⟩ := (mapRes_error_iff _ _ _).1 he
    exact ⟨x, by simp, hx⟩

theorem cls_error {v : Val} {c : Nat} {e : Err} (hm : e ≠ .outOfModel)
    (ih : ∀ n ps, v = .obj n ps → ∀ p ∈ ps, ∀ t, gen env p.2 t = .error e → FailsAt env t p.2 e)
    (h : genCls env v (vkids env v) c = .error e) : FailsAt env (.cls c) v e := by
  unfold genCls at h
  split at h
  · cases h; exact absurd rfl hm
  · rename_i cd hc
    split at h
    · rename_i f hf; exact .of_fails (.method hc hf h)
    · rename_i hj
      split at h
      · rename_i fs hk
        obtain ⟨c', ps, rfl, rfl⟩ := obj_kids hk
        have hmiss : ∀ fd ∈ cd.fields, lookupKey fd.name (ps.map fun kv => (kv.1, kv.2, gen env kv.2)) = none →
            FailsAt env (.cls c) (.obj c' ps) .attribute := by
          intro fd hfd hl
          rw [lookup_genObj, Option.map_eq_none_iff] at hl
          exact .of_fails (.missing hc hj hfd hl)
        have hget : ∀ {n v f}, lookupKey n (ps.map fun kv => (kv.1, kv.2, gen env kv.2)) = some (v, f) →
            lookupKey n ps = some v ∧ f = gen env v := by
          intro n v f hl
          rw [lookup_genObj, Option.map_eq_some_iff] at hl
          obtain ⟨v', h1, h2⟩ := hl
          cases h2
          exact ⟨h1, rfl⟩
        have hprops : cd.Annotated → genProps cd.kind (ps.map fun kv => (kv.1, kv.2, gen env kv.2)) [] cd.fields = .error e →
            FailsAt env (.cls c) (.obj c' ps) e := by
          intro ha h
          rcases genProps_error h with ⟨rfl, fd, hfd, hl⟩ | ⟨fd, hfd, v, f, hl, hn, he⟩
          · exact hmiss fd hfd hl
          · obtain ⟨h1, rfl⟩ := hget hl
            obtain ⟨u, w, h2, h3⟩ := ih c' ps rfl _ (lookupKey_some_mem h1) _ he
            exact ⟨u, w, .field hc hj ha hfd h1 (isNone_false.1 hn) h2, h3⟩
        split at h
        · rename_i hkind
          rcases genUntypedTuple_error h with ⟨rfl, fd, hfd, hl⟩ | ⟨fd, hfd, v, f, hl, he⟩
          · exact hmiss fd hfd hl
          · obtain ⟨h1, rfl⟩ := hget hl
            obtain ⟨u, w, h2, h3⟩ := ih c' ps rfl _ (lookupKey_some_mem h1) _ he
            exact ⟨u, w, .untypedField hc hj hkind hfd h1 h2, h3⟩
        · rename_i hkind
          split at h
          · rename_i hne
            obtain ⟨p, hp, h1, h2, h3⟩ := genUntyped_error h
            obtain ⟨kv, hkv, rfl⟩ := List.mem_map.1 (mem_sortByName.1 hp)
            obtain ⟨u, w, h4, h5⟩ := ih c' ps rfl kv hkv _ h3
            exact ⟨u, w, .attr hc hj hkind (List.isEmpty_iff.1 hne) hkv
              (fun h => by rw [← isReserved_iff] at h; rw [h] at h1; cases h1) (isNone_false.1 h2) h4, h5⟩
          · rename_i hne
            exact hprops (Or.inr (Or.inr ⟨hkind, by simpa using hne⟩)) h
        · rename_i h1 h2
          refine hprops ?_ h
          cases hk : cd.kind with
          | dataclass fr => exact Or.inl ⟨fr, hk⟩
          | namedTuple b =>
            cases b with
            | true => exact Or.inr (Or.inl hk)
            | false => exact absurd hk h1
          | plain => exact absurd hk h2
      · cases h; exact absurd rfl hm

theorem shape_error {v : Val} {e : Err} (hm : e ≠ .outOfModel)
    (hel : ∀ vs, Elements v vs → ∀ x ∈ vs, ∀ t, gen env x t = .error e → FailsAt env t x e)
    (hdi : ∀ kvs, v = .dict kvs → ∀ p ∈ kvs, ∀ t, gen env p.2 t = .error e → FailsAt env t p.2 e)
    (hob : ∀ n ps, v = .obj n ps → ∀ p ∈ ps, ∀ t, gen env p.2 t = .error e → FailsAt env t p.2 e) {t : Ty}
    (h : genShape env v (vkids env v) t = .error e) : FailsAt env t v e := by
  have out : ∀ {P : Prop} {α : Type} {a : α}, (Except.error Err.outOfModel : Res α) = .error e → P := by
    intro P α a h; cases h; exact absurd rfl hm
  cases t <;> simp only [genShape] at h
  case none => cases h
  case bool | int | float | str => exact absurd h (same_error hm)
  case bytes | date | time | timedelta | uuid | ipv4 | ipv6 =>
    split at h
    · cases h
    · cases h; exact absurd rfl hm
  case datetime =>
    split at h
    · rename_i d
      split at h
      · cases h
      · rename_i e' he
        cases h
        unfold dtSerialize at he
        split at he
        · rename_i ho; cases he; exact .of_fails (.naive ho)
        · cases he
    · cases h; exact absurd rfl hm
  case bareList | bareSet | bareTuple =>
    split at h
    · rename_i fs hk
      obtain ⟨vs, hv, rfl⟩ := seq_kids hk
      rw [mapRes_map] at h
      obtain ⟨x, hx, hxe⟩ := arr_error h
      obtain ⟨u, w, h1, h2⟩ := hel vs hv x hx _ hxe
      exact ⟨u, w, .bare (by simp) hv hx h1, h2⟩
    · cases h; exact absurd rfl hm
  case list t =>
    split at h
    · rename_i fs hk
      obtain ⟨vs, hv, rfl⟩ := seq_kids hk
      rw [mapRes_map] at h
      obtain ⟨x, hx, hxe⟩ := arr_error h
      obtain ⟨u, w, h1, h2⟩ := hel vs hv x hx _ hxe
      exact ⟨u, w, .list hv hx h1, h2⟩
    · cases h; exact absurd rfl hm
  case set t =>
    split at h
    · rename_i fs hk
      obtain ⟨vs, hv, rfl⟩ := seq_kids hk
      rw [mapRes_map] at h
      obtain ⟨x, hx, hxe⟩ := arr_error h
      obtain ⟨u, w, h1, h2⟩ := hel vs hv x hx _ hxe
      exact ⟨u, w, .set hv hx h1, h2⟩
    · cases h; exact absurd rfl hm
  case tuple ts =>
    split at h
    · rename_i fs hk
      obtain ⟨vs, hv, rfl⟩ := seq_kids hk
      obtain ⟨p, hp, hpe⟩ := arr_error h
      rw [List.zip_map_right] at hp
      obtain ⟨⟨t, x⟩, hx, rfl⟩ := List.mem_map.1 hp
      obtain ⟨u, w, h1, h2⟩ := hel vs hv x (List.of_mem_zip hx).2 _ hpe
      exact ⟨u, w, .tuple hv hx h1, h2⟩
    · cases h; exact absurd rfl hm
  case bareDict =>
    split at h
    · rename_i fs hk
      obtain ⟨kvs, rfl, rfl⟩ := dict_kids hk
      rcases genPairs_error h with ⟨p, hp, hpe⟩ | ⟨p, hp, hpe⟩
      · obtain ⟨kv, hkv, rfl⟩ := List.mem_map.1 hp
        cases kvs with
        | nil => cases hkv
        | cons kv0 kvs =>
          obtain ⟨k0, x0⟩ := kv0
          cases k0 with
          | enum n m =>
            simp only [List.map_cons, untypedKey] at hpe
            obtain ⟨rfl, hne⟩ := keyValue_error hm hpe
            rcases List.mem_cons.1 hkv with rfl | hkv
            · exact absurd rfl (hne n m)
            · exact .of_fails (.mixedKeys hkv hne)
          | str s => simp only [List.map_cons, untypedKey] at hpe; exact absurd hpe (keyStr_error hm)
          | int i => simp only [List.map_cons, untypedKey] at hpe; exact absurd hpe (keyStr_error hm)
      · obtain ⟨kv, hkv, rfl⟩ := List.mem_map.1 hp
        obtain ⟨u, w, h1, h2⟩ := hdi kvs rfl kv hkv _ hpe
        exact ⟨u, w, .bareDict hkv h1, h2⟩
    · cases h; exact absurd rfl hm
  case dict k t =>
    split at h
    · rename_i fs hk
      obtain ⟨kvs, rfl, rfl⟩ := dict_kids hk
      have item : ∀ p ∈ kvs.map (fun kv => (kv.1, gen env kv.2)), p.2 t = .error e → FailsAt env (.dict k t) (.dict kvs) e := by
        intro p hp hpe
        obtain ⟨kv, hkv, rfl⟩ := List.mem_map.1 hp
        obtain ⟨u, w, h1, h2⟩ := hdi kvs rfl kv hkv _ hpe
        exact ⟨u, w, .dict hkv h1, h2⟩
      split at h
      · rcases genPairs_error h with ⟨p, hp, hpe⟩ | ⟨p, hp, hpe⟩
        · exact absurd hpe (keySelf_error hm)
        · exact item p hp hpe
      · rcases genPairs_error h with ⟨p, hp, hpe⟩ | ⟨p, hp, hpe⟩
        · obtain ⟨kv, hkv, rfl⟩ := List.mem_map.1 hp
          obtain ⟨rfl, hne⟩ := keyValue_error hm hpe
          exact .of_fails (.key hkv hne)
        · exact item p hp hpe
      · cases h; exact absurd rfl hm
      · cases h; exact absurd rfl hm
    · cases h; exact absurd rfl hm
  case literal ls =>
    split at h
    · obtain ⟨ed, f, m, h1, h2, rfl, h3⟩ := enum_error hm h
      exact .of_fails (.literalMethod h1 h2 h3)
    · cases h
    · exact absurd h (same_error hm)
  case enum n =>
    obtain ⟨ed, f, m, h1, h2, rfl, h3⟩ := enum_error hm h
    exact .of_fails (.enumMethod h1 h2 h3)
  case cls c => exact cls_error hm hob h
  case union | annotated => cases h; exact absurd rfl hm

theorem gen_error : ∀ (n : Nat) {v : Val} {e : Err}, sizeOf v < n → e ≠ .outOfModel → ∀ (t : Ty), gen env v t = .error e →
    FailsAt env t v e := by
  intro n
  induction n with
  | zero => intro v e hn; omega
  | succ n ih =>
    intro v e hn hm
    have shape : ∀ {t : Ty}, genShape env v (vkids env v) t = .error e → FailsAt env t v e := by
      intro t h
      refine shape_error hm ?_ ?_ ?_ h
      · intro vs hv x hx t hxe
        refine ih ?_ hm t hxe
        cases hv
        · have := Val.sizeOf_mem_list hx; omega
        · have := Val.sizeOf_mem_set hx; omega
        · have := Val.sizeOf_mem_tuple hx; omega
      · rintro kvs rfl p hp t hpe
        exact ih (by have := Val.sizeOf_mem_dict hp; omega) hm t hpe
      · rintro c ps rfl p hp t hpe
        exact ih (by have := Val.sizeOf_mem_obj (c := c) hp; omega) hm t hpe
    have all : ∀ t : Ty, genD env v (vkids env v) t = .error e → FailsAt env t v e := by
      intro t
      induction t using Ty.rec (motive_2 := fun _ => True) with
      | union ts _ =>
        intro h
        simp only [genD] at h
        split at h
        · rename_i e' he; cases h; exact .of_fails (.creation he)
        · obtain ⟨u, w, h1, h2⟩ := shape h
          exact ⟨u, w, .union h1, h2⟩
      | annotated t ms ih =>
        intro h
        simp only [genD] at h
        obtain ⟨u, w, h1, h2⟩ := ih h
        exact ⟨u, w, .annotated h1, h2⟩
      | nil | cons => trivial
      | _ => intro h; exact shape h
    intro t h
    rw [gen_eq] at h
    exact all t h

end Verif
