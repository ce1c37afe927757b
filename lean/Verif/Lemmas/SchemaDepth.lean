import Mathlib.Logic.Relation
import Verif.Lemmas.SchemaRefs
/-!
# Lemmas on the nesting of classes in generated schemas
-/
namespace Verif

variable {cfg : SchemaCfg} {env : Env} {cat : SchemaCatalog} {cls : Nat → SchRes Sch}

theorem SchRes.map_error {f : α → Res β} {r : SchRes α} {e : Err} (h : r.map f = .error e) :
    r = .error e ∨ ∃ a us, r = .ok (a, us) ∧ f a = .error e := by
  cases r with
  | error e' => simp only [SchRes.map] at h; cases h; exact Or.inl rfl
  | ok p =>
    obtain ⟨a, us⟩ := p
    simp only [SchRes.map] at h
    cases hf : f a with
    | error e' => rw [hf] at h; cases h; exact Or.inr ⟨a, us, rfl, hf⟩
    | ok b => rw [hf] at h; cases h

theorem nameSchema_no_recursion {b : Bool} {k : RegKey} : nameSchema cfg env cat b k ≠ .error .recursion := by
  unfold nameSchema
  intro h
  split at h
  · cases h
  · split at h <;> cases h

theorem pyStr_no_recursion (m : Scalar) : m.pyStr ≠ .error .recursion := by
  cases m <;> simp [Scalar.pyStr]

theorem dictSchema_no_recursion {k : KeyTy} {s : Sch} : dictSchema env k s ≠ .error .recursion := by
  unfold dictSchema
  intro h
  split at h
  · split at h
    · cases h
    · rename_i ed _
      split at h
      · rename_i err he
        cases h
        have : ∀ l : List (Str × Scalar), mapRes (fun m => m.2.pyStr) l ≠ .error .recursion := by
          intro l
          induction l with
          | nil => simp [mapRes]
          | cons m l ih =>
            intro h
            unfold mapRes at h
            split at h
            · rename_i h1; cases h; exact pyStr_no_recursion _ h1
            · split at h
              · rename_i h2; cases h; exact ih h2
              · cases h
        exact this _ he
      · split at h <;> cases h
  · cases h

theorem enumSchema_no_recursion {e : Nat} : enumSchema env e ≠ .error .recursion := by
  unfold enumSchema
  intro h
  split at h
  · cases h
  · split at h
    · split at h <;> cases h
    · cases h

mutual
/-- `RecursionError` for a type comes from a class that is expanded. -/
theorem tySchema_recursion {fwd : Bool} : ∀ (t : Ty) (skip : Bool), tySchema cfg env cat cls fwd skip t = .error .recursion →
    fwd = false ∧ ∃ c, Expands cat skip t c ∧ cls c = .error .recursion
  | .annotated t ms, skip, h => by
    have ih := tySchema_recursion (fwd := fwd) t true
    simp only [tySchema] at h
    split at h
    · split at h <;> cases h
    · obtain ⟨h1, c, h2, h3⟩ := ih h
      exact ⟨h1, c, .annotated h2, h3⟩
  | .enum e, skip, h => by
    simp only [tySchema] at h
    split at h
    · exact absurd h nameSchema_no_recursion
    · split at h
      · cases h
      · split at h
        · rename_i h1; cases h; exact absurd h1 enumSchema_no_recursion
        · cases h
  | .cls c, skip, h => by
    simp only [tySchema] at h
    split at h
    · exact absurd h nameSchema_no_recursion
    · rename_i hf
      refine ⟨by simpa using hf, c, ?_⟩
      split at h
      · cases h
      · rename_i hl
        refine ⟨.cls ?_, h⟩
        cases skip with
        | true => exact Or.inl rfl
        | false => exact Or.inr (by simpa using hl)
  | .union ts, skip, h => by
    have ih := tySchemas_recursion (fwd := fwd) ts false
    simp only [tySchema] at h
    split at h
    · rcases SchRes.map_error h with h | ⟨_, _, _, h⟩
      · obtain ⟨h1, t, ht, c, h2, h3⟩ := ih h
        exact ⟨h1, c, .union ht h2, h3⟩
      · cases h
    · cases h
  | .list t, skip, h => by
    have ih := tySchema_recursion (fwd := fwd) t fwd
    simp only [tySchema] at h
    rcases SchRes.map_error h with h | ⟨_, _, _, h⟩
    · obtain ⟨h1, c, h2, h3⟩ := ih h
      exact ⟨h1, c, .list (h1 ▸ h2), h3⟩
    · cases h
  | .dict kt t, skip, h => by
    have ih := tySchema_recursion (fwd := fwd) t fwd
    simp only [tySchema] at h
    split at h
    · cases h
    rcases SchRes.map_error h with h | ⟨_, _, _, h⟩
    · obtain ⟨h1, c, h2, h3⟩ := ih h
      exact ⟨h1, c, .dict (h1 ▸ h2), h3⟩
    · exact absurd h dictSchema_no_recursion
  | .set t, skip, h => by
    have ih := tySchema_recursion (fwd := fwd) t fwd
    simp only [tySchema] at h
    rcases SchRes.map_error h with h | ⟨_, _, _, h⟩
    · obtain ⟨h1, c, h2, h3⟩ := ih h
      exact ⟨h1, c, .set (h1 ▸ h2), h3⟩
    · cases h
  | .tuple ts, skip, h => by
    have ih := tySchemas_recursion (fwd := fwd) ts fwd
    simp only [tySchema] at h
    rcases SchRes.map_error h with h | ⟨_, _, _, h⟩
    · obtain ⟨h1, t, ht, c, h2, h3⟩ := ih h
      exact ⟨h1, c, .tuple ht (h1 ▸ h2), h3⟩
    · cases h
  | .literal ls, skip, h => by
    simp only [tySchema] at h
    split at h
    · rename_i l
      unfold litSchema at h
      cases hl : l.scalar with
      | none => rw [hl] at h; cases h
      | some s => rw [hl] at h; cases h
    · cases h
  | .none, _, h | .bool, _, h | .int, _, h | .float, _, h | .str, _, h | .bytes, _, h | .datetime, _, h | .date, _, h
  | .time, _, h | .timedelta, _, h | .uuid, _, h | .ipv4, _, h | .ipv6, _, h | .bareList, _, h | .bareDict, _, h
  | .bareSet, _, h | .bareTuple, _, h => by
    simp only [tySchema, simpleSchema] at h
    cases h
theorem tySchemas_recursion {fwd : Bool} : ∀ (ts : List Ty) (skip : Bool),
    tySchemas cfg env cat cls fwd skip ts = .error .recursion →
    fwd = false ∧ ∃ t ∈ ts, ∃ c, Expands cat skip t c ∧ cls c = .error .recursion
  | [], _, h => by simp only [tySchemas] at h; cases h
  | t :: ts, skip, h => by
    have ih1 := tySchema_recursion (fwd := fwd) t skip
    have ih2 := tySchemas_recursion (fwd := fwd) ts skip
    simp only [tySchemas] at h
    cases ht : tySchema cfg env cat cls fwd skip t with
    | error e =>
      rw [ht] at h
      cases h
      obtain ⟨h1, h2⟩ := ih1 ht
      exact ⟨h1, t, by simp, h2⟩
    | ok p =>
      obtain ⟨s, us⟩ := p
      rw [ht] at h
      simp only at h
      cases hts : tySchemas cfg env cat cls fwd skip ts with
      | error e =>
        rw [hts] at h
        cases h
        obtain ⟨h1, t', ht', h2⟩ := ih2 hts
        exact ⟨h1, t', by simp [ht'], h2⟩
      | ok p => obtain ⟨s, us⟩ := p; rw [hts] at h; cases h
end

theorem required_evaluated {kind : ClassKind} {f : FieldDef} : f.Evaluated kind ↔ strField kind f = false ∧ fwdField kind f = false := by
  cases kind <;> simp [FieldDef.Evaluated, strField, fwdField]

/-- Defaults whose serialization does not end do not occur. -/
def DefaultsEnd (env : Env) : Prop :=
  ∀ cd ∈ env.classes, ∀ f ∈ cd.hints, ∀ v, f.dflt = .value v → v.hasJsonDefault = true → objectToJson env v ≠ .error .recursion

theorem propSchemas_recursion {kind : ClassKind} : ∀ (fs : List FieldDef) (acc : List (Str × Json)),
    propSchemas cfg env cat cls kind fs acc = .error .recursion →
    ∃ f ∈ fs, propSchema cfg env cat cls kind f = .error .recursion := by
  intro fs
  induction fs with
  | nil => intro acc h; cases h
  | cons f fs ih =>
    intro acc h
    simp only [propSchemas] at h
    cases hf : propSchema cfg env cat cls kind f with
    | error e => rw [hf] at h; cases h; exact ⟨f, by simp, hf⟩
    | ok p =>
      obtain ⟨s, us⟩ := p
      rw [hf] at h
      simp only at h
      cases hr : propSchemas cfg env cat cls kind fs (upsert (schemaProp kind f) (.obj s) acc) with
      | error e =>
        rw [hr] at h
        cases h
        obtain ⟨g, hg, h⟩ := ih _ hr
        exact ⟨g, by simp [hg], h⟩
      | ok p => obtain ⟨s, us⟩ := p; rw [hr] at h; cases h

theorem clsSchema_recursion (hd : DefaultsEnd env) {n c : Nat} (h : clsSchema cfg env cat (n + 1) c = .error .recursion) :
    ∃ d, Inlines env cat c d ∧ clsSchema cfg env cat n d = .error .recursion := by
  cases hc : env.classes[c]? with
  | none => simp only [clsSchema, hc] at h; cases h
  | some cd =>
    simp only [clsSchema, hc] at h
    rcases SchRes.map_error h with h | ⟨_, _, _, h⟩
    · obtain ⟨f, hf, h⟩ := propSchemas_recursion _ _ h
      unfold propSchema at h
      rcases SchRes.map_error h with h | ⟨s, us, _, h⟩
      · split at h
        · unfold strSchema at h
          split at h
          · split at h <;> cases h
          · split at h <;> cases h
          all_goals cases h
        · rename_i hs
          obtain ⟨h1, d, h2, h3⟩ := tySchema_recursion _ _ h
          exact ⟨d, ⟨cd, hc, f, hf, required_evaluated.2 ⟨by simpa using hs, h1⟩, h2⟩, h3⟩
      · exfalso
        unfold withDefault at h
        split at h
        · cases h
        · rename_i v hv
          have hv : f.dflt = .value v := by
            unfold classAttr at hv
            split at hv
            · cases hv
            · split at hv
              · rename_i h; cases hv; exact h
              · cases hv
          split at h
          · rename_i hj
            split at h
            · rename_i h1; cases h; exact hd cd (List.mem_of_getElem? hc) f hf v hv hj h1
            · cases h
          · cases h
    · cases h

/-- A chain of classes, each expanded in the one before. -/
inductive InlineWalk (env : Env) (cat : SchemaCatalog) : Nat → List Nat → Prop
  | nil {c} : InlineWalk env cat c []
  | cons {c d l} : Inlines env cat c d → InlineWalk env cat d l → InlineWalk env cat c (d :: l)

theorem clsSchema_walk (hd : DefaultsEnd env) : ∀ (n c : Nat), clsSchema cfg env cat n c = .error .recursion →
    ∃ l, l.length = n ∧ InlineWalk env cat c l ∧ ∀ d ∈ c :: l, d < env.classes.length
  | 0, c, h => by
    refine ⟨[], rfl, .nil, ?_⟩
    simp only [clsSchema] at h
    split at h
    · rename_i hc; simpa using hc
    · cases h
  | n + 1, c, h => by
    obtain ⟨d, h1, h2⟩ := clsSchema_recursion hd h
    obtain ⟨l, h3, h4, h5⟩ := clsSchema_walk hd n d h2
    refine ⟨d :: l, by simp [h3], .cons h1 h4, ?_⟩
    intro x hx
    rcases List.mem_cons.1 hx with rfl | hx
    · obtain ⟨cd, hc, _⟩ := h1
      exact (List.getElem?_eq_some_iff.1 hc).1
    · exact h5 x hx

theorem InlineWalk.trans {c : Nat} {l : List Nat} (h : InlineWalk env cat c l) :
    ∀ d ∈ l, Relation.TransGen (Inlines env cat) c d := by
  induction h with
  | nil => simp
  | cons hn _ ih =>
    intro d hd
    rcases List.mem_cons.1 hd with rfl | hd
    · exact .single hn
    · exact (Relation.TransGen.single hn).trans (ih d hd)

theorem InlineWalk.nodup (hacyc : ∀ c, ¬ Relation.TransGen (Inlines env cat) c c) {c : Nat} {l : List Nat}
    (h : InlineWalk env cat c l) : (c :: l).Nodup := by
  induction h with
  | nil => simp
  | cons hn hw ih =>
    rw [List.nodup_cons]
    exact ⟨fun hm => hacyc _ ((InlineWalk.cons hn hw).trans _ hm), ih⟩

theorem nodup_nat_length : ∀ {n : Nat} {l : List Nat}, l.Nodup → (∀ x ∈ l, x < n) → l.length ≤ n := by
  intro n
  induction n with
  | zero =>
    intro l _ h
    cases l with
    | nil => exact Nat.le_refl _
    | cons a l => exact absurd (h a (by simp)) (by omega)
  | succ n ih =>
    intro l hn h
    have h1 := ih (l := l.erase n) (hn.sublist List.erase_sublist) (by
      intro x hx
      have hx' : x ∈ l := List.mem_of_mem_erase hx
      have hne : x ≠ n := by rintro rfl; exact (hn.mem_erase_iff.1 hx).1 rfl
      have := h x hx'
      omega)
    have h2 := List.length_erase (a := n) (l := l)
    split at h2 <;> omega

theorem typeToSchema_no_recursion (hd : DefaultsEnd env) (hacyc : ∀ c, ¬ Relation.TransGen (Inlines env cat) c c)
    (force : Bool) (t : Ty) : typeToSchema cfg env cat force t ≠ .error .recursion := by
  intro h
  obtain ⟨_, c, _, h⟩ := tySchema_recursion _ _ h
  obtain ⟨l, h1, h2, h3⟩ := clsSchema_walk hd _ _ h
  have := nodup_nat_length (h2.nodup hacyc) h3
  simp only [List.length_cons] at this
  omega

/-! ### Expanded classes must have a schema -/

theorem tySchemas_mem {fwd skip : Bool} {ts : List Ty} {ss : List Sch} {us : List TypeUse} {t : Ty} (ht : t ∈ ts)
    (h : tySchemas cfg env cat cls fwd skip ts = .ok (ss, us)) : ∃ s us', tySchema cfg env cat cls fwd skip t = .ok (s, us') := by
  obtain ⟨h1, h2, _⟩ := tySchemas_ok h
  obtain ⟨i, hi⟩ := List.getElem?_of_mem ht
  have hl : i < ss.length := by
    have := (List.getElem?_eq_some_iff.1 hi).1
    omega
  obtain ⟨us', h3, _⟩ := h2 i t ss[i] hi (List.getElem?_eq_getElem hl)
  exact ⟨_, us', h3⟩

theorem tySchema_ok_expands {skip : Bool} {t : Ty} {c : Nat} (h : Expands cat skip t c) :
    ∀ {s : Sch} {us : List TypeUse}, tySchema cfg env cat cls false skip t = .ok (s, us) → ∃ p, cls c = .ok p := by
  induction h with
  | @cls skip c hc =>
    intro s us hs
    simp only [tySchema, Bool.false_eq_true, if_false] at hs
    have : (if skip = true then (none : Option (CatEntry Sch (List Json))) else lookupKey (RegKey.cls c) cat.byType) = none := by
      rcases hc with rfl | hc
      · rfl
      · rw [hc, ite_self]
    rw [this] at hs
    exact ⟨_, hs⟩
  | @annotated _ t ms _ hc ih =>
    intro s us hs
    simp only [tySchema] at hs
    have : simpleSchema t = none := by cases hc <;> rfl
    rw [this] at hs
    exact ih hs
  | union ht hc ih =>
    intro s us hs
    simp only [tySchema] at hs
    split at hs
    · rw [SchRes.map_ok] at hs
      obtain ⟨ss, h1, _⟩ := hs
      obtain ⟨s', us', h2⟩ := tySchemas_mem ht h1
      exact ih h2
    · cases hs
  | dict hc ih =>
    intro s us hs
    simp only [tySchema] at hs
    replace hs := (ite_error_ok.1 hs).2
    rw [SchRes.map_ok] at hs
    obtain ⟨s', h1, _⟩ := hs
    exact ih h1
  | list hc ih | set hc ih =>
    intro s us hs
    simp only [tySchema] at hs
    rw [SchRes.map_ok] at hs
    obtain ⟨s', h1, _⟩ := hs
    exact ih h1
  | tuple ht hc ih =>
    intro s us hs
    simp only [tySchema] at hs
    rw [SchRes.map_ok] at hs
    obtain ⟨ss, h1, _⟩ := hs
    obtain ⟨s', us', h2⟩ := tySchemas_mem ht h1
    exact ih h2

theorem propSchemas_mem {kind : ClassKind} : ∀ {fs : List FieldDef} {acc ps : List (Str × Json)} {us : List TypeUse},
    propSchemas cfg env cat cls kind fs acc = .ok (ps, us) → ∀ f ∈ fs, ∃ p, propSchema cfg env cat cls kind f = .ok p := by
  intro fs
  induction fs with
  | nil => intro acc ps us _ f hf; cases hf
  | cons g fs ih =>
    intro acc ps us h f hf
    simp only [propSchemas] at h
    cases hg : propSchema cfg env cat cls kind g with
    | error e => rw [hg] at h; cases h
    | ok p =>
      obtain ⟨s, us⟩ := p
      rw [hg] at h
      simp only at h
      rcases List.mem_cons.1 hf with rfl | hf
      · exact ⟨_, hg⟩
      · cases hr : propSchemas cfg env cat cls kind fs (upsert (schemaProp kind g) (.obj s) acc) with
        | error e => rw [hr] at h; cases h
        | ok p => obtain ⟨ps2, us2⟩ := p; exact ih hr f hf

theorem clsSchema_ok_inlines {n c d : Nat} {p : Sch × List TypeUse} (h : clsSchema cfg env cat (n + 1) c = .ok p)
    (hi : Inlines env cat c d) : ∃ p, clsSchema cfg env cat n d = .ok p := by
  obtain ⟨cd, hc, f, hf, he, hx⟩ := hi
  obtain ⟨s, us⟩ := p
  obtain ⟨ps, h1, _⟩ := clsSchema_ok hc h
  obtain ⟨⟨s', us'⟩, h2⟩ := propSchemas_mem h1 f hf
  unfold propSchema at h2
  obtain ⟨e1, e2⟩ := required_evaluated.1 he
  rw [SchRes.map_ok] at h2
  obtain ⟨s2, h3, _⟩ := h2
  rw [e1, e2] at h3
  exact tySchema_ok_expands hx h3

/-- A class that is expanded within itself has no schema. -/
theorem clsSchema_cycle : ∀ (n c : Nat) (p : Sch × List TypeUse), Relation.TransGen (Inlines env cat) c c →
    clsSchema cfg env cat n c ≠ .ok p := by
  have step : ∀ c d, Relation.TransGen (Inlines env cat) c d → ∀ n p, clsSchema cfg env cat n c = .ok p →
      ∃ m, m < n ∧ ∃ p, clsSchema cfg env cat m d = .ok p := by
    intro c d h
    induction h with
    | single h =>
      intro n p hp
      cases n with
      | zero => cases hp
      | succ n => exact ⟨n, by omega, clsSchema_ok_inlines hp h⟩
    | tail _ h ih =>
      intro n p hp
      obtain ⟨m, hm, p', hp'⟩ := ih n p hp
      cases m with
      | zero => cases hp'
      | succ m => exact ⟨m, by omega, clsSchema_ok_inlines hp' h⟩
  intro n
  induction n using Nat.strongRecOn with
  | ind n ih =>
    intro c p hc hp
    obtain ⟨m, hm, p', hp'⟩ := step c c hc n p hp
    exact ih m hm c p' hc hp'

end Verif
