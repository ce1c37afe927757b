import Verif.Spec.Inherit
import Verif.Lemmas.SchemaLoop
/-!
# Members of derived classes
-/
namespace Verif

/-! ### Dictionaries -/

section
variable {α β : Type}

theorem updateMap_nil (d : List (Str × α)) : updateMap d [] = d := rfl

theorem updateMap_cons (d : List (Str × α)) (f : Str × α) (fs : List (Str × α)) :
    updateMap d (f :: fs) = updateMap (upsert f.1 f.2 d) fs := rfl

theorem upsert_map (g : α → β) (k : Str) (v : α) (l : List (Str × α)) :
    (upsert k v l).map (fun p => (p.1, g p.2)) = upsert k (g v) (l.map fun p => (p.1, g p.2)) := by
  induction l with
  | nil => rfl
  | cons p l ih =>
    obtain ⟨k', v'⟩ := p
    simp only [upsert, List.map_cons]
    split
    · rfl
    · simp only [List.map_cons, ih]

theorem updateMap_map (g : α → β) (fs : List (Str × α)) : ∀ d : List (Str × α),
    (updateMap d fs).map (fun p => (p.1, g p.2)) = updateMap (d.map fun p => (p.1, g p.2)) (fs.map fun p => (p.1, g p.2)) := by
  induction fs with
  | nil => intro d; rfl
  | cons f fs ih => intro d; rw [updateMap_cons, ih, upsert_map]; rfl

theorem updateMap_nodup {fs : List (Str × α)} : ∀ {d : List (Str × α)}, (d.map Prod.fst).Nodup → ((updateMap d fs).map Prod.fst).Nodup := by
  induction fs with
  | nil => intro d h; exact h
  | cons f fs ih => intro d h; rw [updateMap_cons]; exact ih (upsert_nodup h)

theorem mem_updateMap_keys {n : Str} {fs : List (Str × α)} : ∀ {d : List (Str × α)},
    n ∈ (updateMap d fs).map Prod.fst ↔ n ∈ d.map Prod.fst ∨ n ∈ fs.map Prod.fst := by
  induction fs with
  | nil => intro d; simp [updateMap_nil]
  | cons f fs ih =>
    intro d
    rw [updateMap_cons, ih, mem_upsert_keys, List.map_cons, List.mem_cons]
    constructor
    · rintro ((h | h) | h)
      · exact Or.inr (Or.inl h)
      · exact Or.inl h
      · exact Or.inr (Or.inr h)
    · rintro (h | h | h)
      · exact Or.inl (Or.inr h)
      · exact Or.inl (Or.inl h)
      · exact Or.inr h

theorem mem_updateMap {p : Str × α} {fs : List (Str × α)} : ∀ {d : List (Str × α)}, p ∈ updateMap d fs → p ∈ d ∨ p ∈ fs := by
  induction fs with
  | nil => intro d h; exact Or.inl h
  | cons f fs ih =>
    intro d h
    rw [updateMap_cons] at h
    rcases ih h with h | h
    · rcases upsert_mem h with rfl | h
      · exact Or.inr List.mem_cons_self
      · exact Or.inl h
    · exact Or.inr (List.mem_cons_of_mem _ h)

theorem lookup_updateMap {n : Str} {fs : List (Str × α)} (hn : (fs.map Prod.fst).Nodup) : ∀ {d : List (Str × α)},
    lookupKey n (updateMap d fs) = match lookupKey n fs with | some v => some v | none => lookupKey n d := by
  induction fs with
  | nil => intro d; rfl
  | cons f fs ih =>
    intro d
    obtain ⟨k, v⟩ := f
    rw [List.map_cons, List.nodup_cons] at hn
    rw [updateMap_cons, ih hn.2, lookupKey_upsert]
    simp only [lookupKey]
    by_cases h : k = n
    · subst h
      have : lookupKey k fs = none := lookupKey_none_iff'.2 hn.1
      simp only [this, if_pos]
    · simp only [if_neg h]

/-- Entries for new names are added at the end. -/
theorem updateMap_new {fs : List (Str × α)} (hn : (fs.map Prod.fst).Nodup) : ∀ {d : List (Str × α)},
    (∀ n ∈ fs.map Prod.fst, n ∉ d.map Prod.fst) → updateMap d fs = d ++ fs := by
  induction fs with
  | nil => intro d _; simp [updateMap_nil]
  | cons f fs ih =>
    intro d h
    obtain ⟨k, v⟩ := f
    rw [List.map_cons, List.nodup_cons] at hn
    rw [updateMap_cons, upsert_of_not_mem (h k (by simp)), ih hn.2, List.append_assoc]
    · rfl
    · intro n hm
      rw [List.map_append, List.mem_append]
      rintro (h1 | h1)
      · exact h n (by simp [hm]) h1
      · simp only [List.map_cons, List.map_nil, List.mem_singleton] at h1
        subst h1; exact hn.1 hm

theorem upsert_append_left {k : Str} {v : α} {l r : List (Str × α)} (h : k ∉ l.map Prod.fst) : upsert k v (l ++ r) = l ++ upsert k v r := by
  induction l with
  | nil => rfl
  | cons p l ih =>
    obtain ⟨k', v'⟩ := p
    simp only [List.map_cons, List.mem_cons, not_or] at h
    simp only [List.cons_append, upsert]
    rw [if_neg (fun h' => h.1 h'.symm), ih h.2]

/-- A dictionary updated with one that has the same names first, in the same order. -/
theorem updateMap_prefix {d d' r : List (Str × α)} (hk : d'.map Prod.fst = d.map Prod.fst) (hn : ((d' ++ r).map Prod.fst).Nodup) :
    updateMap d (d' ++ r) = d' ++ r := by
  have key : ∀ (e d d' : List (Str × α)), d'.map Prod.fst = d.map Prod.fst → ((e ++ d' ++ r).map Prod.fst).Nodup →
      updateMap (e ++ d) (d' ++ r) = e ++ d' ++ r := by
    intro e d d'
    induction d' generalizing e d with
    | nil =>
      intro hk hn
      cases d with
      | cons => cases hk
      | nil =>
        simp only [List.append_nil, List.nil_append] at hn ⊢
        rw [List.map_append, List.nodup_append] at hn
        exact updateMap_new hn.2.1 fun n h1 h2 => hn.2.2 n h2 n h1 rfl
    | cons p d' ih =>
      intro hk hn
      cases d with
      | nil => cases hk
      | cons q d =>
        obtain ⟨k, v⟩ := p
        obtain ⟨k', v'⟩ := q
        simp only [List.map_cons, List.cons.injEq] at hk
        obtain ⟨rfl, hk⟩ := hk
        rw [List.cons_append, updateMap_cons]
        have hne : k ∉ e.map Prod.fst := by
          intro h
          rw [List.append_assoc, List.map_append, List.nodup_append] at hn
          exact hn.2.2 k h k (by simp) rfl
        have : upsert k v (e ++ (k, v') :: d) = (e ++ [(k, v)]) ++ d := by
          rw [upsert_append_left hne]; simp [upsert]
        rw [this, ih (e ++ [(k, v)]) d hk (by simpa using hn)]
        simp
  simpa using key [] d d' hk (by simpa using hn)

/-- The names of a dictionary are kept in order, and new names come last. -/
theorem updateMap_keys (fs : List (Str × α)) : ∀ d : List (Str × α), ∃ r, (updateMap d fs).map Prod.fst = d.map Prod.fst ++ r := by
  induction fs with
  | nil => intro d; exact ⟨[], by simp [updateMap_nil]⟩
  | cons f fs ih =>
    intro d
    rw [updateMap_cons]
    obtain ⟨r, hr⟩ := ih (upsert f.1 f.2 d)
    rw [hr, upsert_keys]
    split
    · exact ⟨r, rfl⟩
    · exact ⟨f.1 :: r, by simp⟩

/-- Updating with an extension gives the extension. -/
theorem updateMap_extension {d : List (Str × α)} (hn : (d.map Prod.fst).Nodup) (fs : List (Str × α)) :
    updateMap d (updateMap d fs) = updateMap d fs := by
  obtain ⟨r, hr⟩ := updateMap_keys fs d
  obtain ⟨a, b, hab, ha, -⟩ := List.map_eq_append_iff.1 hr
  rw [hab]
  refine updateMap_prefix ha ?_
  rw [← hab]
  exact updateMap_nodup hn

end

theorem named_keys (fs : List FieldDef) : (named fs).map Prod.fst = fs.map FieldDef.name := by simp [named]

theorem mem_named {p : Str × FieldDef} {fs : List FieldDef} (h : p ∈ named fs) : p.2 ∈ fs ∧ p.2.name = p.1 := by
  obtain ⟨f, hf, rfl⟩ := List.mem_map.1 h
  exact ⟨hf, rfl⟩

theorem lookup_named {n : Str} {f : FieldDef} {fs : List FieldDef} (hn : (fs.map FieldDef.name).Nodup) :
    lookupKey n (named fs) = some f ↔ f ∈ fs ∧ f.name = n := by
  constructor
  · intro h
    obtain ⟨h1, h2⟩ := mem_named (lookupKey_some_mem h)
    exact ⟨h1, h2⟩
  · rintro ⟨h, rfl⟩
    exact lookupKey_of_mem (by rw [named_keys]; exact hn) (List.mem_map.2 ⟨f, h, rfl⟩)

/-! ### First occurrences -/

theorem mem_firsts {x : Str} {l : List Str} : x ∈ firsts l ↔ x ∈ l := by
  induction l with
  | nil => simp [firsts]
  | cons y l ih =>
    simp only [firsts, List.mem_cons, List.mem_filter, ih, decide_eq_true_eq]
    by_cases h : x = y <;> simp [h]

theorem firsts_nodup (l : List Str) : (firsts l).Nodup := by
  induction l with
  | nil => simp [firsts]
  | cons y l ih =>
    simp only [firsts, List.nodup_cons, List.mem_filter]
    exact ⟨fun h => by simp at h, ih.sublist List.filter_sublist⟩

theorem firsts_append_single (l : List Str) (x : Str) : firsts (l ++ [x]) = if x ∈ l then firsts l else firsts l ++ [x] := by
  induction l with
  | nil => simp [firsts]
  | cons y l ih =>
    simp only [List.cons_append, firsts, ih, List.mem_cons]
    by_cases hxy : x = y
    · subst hxy
      simp only [true_or, if_true]
      congr 1
      split
      · rfl
      · rw [List.filter_append]; simp
    · simp only [hxy, false_or]
      split
      · rfl
      · rw [List.filter_append]; simp [hxy]

theorem firsts_of_nodup {l : List Str} (h : l.Nodup) : firsts l = l := by
  induction l with
  | nil => rfl
  | cons y l ih =>
    rw [List.nodup_cons] at h
    rw [firsts, ih h.2, List.filter_eq_self.2]
    intro a ha
    simp only [decide_eq_true_eq]
    rintro rfl; exact h.1 ha

theorem updateMap_firsts {α : Type} (fs : List (Str × α)) : ∀ (d : List (Str × α)) (l : List Str), d.map Prod.fst = firsts l →
    (updateMap d fs).map Prod.fst = firsts (l ++ fs.map Prod.fst) := by
  induction fs with
  | nil => intro d l h; simpa [updateMap_nil] using h
  | cons f fs ih =>
    intro d l h
    rw [updateMap_cons, ih _ (l ++ [f.1])]
    · simp
    · rw [upsert_keys, h, firsts_append_single]
      simp only [mem_firsts]

/-! ### Type hints -/

section
variable {w : List PyClass}

theorem typeHints_nil : typeHints w [] = [] := rfl

theorem typeHints_cons (b : Nat) (r : List Nat) : typeHints w (b :: r) =
    match w[b]? with | some c => updateMap (typeHints w r) (named c.own) | none => typeHints w r := by
  simp only [typeHints, List.reverse_cons, List.foldl_append, List.foldl_cons, List.foldl_nil]
  cases w[b]? <;> rfl

theorem typeHints_keys (mro : List Nat) : (typeHints w mro).map Prod.fst = firsts (mro.reverse.flatMap (bodyNames w)) := by
  induction mro with
  | nil => rfl
  | cons b r ih =>
    rw [typeHints_cons, List.reverse_cons, List.flatMap_append]
    simp only [List.flatMap_cons, List.flatMap_nil, List.append_nil]
    cases hb : w[b]? with
    | some c => simp only [bodyNames, hb]; rw [updateMap_firsts _ _ _ ih, named_keys]
    | none => simp only [bodyNames, hb]; rw [List.append_nil]; exact ih

theorem typeHints_nodup (mro : List Nat) : ((typeHints w mro).map Prod.fst).Nodup := by
  rw [typeHints_keys]; exact firsts_nodup _

theorem typeHints_lookup (hd : ∀ c ∈ w, (c.own.map FieldDef.name).Nodup) (mro : List Nat) (n : Str) (f : FieldDef) :
    lookupKey n (typeHints w mro) = some f ↔ Nearest w mro n f := by
  induction mro with
  | nil =>
    refine ⟨fun h => (by cases h), ?_⟩
    rintro ⟨pre, b, post, h, -⟩
    cases pre <;> cases h
  | cons b r ih =>
    rw [typeHints_cons]
    have next : (∀ f', HasAnnotation w b f' → f'.name ≠ n) → (Nearest w r n f ↔ Nearest w (b :: r) n f) := by
      intro hno
      constructor
      · rintro ⟨pre, b', post, rfl, h1, h2, h3⟩
        refine ⟨b :: pre, b', post, rfl, h1, h2, fun x hx => ?_⟩
        rcases List.mem_cons.1 hx with rfl | hx
        · exact hno
        · exact h3 x hx
      · rintro ⟨pre, b', post, h0, h1, h2, h3⟩
        cases pre with
        | nil => cases h0; exact absurd h2 (hno f h1)
        | cons x pre => cases h0; exact ⟨pre, b', post, rfl, h1, h2, fun y hy => h3 y (by simp [hy])⟩
    split
    · rename_i c hc
      have hnd := hd c (List.mem_of_getElem? hc)
      rw [lookup_updateMap (by rw [named_keys]; exact hnd)]
      cases hl : lookupKey n (named c.own) with
      | some g =>
        obtain ⟨h1, h2⟩ := (lookup_named hnd).1 hl
        constructor
        · intro h; cases h
          exact ⟨[], b, r, rfl, ⟨c, hc, h1⟩, h2, by simp⟩
        · rintro ⟨pre, b', post, h0, ⟨c', hc', h3⟩, h4, h5⟩
          cases pre with
          | nil =>
            cases h0
            rw [hc] at hc'; cases hc'
            rw [(lookup_named hnd).2 ⟨h3, h4⟩] at hl; cases hl; rfl
          | cons x pre => cases h0; exact absurd h2 (h5 b (by simp) g ⟨c, hc, h1⟩)
      | none =>
        refine ih.trans (next ?_)
        rintro f' ⟨c', hc', hf'⟩ he
        rw [hc] at hc'; cases hc'
        rw [(lookup_named hnd).2 ⟨hf', he⟩] at hl; cases hl
    · rename_i hc
      refine ih.trans (next ?_)
      rintro f' ⟨c', hc', -⟩
      rw [hc] at hc'; cases hc'

end

/-! ### Method resolution order -/

theorem c3Head_some {all ls : List (List Nat)} {h : Nat} (hs : c3Head all ls = some h) :
    (∃ l ∈ ls, l.head? = some h) ∧ ∀ l ∈ all, h ∉ l.tail := by
  induction ls with
  | nil => cases hs
  | cons l ls ih =>
    cases l with
    | nil => obtain ⟨⟨l, h1, h2⟩, h3⟩ := ih hs; exact ⟨⟨l, by simp [h1], h2⟩, h3⟩
    | cons x l =>
      simp only [c3Head] at hs
      split at hs
      · rename_i ha
        cases hs
        refine ⟨⟨_, List.mem_cons_self, rfl⟩, fun l hl => ?_⟩
        have := List.all_eq_true.1 ha l hl
        simpa using this
      · obtain ⟨⟨l, h1, h2⟩, h3⟩ := ih hs; exact ⟨⟨l, by simp [h1], h2⟩, h3⟩

/-- A merged list has the members of the given lists, each once, and keeps the order of each list. -/
theorem c3Merge_some : ∀ (n : Nat) {ls : List (List Nat)} {m : List Nat}, c3Merge n ls = some m →
    m.Nodup ∧ (∀ l ∈ ls, l.Sublist m) ∧ ∀ x ∈ m, ∃ l ∈ ls, x ∈ l := by
  have empty : ∀ {ls : List (List Nat)}, ls.all List.isEmpty = true →
      ([] : List Nat).Nodup ∧ (∀ l ∈ ls, l.Sublist []) ∧ ∀ x ∈ ([] : List Nat), ∃ l ∈ ls, x ∈ l := by
    intro ls h
    refine ⟨by simp, fun l hl => ?_, by simp⟩
    rw [List.isEmpty_iff.1 (List.all_eq_true.1 h l hl)]; exact .slnil
  intro n
  induction n with
  | zero =>
    intro ls m h
    simp only [c3Merge] at h
    split at h
    · rename_i he; cases h; exact empty he
    · cases h
  | succ n ih =>
    intro ls m h
    simp only [c3Merge] at h
    split at h
    · rename_i he; cases h; exact empty he
    · split at h
      · cases h
      · rename_i x hx
        obtain ⟨⟨l0, hl0, hh0⟩, ht⟩ := c3Head_some hx
        cases hm : c3Merge n (ls.map fun l => if l.head? = some x then l.tail else l) with
        | none => rw [hm] at h; cases h
        | some m' =>
          rw [hm] at h
          cases h
          obtain ⟨h1, h2, h3⟩ := ih hm
          have hnot : x ∉ m' := by
            intro hx'
            obtain ⟨l', hl', hxl⟩ := h3 x hx'
            obtain ⟨l, hl, rfl⟩ := List.mem_map.1 hl'
            split at hxl
            · exact ht l hl hxl
            · rename_i hne
              cases l with
              | nil => cases hxl
              | cons y l =>
                rcases List.mem_cons.1 hxl with rfl | hxl
                · exact hne rfl
                · exact ht _ hl hxl
          refine ⟨List.nodup_cons.2 ⟨hnot, h1⟩, fun l hl => ?_, fun y hy => ?_⟩
          · have := h2 _ (List.mem_map.2 ⟨l, hl, rfl⟩)
            split at this
            · rename_i he
              cases l with
              | nil => cases he
              | cons z l => cases he; exact List.Sublist.cons_cons _ this
            · exact List.Sublist.cons _ this
          · rcases List.mem_cons.1 hy with rfl | hy
            · refine ⟨l0, hl0, ?_⟩
              cases l0 with
              | nil => cases hh0
              | cons z l => cases hh0; simp
            · obtain ⟨l', hl', hyl⟩ := h3 y hy
              obtain ⟨l, hl, rfl⟩ := List.mem_map.1 hl'
              refine ⟨l, hl, ?_⟩
              split at hyl
              · exact List.mem_of_mem_tail hyl
              · exact hyl

theorem eq_of_sublist_nodup {l m : List Nat} (h : l.Sublist m) (hn : m.Nodup) (hs : ∀ x ∈ m, x ∈ l) : l = m := by
  induction h with
  | slnil => rfl
  | cons a h ih =>
    rw [List.nodup_cons] at hn
    exact absurd (h.subset (hs a (by simp))) hn.1
  | cons_cons a h ih =>
    rw [List.nodup_cons] at hn
    rw [ih hn.2 fun x hx => ?_]
    rcases List.mem_cons.1 (hs x (by simp [hx])) with rfl | h
    · exact absurd hx hn.1
    · exact h

/-! ### Classes made by class statements -/

/-- What holds of the classes of a program. -/
structure WorldOk (w : List PyClass) : Prop where
  own : ∀ c ∈ w, (c.own.map FieldDef.name).Nodup
  self : ∀ (i : Nat) (c : PyClass), w[i]? = some c → ∃ r, c.mro = i :: r
  nodup : ∀ c ∈ w, c.mro.Nodup
  known : ∀ (i : Nat) (c : PyClass), w[i]? = some c → ∀ b ∈ c.mro, b ≤ i ∧ ∃ d, w[b]? = some d ∧ ∀ x ∈ d.mro, x ∈ c.mro
  names : ∀ c ∈ w, (c.fields.map Prod.fst).Nodup
  fields : ∀ (i : Nat) (c : PyClass), w[i]? = some c → ∀ p ∈ c.fields, ∃ b ∈ c.mro, ∃ f, HasAnnotation w b f ∧ f.name = p.1 ∧ f.ty = p.2.ty

section
variable {w : List PyClass} {x : PyClass}

theorem get_old {b : Nat} (h : b < w.length) : (w ++ [x])[b]? = w[b]? := List.getElem?_append_left h

theorem get_lt {b : Nat} {c : PyClass} (h : w[b]? = some c) : b < w.length := (List.getElem?_eq_some_iff.1 h).1

theorem HasAnnotation.old {b : Nat} {f : FieldDef} (h : HasAnnotation w b f) : HasAnnotation (w ++ [x]) b f := by
  obtain ⟨c, hc, hf⟩ := h
  exact ⟨c, by rw [get_old (get_lt hc)]; exact hc, hf⟩

theorem typeHints_old {mro : List Nat} (h : ∀ b ∈ mro, b < w.length) : typeHints (w ++ [x]) mro = typeHints w mro := by
  induction mro with
  | nil => rfl
  | cons b r ih => rw [typeHints_cons, typeHints_cons, get_old (h b (by simp)), ih fun b hb => h b (by simp [hb])]

theorem findAttr_old {α : Type} {p : PyClass → Option α} {mro : List Nat} (h : ∀ b ∈ mro, b < w.length) :
    findAttr (w ++ [x]) p mro = findAttr w p mro := by
  induction mro with
  | nil => rfl
  | cons b r ih => simp only [findAttr]; rw [get_old (h b (by simp)), ih fun b hb => h b (by simp [hb])]

theorem findAttr_some {α : Type} {p : PyClass → Option α} {mro : List Nat} {a : α} (h : findAttr w p mro = some a) :
    ∃ b ∈ mro, ∃ c, w[b]? = some c ∧ p c = some a := by
  induction mro with
  | nil => cases h
  | cons b r ih =>
    simp only [findAttr] at h
    split at h
    · rename_i c hc
      split at h
      · rename_i a' ha; cases h; exact ⟨b, by simp, c, hc, ha⟩
      · obtain ⟨b', h1, h2⟩ := ih h; exact ⟨b', by simp [h1], h2⟩
    · obtain ⟨b', h1, h2⟩ := ih h; exact ⟨b', by simp [h1], h2⟩

theorem fieldsAttr_some {mro : List Nat} {fs : List (Str × FieldDef)} (h : fieldsAttr w mro = some fs) :
    ∃ b ∈ mro, ∃ c, w[b]? = some c ∧ c.frozen ≠ none ∧ c.fields = fs := by
  obtain ⟨b, h1, c, h2, h3⟩ := findAttr_some h
  refine ⟨b, h1, c, h2, ?_⟩
  cases hf : c.frozen with
  | none => rw [hf] at h3; cases h3
  | some _ => rw [hf] at h3; cases h3; exact ⟨by simp, rfl⟩

theorem baseFields_cons (b : Nat) (r : List Nat) : baseFields w (b :: r) =
    match w[b]? with
    | some c => (match fieldsAttr w c.mro with | some fs => updateMap (baseFields w r) fs | none => baseFields w r)
    | none => baseFields w r := by
  simp only [baseFields, List.reverse_cons, List.foldl_append, List.foldl_cons, List.foldl_nil]
  cases w[b]? with
  | none => rfl
  | some c => simp only; cases fieldsAttr w c.mro <;> rfl

theorem mem_baseFields {p : Str × FieldDef} {bases : List Nat} (h : p ∈ baseFields w bases) :
    ∃ b ∈ bases, ∃ c fs, w[b]? = some c ∧ fieldsAttr w c.mro = some fs ∧ p ∈ fs := by
  induction bases with
  | nil => cases h
  | cons b r ih =>
    rw [baseFields_cons] at h
    have next : p ∈ baseFields w r → ∃ b' ∈ b :: r, ∃ c fs, w[b']? = some c ∧ fieldsAttr w c.mro = some fs ∧ p ∈ fs := by
      intro h
      obtain ⟨b', h1, h2⟩ := ih h; exact ⟨b', by simp [h1], h2⟩
    split at h
    · rename_i c hc
      split at h
      · rename_i fs hfs
        rcases mem_updateMap h with h | h
        · exact next h
        · exact ⟨b, by simp, c, fs, hc, hfs, h⟩
      · exact next h
    · exact next h

theorem baseFields_nodup (bases : List Nat) : ((baseFields w bases).map Prod.fst).Nodup := by
  induction bases with
  | nil => simp [baseFields]
  | cons b r ih =>
    rw [baseFields_cons]
    split
    · split
      · exact updateMap_nodup ih
      · exact ih
    · exact ih

theorem ownField_name (bases : List Nat) (f : FieldDef) : (ownField w bases f).name = f.name ∧ (ownField w bases f).ty = f.ty := by
  unfold ownField
  split
  · split <;> exact ⟨rfl, rfl⟩
  · exact ⟨rfl, rfl⟩

/-- What a class statement makes. -/
theorem classStmt_ok {s : ClassStmt} {w' : List PyClass} (h : classStmt w s = .ok w') :
    (∀ b ∈ s.bases, b < w.length) ∧ ∃ bases fields, c3 (fun b => match w[b]? with | some c => c.mro | none => []) s.bases = some bases ∧
      w' = w ++ [{ own := s.own, mro := w.length :: bases, frozen := s.decorated, fields }] ∧
      (s.decorated = none ∧ fields = [] ∨ s.decorated ≠ none ∧ fields = updateMap (baseFields w bases) (named (s.own.map (ownField w bases)))) := by
  unfold classStmt at h
  split at h
  · rename_i hb
    refine ⟨by simpa using hb, ?_⟩
    split at h
    · cases h
    · rename_i bases hc
      split at h
      · rename_i hd; cases h; rw [hd]; exact ⟨bases, [], hc, rfl, Or.inl ⟨rfl, rfl⟩⟩
      · rename_i fr hd
        simp only at h
        split at h
        · cases h
        · split at h
          · cases h
            exact ⟨bases, _, hc, by rw [hd], Or.inr ⟨by simp [hd], rfl⟩⟩
          · cases h
  · cases h

/-- The order of the base classes of a new class. -/
theorem c3_bases (hw : WorldOk w) {bs bases : List Nat} (hb : ∀ b ∈ bs, b < w.length)
    (h : c3 (fun b => match w[b]? with | some c => c.mro | none => []) bs = some bases) :
    bases.Nodup ∧ (∀ b ∈ bs, ∀ c, w[b]? = some c → c.mro.Sublist bases) ∧
      ∀ b ∈ bases, ∃ b0 ∈ bs, ∃ c, w[b0]? = some c ∧ b ∈ c.mro := by
  obtain ⟨h1, h2, h3⟩ := c3Merge_some _ h
  refine ⟨h1, fun b hb c hc => ?_, fun b hm => ?_⟩
  · refine h2 _ (List.mem_append_left _ (List.mem_map.2 ⟨b, hb, ?_⟩))
    simp only [hc]
  · obtain ⟨l, hl, hbl⟩ := h3 b hm
    rcases List.mem_append.1 hl with hl | hl
    · obtain ⟨b0, hb0, rfl⟩ := List.mem_map.1 hl
      have hget := List.getElem?_eq_getElem (hb b0 hb0)
      simp only [hget] at hbl
      exact ⟨b0, hb0, _, hget, hbl⟩
    · rcases List.mem_singleton.1 hl with rfl
      have hget := List.getElem?_eq_getElem (hb b hbl)
      obtain ⟨r, hr⟩ := hw.self b _ hget
      exact ⟨b, hbl, _, hget, by rw [hr]; simp⟩

theorem get_new {i : Nat} {c : PyClass} (h : (w ++ [x])[i]? = some c) : w[i]? = some c ∨ i = w.length ∧ c = x := by
  rcases Nat.lt_or_ge i w.length with hi | hi
  · rw [get_old hi] at h; exact Or.inl h
  · rw [List.getElem?_append_right hi] at h
    have : i - w.length = 0 := by
      have := (List.getElem?_eq_some_iff.1 h).1
      simp at this; omega
    rw [this] at h
    cases h
    exact Or.inr ⟨by omega, rfl⟩

theorem WorldOk.lt (hw : WorldOk w) {i : Nat} {c : PyClass} (h : w[i]? = some c) : ∀ b ∈ c.mro, b < w.length := by
  intro b hb
  have h1 := (hw.known i c h b hb).1
  have h2 := get_lt h
  omega

theorem WorldOk.step (hw : WorldOk w) {s : ClassStmt} (hs : s.Distinct) {w' : List PyClass} (h : classStmt w s = .ok w') : WorldOk w' := by
  obtain ⟨hb, bases, fields, hc, rfl, hf⟩ := classStmt_ok h
  obtain ⟨hn, hsub, hmem⟩ := c3_bases hw hb hc
  have hlt : ∀ b ∈ bases, b < w.length := by
    intro b hm
    obtain ⟨b0, h1, c, h2, h3⟩ := hmem b hm
    exact hw.lt h2 b h3
  refine ⟨?_, ?_, ?_, ?_, ?_, ?_⟩
  · intro c hc'
    rcases List.mem_append.1 hc' with h | h
    · exact hw.own c h
    · rcases List.mem_singleton.1 h with rfl; exact hs
  · intro i c hi
    rcases get_new hi with h | ⟨rfl, rfl⟩
    · exact hw.self i c h
    · exact ⟨bases, rfl⟩
  · intro c hc'
    rcases List.mem_append.1 hc' with h | h
    · exact hw.nodup c h
    · rcases List.mem_singleton.1 h with rfl
      exact List.nodup_cons.2 ⟨fun hm => absurd (hlt _ hm) (by omega), hn⟩
  · intro i c hi b hbm
    rcases get_new hi with h | ⟨rfl, rfl⟩
    · obtain ⟨h1, d, h2, h3⟩ := hw.known i c h b hbm
      exact ⟨h1, d, by rw [get_old (get_lt h2)]; exact h2, h3⟩
    · rcases List.mem_cons.1 hbm with rfl | hbm
      · exact ⟨Nat.le_refl _, _, hi, fun x hx => hx⟩
      · refine ⟨by have := hlt b hbm; omega, ?_⟩
        obtain ⟨b0, h1, c0, h2, h3⟩ := hmem b hbm
        obtain ⟨-, d, h4, h5⟩ := hw.known b0 c0 h2 b h3
        exact ⟨d, by rw [get_old (get_lt h4)]; exact h4, fun x hx => List.mem_cons_of_mem _ ((hsub b0 h1 c0 h2).subset (h5 x hx))⟩
  · intro c hc'
    rcases List.mem_append.1 hc' with h | h
    · exact hw.names c h
    · rcases List.mem_singleton.1 h with rfl
      rcases hf with ⟨-, rfl⟩ | ⟨-, rfl⟩
      · simp
      · exact updateMap_nodup (baseFields_nodup bases)
  · intro i c hi p hp
    rcases get_new hi with h | ⟨rfl, rfl⟩
    · obtain ⟨b, h1, f, h2, h3⟩ := hw.fields i c h p hp
      exact ⟨b, h1, f, h2.old, h3⟩
    · rcases hf with ⟨-, rfl⟩ | ⟨-, rfl⟩
      · cases hp
      · rcases mem_updateMap hp with hp | hp
        · obtain ⟨b, h1, c, fs, h2, h3, h4⟩ := mem_baseFields hp
          obtain ⟨b', h5, c', h6, -, rfl⟩ := fieldsAttr_some h3
          obtain ⟨b'', h7, f, h8, h9⟩ := hw.fields b' c' h6 p h4
          obtain ⟨b0, g1, c0, g2, g3⟩ := hmem b h1
          obtain ⟨-, d, g4, g5⟩ := hw.known b0 c0 g2 b g3
          rw [h2] at g4; cases g4
          obtain ⟨-, d, g6, g7⟩ := hw.known b c h2 b' h5
          rw [h6] at g6; cases g6
          exact ⟨b'', List.mem_cons_of_mem _ ((hsub b0 g1 c0 g2).subset (g5 _ (g7 _ h7))), f, h8.old, h9⟩
        · obtain ⟨h1, h2⟩ := mem_named hp
          obtain ⟨f, hf, h3⟩ := List.mem_map.1 h1
          have := ownField_name (w := w) bases f
          refine ⟨w.length, by simp, f, ⟨_, hi, hf⟩, ?_, ?_⟩
          · rw [← h2, ← h3]; exact this.1.symm
          · rw [← h3]; exact this.2.symm

end

theorem worldOk_nil : WorldOk [] := ⟨by simp, by simp, by simp, by simp, by simp, by simp⟩

theorem worldOk_stmts : ∀ (ss : List ClassStmt) {w w' : List PyClass}, WorldOk w → (∀ s ∈ ss, s.Distinct) → classStmts w ss = .ok w' →
    WorldOk w' := by
  intro ss
  induction ss with
  | nil => intro w w' hw _ h; cases h; exact hw
  | cons s ss ih =>
    intro w w' hw hd h
    simp only [classStmts] at h
    split at h
    · cases h
    · rename_i w1 h1
      exact ih (hw.step (hd s (by simp)) h1) (fun s hs => hd s (by simp [hs])) h

/-! ### Fields of base classes -/

theorem baseFields_covers {w : List PyClass} {b : Nat} {d : PyClass} {fs : List (Str × FieldDef)} {bases : List Nat} (hb : b ∈ bases)
    (hd : w[b]? = some d) (hf : fieldsAttr w d.mro = some fs) : ∀ n ∈ fs.map Prod.fst, n ∈ (baseFields w bases).map Prod.fst := by
  induction bases with
  | nil => cases hb
  | cons x r ih =>
    intro n hn
    rw [baseFields_cons]
    rcases List.mem_cons.1 hb with rfl | hb
    · simp only [hd, hf]
      rw [mem_updateMap_keys]; exact Or.inr hn
    · have := ih hb n hn
      split
      · split
        · rw [mem_updateMap_keys]; exact Or.inl this
        · exact this
      · exact this

/-- A data class has the fields of all classes it is derived from. -/
def Covers (w : List PyClass) : Prop :=
  ∀ (i : Nat) (c : PyClass), w[i]? = some c → c.frozen ≠ none → ∀ b ∈ c.mro, ∀ d, w[b]? = some d → ∀ fs, fieldsAttr w d.mro = some fs →
    ∀ n ∈ fs.map Prod.fst, n ∈ c.fields.map Prod.fst

theorem Covers.step {w : List PyClass} (hw : WorldOk w) (hl : Covers w) {s : ClassStmt} {w' : List PyClass}
    (h : classStmt w s = .ok w') : Covers w' := by
  obtain ⟨hb, bases, fields, hc, rfl, hf⟩ := classStmt_ok h
  obtain ⟨hn, hsub, hmem⟩ := c3_bases hw hb hc
  have hlt : ∀ b ∈ bases, b < w.length := by
    intro b hm
    obtain ⟨b0, h1, c, h2, h3⟩ := hmem b hm
    exact hw.lt h2 b h3
  intro i c hi hfr b hbm d hd fs hfs n hn
  rcases get_new hi with h | ⟨rfl, rfl⟩
  · rw [get_old (hw.lt h b hbm)] at hd
    unfold fieldsAttr at hfs
    rw [findAttr_old (hw.lt hd)] at hfs
    exact hl i c h hfr b hbm d hd fs hfs n hn
  · rcases hf with ⟨h0, -⟩ | ⟨-, rfl⟩
    · exact absurd h0 hfr
    · rcases List.mem_cons.1 hbm with rfl | hbm
      · rw [hi] at hd; cases hd
        simp only [fieldsAttr, findAttr, hi] at hfs
        simp only at hfr
        cases hdec : s.decorated with
        | none => exact absurd hdec hfr
        | some fr =>
          rw [hdec] at hfs
          simp only [Option.map_some, Option.some.injEq] at hfs
          subst hfs
          exact hn
      · rw [get_old (hlt b hbm)] at hd
        unfold fieldsAttr at hfs
        rw [findAttr_old (hw.lt hd)] at hfs
        rw [mem_updateMap_keys]
        exact Or.inl (baseFields_covers hbm hd hfs n hn)

theorem covers_stmts : ∀ (ss : List ClassStmt) {w w' : List PyClass}, WorldOk w → Covers w → (∀ s ∈ ss, s.Distinct) →
    classStmts w ss = .ok w' → Covers w' := by
  intro ss
  induction ss with
  | nil => intro w w' _ hl _ h; cases h; exact hl
  | cons s ss ih =>
    intro w w' hw hl hd h
    simp only [classStmts] at h
    split at h
    · cases h
    · rename_i w1 h1
      exact ih (hw.step (hd s (by simp)) h1) (hl.step hw h1) (fun s hs => hd s (by simp [hs])) h

/-! ### Single inheritance -/

/-- Names and types of the entries of a dictionary of fields. -/
def withTypes (d : List (Str × FieldDef)) : List (Str × Ty) := d.map fun p => (p.1, p.2.ty)

theorem withTypes_update (d fs : List (Str × FieldDef)) : withTypes (updateMap d fs) = updateMap (withTypes d) (withTypes fs) :=
  updateMap_map FieldDef.ty fs d

theorem withTypes_keys (d : List (Str × FieldDef)) : (withTypes d).map Prod.fst = d.map Prod.fst := by simp [withTypes]

theorem withTypes_own (w : List PyClass) (bases : List Nat) (fs : List FieldDef) :
    withTypes (named (fs.map (ownField w bases))) = withTypes (named fs) := by
  unfold withTypes named
  rw [List.map_map, List.map_map, List.map_map]
  refine List.map_congr_left fun f _ => ?_
  have := ownField_name (w := w) bases f
  simp only [Function.comp, this.1, this.2]

/-- What holds of the classes of a program with single inheritance in which classes with annotations are data classes. -/
structure SingleOk (w : List PyClass) : Prop where
  fields : ∀ (i : Nat) (c : PyClass), w[i]? = some c → ∀ fs, fieldsAttr w c.mro = some fs → withTypes fs = withTypes (typeHints w c.mro)
  plain : ∀ (i : Nat) (c : PyClass), w[i]? = some c → fieldsAttr w c.mro = none → typeHints w c.mro = []
  base : ∀ (i : Nat) (c : PyClass), w[i]? = some c → withTypes (baseFields w c.mro) = withTypes (typeHints w c.mro)

theorem baseFields_old {w : List PyClass} {x : PyClass} (hw : WorldOk w) {mro : List Nat} (h : ∀ b ∈ mro, b < w.length) :
    baseFields (w ++ [x]) mro = baseFields w mro := by
  induction mro with
  | nil => rfl
  | cons b r ih =>
    rw [baseFields_cons, baseFields_cons, get_old (h b (by simp)), ih fun b hb => h b (by simp [hb])]
    cases hb : w[b]? with
    | none => rfl
    | some c => simp only [fieldsAttr]; rw [findAttr_old (hw.lt hb)]

theorem SingleOk.step {w : List PyClass} (hw : WorldOk w) (hl : SingleOk w) {s : ClassStmt} (hs : s.Simple) {w' : List PyClass}
    (h : classStmt w s = .ok w') : SingleOk w' := by
  obtain ⟨hb, bases, fields, hc, rfl, hf⟩ := classStmt_ok h
  obtain ⟨hn, hsub, hmem⟩ := c3_bases hw hb hc
  -- the bases of the new class
  have hbases : bases = [] ∨ ∃ (b : Nat) (d : PyClass), w[b]? = some d ∧ bases = d.mro := by
    match hbs : s.bases, hs.1 with
    | [], _ =>
      left
      cases bases with
      | nil => rfl
      | cons x r => obtain ⟨b0, h1, -⟩ := hmem x (by simp); rw [hbs] at h1; cases h1
    | [b], _ =>
      right
      have hget := List.getElem?_eq_getElem (hb b (by rw [hbs]; simp))
      refine ⟨b, _, hget, (eq_of_sublist_nodup (hsub b (by rw [hbs]; simp) _ hget) hn fun x hx => ?_).symm⟩
      obtain ⟨b0, h1, c, h2, h3⟩ := hmem x hx
      rw [hbs] at h1
      rcases List.mem_singleton.1 h1 with rfl
      rw [hget] at h2; cases h2
      exact h3
  have hlt : ∀ b ∈ bases, b < w.length := by
    intro b hm
    obtain ⟨b0, h1, c, h2, h3⟩ := hmem b hm
    exact hw.lt h2 b h3
  have hbF : withTypes (baseFields w bases) = withTypes (typeHints w bases) := by
    rcases hbases with rfl | ⟨b, d, h1, rfl⟩
    · rfl
    · exact hl.base b d h1
  have hF : ∀ fs, fieldsAttr w bases = some fs → withTypes fs = withTypes (typeHints w bases) := by
    rcases hbases with rfl | ⟨b, d, h1, rfl⟩
    · intro fs h; cases h
    · exact hl.fields b d h1
  have hP : fieldsAttr w bases = none → typeHints w bases = [] := by
    rcases hbases with rfl | ⟨b, d, h1, rfl⟩
    · intro _; rfl
    · exact hl.plain b d h1
  generalize hx : ({ own := s.own, mro := w.length :: bases, frozen := s.decorated, fields := fields } : PyClass) = x
  have hxo : x.own = s.own := by rw [← hx]
  have hxm : x.mro = w.length :: bases := by rw [← hx]
  have hget : (w ++ [x])[w.length]? = some x := by simp
  have hHints : typeHints (w ++ [x]) x.mro = updateMap (typeHints w bases) (named s.own) := by
    rw [hxm, typeHints_cons, hget, typeHints_old hlt, ← hxo]
  have hnd : ((withTypes (typeHints w bases)).map Prod.fst).Nodup := by rw [withTypes_keys]; exact typeHints_nodup bases
  have hattr : fieldsAttr (w ++ [x]) x.mro = if s.decorated = none then fieldsAttr w bases else some fields := by
    rw [hxm]
    unfold fieldsAttr
    simp only [findAttr]
    rw [hget, findAttr_old hlt, ← hx]
    cases s.decorated <;> rfl
  have hbase : baseFields (w ++ [x]) x.mro =
      match fieldsAttr (w ++ [x]) x.mro with | some fs => updateMap (baseFields w bases) fs | none => baseFields w bases := by
    conv => lhs; rw [hxm, baseFields_cons, hget, baseFields_old hw hlt]
  have hnew : (∀ fs, fieldsAttr (w ++ [x]) x.mro = some fs → withTypes fs = withTypes (typeHints (w ++ [x]) x.mro)) ∧
      (fieldsAttr (w ++ [x]) x.mro = none → typeHints (w ++ [x]) x.mro = []) ∧
      withTypes (baseFields (w ++ [x]) x.mro) = withTypes (typeHints (w ++ [x]) x.mro) := by
    rw [hbase, hattr, hHints]
    rcases hf with ⟨hd, rfl⟩ | ⟨hd, hfe⟩
    · rw [if_pos hd]
      have ho : s.own = [] := hs.2.resolve_left (fun h => h hd)
      rw [ho]
      refine ⟨hF, hP, ?_⟩
      cases ha : fieldsAttr w bases with
      | none => exact hbF
      | some fs =>
        simp only
        rw [withTypes_update, hbF, hF fs ha]
        exact updateMap_extension hnd []
    · rw [if_neg hd]
      have h1 : withTypes fields = withTypes (updateMap (typeHints w bases) (named s.own)) := by
        rw [hfe, withTypes_update, withTypes_update, withTypes_own, hbF]
      refine ⟨fun fs h => by cases h; exact h1, fun h => (by cases h), ?_⟩
      simp only
      rw [withTypes_update, h1, withTypes_update, hbF]
      exact updateMap_extension hnd _
  refine ⟨fun i c hi => ?_, fun i c hi => ?_, fun i c hi => ?_⟩
  · rcases get_new hi with h | ⟨rfl, rfl⟩
    · have := hw.lt h
      unfold fieldsAttr
      rw [findAttr_old this, typeHints_old this]
      exact hl.fields i c h
    · exact hnew.1
  · rcases get_new hi with h | ⟨rfl, rfl⟩
    · have := hw.lt h
      unfold fieldsAttr
      rw [findAttr_old this, typeHints_old this]
      exact hl.plain i c h
    · exact hnew.2.1
  · rcases get_new hi with h | ⟨rfl, rfl⟩
    · have := hw.lt h
      rw [baseFields_old hw this, typeHints_old this]
      exact hl.base i c h
    · exact hnew.2.2

theorem singleOk_stmts : ∀ (ss : List ClassStmt) {w w' : List PyClass}, WorldOk w → SingleOk w → (∀ s ∈ ss, s.Distinct ∧ s.Simple) →
    classStmts w ss = .ok w' → SingleOk w' := by
  intro ss
  induction ss with
  | nil => intro w w' _ hl _ h; cases h; exact hl
  | cons s ss ih =>
    intro w w' hw hl hd h
    simp only [classStmts] at h
    split at h
    · cases h
    · rename_i w1 h1
      exact ih (hw.step (hd s (by simp)).1 h1) (hl.step hw (hd s (by simp)).2 h1) (fun s hs => hd s (by simp [hs])) h

theorem singleOk_nil : SingleOk [] := ⟨by simp, by simp, by simp⟩

end Verif
