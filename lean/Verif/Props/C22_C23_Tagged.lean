import Verif.Lemmas.Heap
import Verif.Lemmas.PyEq
import Verif.Props.C21_Union
import Verif.Spec.ClassRead
/-!
# C22: tagged unions are selected by their tag; C23: ambiguous tagged unions are refused
-/
namespace Verif

/-! ### Specification -/

/-- `l` is one of the literals that field `p` of member type `t` may have.  Annotations of data classes that are written
as strings are not seen. -/
def TagValue (env : Env) (t : Ty) (p : Str) (l : Lit) : Prop :=
  ∃ c cd f ls, t = .cls c ∧ env.classes[c]? = some cd ∧ f ∈ cd.hints ∧ f.name = p ∧
    ((∃ fr, cd.kind = .dataclass fr) → f.strAnn = false) ∧ f.ty.litArgs = some ls ∧ l ∈ ls

/-- Field `p` of member type `t` has a literal type. -/
def HasTag (env : Env) (t : Ty) (p : Str) : Prop :=
  ∃ c cd f, t = .cls c ∧ env.classes[c]? = some cd ∧ f ∈ cd.hints ∧ f.name = p ∧
    ((∃ fr, cd.kind = .dataclass fr) → f.strAnn = false) ∧ f.ty.litArgs.isSome

/-- `p` is a tag of the union: a literal-typed field of every member. -/
def IsTag (env : Env) (ts : List Ty) (p : Str) : Prop := ts ≠ [] ∧ ∀ t ∈ ts, HasTag env t p

/-- The literals of field `p` of a member, in the order in which they are listed. -/
def TagList (env : Env) (t : Ty) (p : Str) (ls : List Lit) : Prop :=
  ∃ c cd f, t = .cls c ∧ env.classes[c]? = some cd ∧ f ∈ cd.hints ∧ f.name = p ∧ f.ty.litArgs = some ls

/-- Two members, or one member twice, share a literal of a tag. -/
def Ambiguous (env : Env) (ts : List Ty) : Prop :=
  ∃ p, IsTag env ts p ∧
    ((∃ (i k : Nat) (t u : Ty) (l m : Lit), i < k ∧ ts[i]? = some t ∧ ts[k]? = some u ∧ TagValue env t p l ∧
        TagValue env u p m ∧ l.pyEq m = true) ∨
     (∃ t ls, ∃ (i k : Nat) (l m : Lit), t ∈ ts ∧ TagList env t p ls ∧ i < k ∧ ls[i]? = some l ∧ ls[k]? = some m ∧
        l.pyEq m = true))

/-! ### Lemmas -/

theorem mem_literalProps {env : Env} {t : Ty} {p : Str} : p ∈ literalProps env t ↔ HasTag env t p := by
  unfold HasTag
  cases t with
  | cls c =>
    cases hc : env.classes[c]? with
    | none => simp [literalProps, hc]
    | some cd =>
      simp only [literalProps, hc, List.mem_map, List.mem_filter, Bool.and_eq_true]
      constructor
      · rintro ⟨f, ⟨h1, h2, h3⟩, rfl⟩
        refine ⟨c, cd, f, rfl, hc, h1, rfl, ?_, h3⟩
        rintro ⟨fr, hk⟩
        rw [hk] at h2
        simpa using h2
      · rintro ⟨c', cd', f, he, h1, h2, rfl, h3, h4⟩
        cases he
        rw [hc] at h1; cases h1
        refine ⟨f, ⟨h2, ?_, h4⟩, rfl⟩
        cases hk : cd.kind with
        | dataclass fr => simp [h3 ⟨fr, hk⟩]
        | _ => rfl
  | _ => simp [literalProps]

theorem mem_discProps {env : Env} {ts : List Ty} {p : Str} : p ∈ discProps env ts ↔ IsTag env ts p := by
  unfold IsTag
  cases ts with
  | nil => simp [discProps]
  | cons t r =>
    simp only [discProps]
    constructor
    · intro h
      split at h
      · rw [List.mem_filter] at h
        refine ⟨by simp, ?_⟩
        intro u hu
        rcases List.mem_cons.1 hu with rfl | hu
        · exact mem_literalProps.1 h.1
        · have := List.all_eq_true.1 h.2 u hu
          exact mem_literalProps.1 (by simpa using this)
      · cases h
    · rintro ⟨_, h⟩
      rw [if_pos]
      · rw [List.mem_filter]
        refine ⟨mem_literalProps.2 (h t (by simp)), ?_⟩
        rw [List.all_eq_true]
        intro u hu
        simpa using mem_literalProps.2 (h u (by simp [hu]))
      · rw [List.all_eq_true]
        intro u hu
        obtain ⟨c, _, _, rfl, _⟩ := h u hu
        rfl

theorem hints_nodup {env : Env} (hk : env.Ok) {c : Nat} {cd : ClassDef} (hc : env.classes[c]? = some cd) :
    (cd.hints.map (·.name)).Nodup := by
  have := hk.fields cd (List.mem_of_getElem? hc)
  unfold ClassDef.hints
  split
  · simp
  · exact this

theorem discProps_nodup {env : Env} (hk : env.Ok) (ts : List Ty) : (discProps env ts).Nodup := by
  cases ts with
  | nil => simp [discProps]
  | cons t r =>
    simp only [discProps]
    split
    · refine List.Nodup.sublist List.filter_sublist ?_
      cases t with
      | cls c =>
        cases hc : env.classes[c]? with
        | none => simp [literalProps, hc]
        | some cd =>
          simp only [literalProps, hc]
          exact (hints_nodup hk hc).sublist (List.filter_sublist.map _)
      | _ => simp [literalProps]
    · simp

theorem find_unique {l : List FieldDef} (hn : (l.map (·.name)).Nodup) {f : FieldDef} (hf : f ∈ l) :
    l.find? (fun g => g.name = f.name) = some f := by
  induction l with
  | nil => cases hf
  | cons g l ih =>
    rw [List.map_cons, List.nodup_cons] at hn
    rw [List.find?_cons]
    rcases List.mem_cons.1 hf with rfl | hf
    · simp
    · have : g.name ≠ f.name := fun e => hn.1 (by rw [e]; exact List.mem_map.2 ⟨f, hf, rfl⟩)
      simp [this, ih hn.2 hf]

theorem memberLits_of {env : Env} (hk : env.Ok) {t : Ty} {p : Str} {ls : List Lit} (h : TagList env t p ls) :
    memberLits env t p = ls := by
  obtain ⟨c, cd, f, rfl, hc, hf, rfl, hl⟩ := h
  simp [memberLits, hc, find_unique (hints_nodup hk hc) hf, hl]

theorem mem_memberLits {env : Env} (hk : env.Ok) {t : Ty} {p : Str} (ht : HasTag env t p) {l : Lit} :
    l ∈ memberLits env t p ↔ TagValue env t p l := by
  obtain ⟨c, cd, f, rfl, hc, hf, rfl, hs, hl⟩ := ht
  obtain ⟨ls, hls⟩ := Option.isSome_iff_exists.1 hl
  rw [memberLits_of hk ⟨c, cd, f, rfl, hc, hf, rfl, hls⟩]
  constructor
  · intro h; exact ⟨c, cd, f, ls, rfl, hc, hf, rfl, hs, hls, h⟩
  · rintro ⟨c', cd', f', ls', he, hc', hf', hn, _, hls', h⟩
    cases he
    rw [hc] at hc'; cases hc'
    have h1 := find_unique (hints_nodup hk hc) hf
    have h2 := find_unique (hints_nodup hk hc) hf'
    rw [hn, h1] at h2; cases h2
    rw [hls] at hls'; cases hls'
    exact h

/-- Two entries of the table do not collide. -/
def NoClash {κ : Type} (a b : Str × Lit × κ) : Prop := ¬ (a.1 = b.1 ∧ a.2.1.pyEq b.2.1 = true)

theorem buildTags_spec (items : List (Str × Lit × Option TKey)) (hsome : ∀ x ∈ items, x.2.2.isSome) :
    ∀ acc, (∃ new, buildTags acc items = .ok (acc ++ new) ∧ items = new.map (fun x => (x.1, x.2.1, some x.2.2)) ∧
        new.Pairwise NoClash ∧ ∀ a ∈ acc, ∀ b ∈ new, NoClash a b) ∨
      (buildTags acc items = .error .jsonType ∧
        ¬ (items.Pairwise NoClash ∧ ∀ a ∈ acc, ∀ b ∈ items, ¬ (a.1 = b.1 ∧ a.2.1.pyEq b.2.1 = true))) := by
  induction items with
  | nil => intro acc; left; exact ⟨[], by simp [buildTags], rfl, .nil, by simp⟩
  | cons x items ih =>
    intro acc
    obtain ⟨p, l, k⟩ := x
    obtain ⟨k, rfl⟩ := Option.isSome_iff_exists.1 (hsome _ List.mem_cons_self)
    simp only [buildTags, addTag]
    by_cases hc : (acc.any fun e => decide (e.1 = p) && e.2.1.pyEq l) = true
    · right
      rw [if_pos hc]
      refine ⟨rfl, ?_⟩
      rintro ⟨_, h2⟩
      obtain ⟨a, ha, h3⟩ := List.any_eq_true.1 hc
      simp only [Bool.and_eq_true, decide_eq_true_eq] at h3
      exact h2 a ha _ List.mem_cons_self h3
    · rw [if_neg hc]
      simp only
      have hno : ∀ a ∈ acc, ¬ (a.1 = p ∧ a.2.1.pyEq l = true) := by
        rintro a ha ⟨h1, h2⟩
        exact hc (List.any_eq_true.2 ⟨a, ha, by simp [h1, h2]⟩)
      rcases ih (fun x hx => hsome x (by simp [hx])) (acc ++ [(p, l, k)]) with ⟨new, h1, h2, h3, h4⟩ | ⟨h1, h2⟩
      · left
        refine ⟨(p, l, k) :: new, by rw [h1]; simp, by simp [h2], ?_, ?_⟩
        · exact List.pairwise_cons.2 ⟨fun b hb => h4 (p, l, k) (by simp) b hb, h3⟩
        · intro a ha b hb
          rcases List.mem_cons.1 hb with rfl | hb
          · exact hno a ha
          · exact h4 a (by simp [ha]) b hb
      · right
        refine ⟨h1, ?_⟩
        rintro ⟨h5, h6⟩
        rw [List.pairwise_cons] at h5
        refine h2 ⟨h5.2, ?_⟩
        intro a ha b hb
        rcases List.mem_append.1 ha with ha | ha
        · exact h6 a ha b (by simp [hb])
        · simp at ha; subst ha
          exact h5.1 b hb

theorem mem_tagItems {env : Env} (hk : env.Ok) {ts : List Ty} {x : Str × Lit × Option TKey} :
    x ∈ tagItems env ts ↔ ∃ t ∈ ts, IsTag env ts x.1 ∧ TagValue env t x.1 x.2.1 ∧ x.2.2 = tyKey env t := by
  unfold tagItems
  simp only [List.mem_flatMap, List.mem_map]
  constructor
  · rintro ⟨t, ht, p, hp, l, hl, rfl⟩
    have hp' : IsTag env ts p := mem_discProps.1 ((hk.setOrder _).mem_iff.1 hp)
    exact ⟨t, ht, hp', (mem_memberLits hk (hp'.2 t ht)).1 hl, rfl⟩
  · obtain ⟨p, l, k⟩ := x
    rintro ⟨t, ht, hp, hl, rfl⟩
    exact ⟨t, ht, p, (hk.setOrder _).mem_iff.2 (mem_discProps.2 hp), l, (mem_memberLits hk (hp.2 t ht)).2 hl, rfl⟩

theorem tagItems_some {env : Env} (hk : env.Ok) {ts : List Ty} : ∀ x ∈ tagItems env ts, x.2.2.isSome := by
  intro x hx
  obtain ⟨t, _, _, ⟨c, cd, _, _, rfl, hc, _⟩, h⟩ := (mem_tagItems hk).1 hx
  rw [h]
  simp [tyKey, hc]

theorem HasTag.list {env : Env} {t : Ty} {p : Str} (h : HasTag env t p) : ∃ ls, TagList env t p ls := by
  obtain ⟨c, cd, f, rfl, hc, hf, rfl, _, hl⟩ := h
  obtain ⟨ls, hls⟩ := Option.isSome_iff_exists.1 hl
  exact ⟨ls, c, cd, f, rfl, hc, hf, rfl, hls⟩

theorem noClash_iff {env : Env} (hk : env.Ok) {ts : List Ty} :
    (tagItems env ts).Pairwise NoClash ↔ ¬ Ambiguous env ts := by
  have hprops : (env.setOrder (discProps env ts)).Nodup := (hk.setOrder _).nodup_iff.2 (discProps_nodup hk ts)
  unfold tagItems
  simp only [List.pairwise_flatMap, List.pairwise_map, List.mem_flatMap, List.mem_map]
  constructor
  · rintro ⟨h1, h2⟩ ⟨p, hp, h⟩
    have hpm : p ∈ env.setOrder (discProps env ts) := (hk.setOrder _).mem_iff.2 (mem_discProps.2 hp)
    rcases h with ⟨i, k, t, u, l, m, hik, ht, hu, hl, hm, he⟩ | ⟨t, ls, i, k, l, m, ht, hls, hik, hl, hm, he⟩
    · obtain ⟨hi, e1⟩ := List.getElem?_eq_some_iff.1 ht
      obtain ⟨hk', e2⟩ := List.getElem?_eq_some_iff.1 hu
      have htm := List.mem_of_getElem? ht
      have hum := List.mem_of_getElem? hu
      have := List.pairwise_iff_getElem.1 h2 i k hi hk' hik
      rw [e1, e2] at this
      exact this _ ⟨p, hpm, l, (mem_memberLits hk (hp.2 t htm)).2 hl, rfl⟩ _
        ⟨p, hpm, m, (mem_memberLits hk (hp.2 u hum)).2 hm, rfl⟩ ⟨rfl, he⟩
    · have h3 := (h1 t ht).1 p hpm
      rw [memberLits_of hk hls] at h3
      obtain ⟨hi, e1⟩ := List.getElem?_eq_some_iff.1 hl
      obtain ⟨hk', e2⟩ := List.getElem?_eq_some_iff.1 hm
      have := List.pairwise_iff_getElem.1 h3 i k hi hk' hik
      rw [e1, e2] at this
      exact this ⟨rfl, he⟩
  · intro hn
    constructor
    · intro t ht
      constructor
      · intro p hp
        have hp' : IsTag env ts p := mem_discProps.1 ((hk.setOrder _).mem_iff.1 hp)
        obtain ⟨ls, hls⟩ := (hp'.2 t ht).list
        rw [memberLits_of hk hls, List.pairwise_iff_getElem]
        rintro i k hi hk' hik ⟨_, he⟩
        exact hn ⟨p, hp', .inr ⟨t, ls, i, k, ls[i], ls[k], ht, hls, hik, by simp [hi], by simp [hk'], he⟩⟩
      · refine hprops.imp ?_
        rintro p q hpq x ⟨l, _, rfl⟩ y ⟨m, _, rfl⟩ ⟨h, _⟩
        exact hpq h
    · rw [List.pairwise_iff_getElem]
      rintro i k hi hk' hik x ⟨p, hp, l, hl, rfl⟩ y ⟨q, hq, m, hm, rfl⟩ ⟨h, he⟩
      simp only at h he
      subst h
      have hp' : IsTag env ts p := mem_discProps.1 ((hk.setOrder _).mem_iff.1 hp)
      exact hn ⟨p, hp', .inl ⟨i, k, ts[i], ts[k], l, m, hik, by simp [hi], by simp [hk'],
        (mem_memberLits hk (hp'.2 _ (by simp))).1 hl, (mem_memberLits hk (hp'.2 _ (by simp))).1 hm, he⟩⟩

/-! ### C23 -/

/-- Creating a deserializer for a union with a tag is refused with `JsonTypeError` exactly if the union is ambiguous. -/
theorem C23_ambiguous_iff (env : Env) (hk : env.Ok) (ts : List Ty) (ht : ∃ p, IsTag env ts p) :
    (compile env (.union ts) = .error .jsonType ↔ Ambiguous env ts) ∧
    (Supported env (.union ts) ↔ ¬ Ambiguous env ts) := by
  have hne : discProps env ts ≠ [] := by
    obtain ⟨p, hp⟩ := ht
    intro h
    have := mem_discProps.2 hp
    rw [h] at this; cases this
  unfold Supported
  simp only [compile]
  rw [if_neg hne]
  rw [← Classical.not_not (a := Ambiguous env ts), ← noClash_iff hk]
  rcases buildTags_spec (tagItems env ts) (tagItems_some hk) [] with ⟨new, h1, h2, h3, _⟩ | ⟨h1, h2⟩
  · rw [h1]
    have : (tagItems env ts).Pairwise NoClash := by
      rw [h2, List.pairwise_map]; exact h3
    simp [this]
  · rw [h1]
    have : ¬ (tagItems env ts).Pairwise NoClash := fun h => h2 ⟨h, by simp⟩
    simp [this]

/-- The error is raised before any data is read. -/
theorem C23_any_data (env : Env) (hk : env.Ok) (ts : List Ty) (ha : Ambiguous env ts) (skip : Bool) (j : Json) :
    loads env skip (.union ts) j = .error .jsonType := by
  obtain ⟨p, hp, _⟩ := id ha
  simp [loads, (C23_ambiguous_iff env hk ts ⟨p, hp⟩).1.2 ha]

/-! ### C22 -/

/-- What is known about the deserializer of an unambiguous tagged union. -/
theorem compile_tagged {env : Env} (hk : env.Ok) {ts : List Ty} (ht : ∃ p, IsTag env ts p)
    (hs : Supported env (.union ts)) :
    ∃ table, compile env (.union ts) = .ok (.tagged (env.setOrder (discProps env ts)) table) ∧
      table.Pairwise NoClash ∧
      ∀ p l k, (p, l, k) ∈ table ↔ ∃ t ∈ ts, IsTag env ts p ∧ TagValue env t p l ∧ tyKey env t = some k := by
  have hne : discProps env ts ≠ [] := by
    obtain ⟨p, hp⟩ := ht
    intro h
    have := mem_discProps.2 hp
    rw [h] at this; cases this
  unfold Supported at hs
  simp only [compile] at hs ⊢
  rw [if_neg hne] at hs ⊢
  rcases buildTags_spec (tagItems env ts) (tagItems_some hk) [] with ⟨new, h1, h2, h3, _⟩ | ⟨h1, h2⟩
  · rw [h1]
    refine ⟨new, by simp, h3, ?_⟩
    intro p l k
    have : (p, l, k) ∈ new ↔ (p, l, some k) ∈ tagItems env ts := by
      rw [h2, List.mem_map]
      constructor
      · intro h; exact ⟨_, h, rfl⟩
      · rintro ⟨⟨p', l', k'⟩, h, he⟩
        cases he; exact h
    rw [this, mem_tagItems hk]
    simp only [eq_comm]
  · rw [h1] at hs
    obtain ⟨d, hd⟩ := hs
    cases hd

theorem tagLookup_some {p : Str} {j : Json} {table : List (Str × Lit × TKey)} {k : TKey}
    (h : tagLookup p j table = some k) : ∃ l, (p, l, k) ∈ table ∧ l.eqJson j = true := by
  induction table with
  | nil => cases h
  | cons x r ih =>
    obtain ⟨q, l, k'⟩ := x
    simp only [tagLookup] at h
    split at h
    · rename_i hc; cases h; obtain ⟨rfl, hl⟩ := hc; exact ⟨l, by simp, hl⟩
    · obtain ⟨l', h1, h2⟩ := ih h
      exact ⟨l', by simp [h1], h2⟩

theorem tagLookup_none {p : Str} {j : Json} {table : List (Str × Lit × TKey)} (h : tagLookup p j table = none) :
    ∀ l k, (p, l, k) ∈ table → l.eqJson j = false := by
  induction table with
  | nil => simp
  | cons x r ih =>
    obtain ⟨q, l, k'⟩ := x
    simp only [tagLookup] at h
    split at h
    · cases h
    · rename_i hc
      intro l' k hm
      rcases List.mem_cons.1 hm with he | hm
      · cases he
        cases hb : l.eqJson j with
        | false => rfl
        | true => exact absurd ⟨rfl, hb⟩ hc
      · exact ih h l' k hm

theorem tagLookup_of_mem {p : Str} {j : Json} {table : List (Str × Lit × TKey)} (hp : table.Pairwise NoClash) {l : Lit}
    {k : TKey} (hm : (p, l, k) ∈ table) (hl : l.eqJson j = true) : tagLookup p j table = some k := by
  induction table with
  | nil => cases hm
  | cons x r ih =>
    obtain ⟨q, l', k'⟩ := x
    rw [List.pairwise_cons] at hp
    simp only [tagLookup]
    rcases List.mem_cons.1 hm with he | hm
    · cases he; rw [if_pos ⟨rfl, hl⟩]
    · rw [if_neg, ih hp.2 hm]
      rintro ⟨rfl, hl'⟩
      exact hp.1 _ hm ⟨rfl, Lit.eqJson_join hl' hl⟩

theorem eqJson_hashable {l : Lit} {j : Json} (h : l.eqJson j = true) : j.hashable = true := by
  cases j <;> try rfl
  all_goals
    unfold Lit.eqJson at h
    cases hl : l.scalar <;> simp [hl, Json.scalar] at h

theorem taggedLoop_absent {run : TKey → Res Val} {kvs : List (Str × Json)} {table : List (Str × Lit × TKey)}
    {props : List Str} (h : ∀ p ∈ props, ∀ x, ¬ Present kvs p x) : taggedLoop run kvs table props = .error .jsonType := by
  induction props with
  | nil => rfl
  | cons p ps ih =>
    have ih := ih (fun q hq => h q (by simp [hq]))
    simp only [taggedLoop]
    cases hl : lookupKey p kvs with
    | none => simp only; exact ih
    | some x =>
      simp only
      by_cases hn : x.isNull = true
      · rw [if_pos hn]; exact ih
      · exact absurd ⟨hl, fun e => hn ((isNull_iff x).2 e)⟩ (h p (by simp) x)

/-- The first tag that is present decides. -/
theorem taggedLoop_present {run : TKey → Res Val} {kvs : List (Str × Json)} {table : List (Str × Lit × TKey)}
    {props : List Str} (h : ∃ p ∈ props, ∃ x, Present kvs p x) :
    ∃ p ∈ props, ∃ x, Present kvs p x ∧ taggedLoop run kvs table props =
      if !x.hashable then .error .typeError
      else match tagLookup p x table with
        | none => .error .jsonType
        | some k => run k := by
  induction props with
  | nil => obtain ⟨p, hp, _⟩ := h; cases hp
  | cons p ps ih =>
    simp only [taggedLoop]
    have hrest : (∀ x, ¬ Present kvs p x) → ∃ q ∈ ps, ∃ x, Present kvs q x := by
      intro hno
      obtain ⟨q, hq, x, hx⟩ := h
      rcases List.mem_cons.1 hq with rfl | hq
      · exact absurd hx (hno x)
      · exact ⟨q, hq, x, hx⟩
    cases hl : lookupKey p kvs with
    | none =>
      simp only
      obtain ⟨q, hq, x, hx, he⟩ := ih (hrest (by rintro x ⟨h1, _⟩; rw [hl] at h1; cases h1))
      exact ⟨q, by simp [hq], x, hx, he⟩
    | some y =>
      simp only
      by_cases hn : y.isNull = true
      · rw [if_pos hn]
        obtain ⟨q, hq, x, hx, he⟩ := ih (hrest (by
          rintro x ⟨h1, h2⟩; rw [hl] at h1; cases h1; exact h2 ((isNull_iff y).1 hn)))
        exact ⟨q, by simp [hq], x, hx, he⟩
      · rw [if_neg hn]
        exact ⟨p, by simp, y, ⟨hl, fun e => hn ((isNull_iff y).2 e)⟩, rfl⟩

theorem tag_mem_iff {env : Env} (hk : env.Ok) {ts : List Ty} {p : Str} :
    p ∈ env.setOrder (discProps env ts) ↔ IsTag env ts p := by
  rw [(hk.setOrder _).mem_iff, mem_discProps]

theorem parse_key_eq_loads {env : Env} {skip : Bool} {t : Ty} {k : TKey} {c : Nat} (ht : t = .cls c)
    (h : tyKey env t = some k) (j : Json) : parse env (fullHeap env skip) j (.ref k) = loads env skip t j := by
  subst ht
  have : compile env (.cls c) = .ok (.ref k) := by simp [compile, h]
  rw [loads_of_compile this]

/-- Data whose tags all have literals of member `C` is deserialized exactly as `C`: the outcome does not depend on the
order of members (`ts` and its permutations are treated alike) nor on the iteration order of the set of tags
(`env.setOrder` is arbitrary). -/
theorem C22_selected (env : Env) (hk : env.Ok) (skip : Bool) (ts : List Ty) (hs : Supported env (.union ts)) (c : Nat)
    (hc : Ty.cls c ∈ ts) (kvs : List (Str × Json))
    (hex : ∃ p x, IsTag env ts p ∧ Present kvs p x)
    (hall : ∀ p x, IsTag env ts p → Present kvs p x → ∃ l, TagValue env (.cls c) p l ∧ l.eqJson x = true) :
    loads env skip (.union ts) (.obj kvs) = loads env skip (.cls c) (.obj kvs) := by
  obtain ⟨p, x, hp, hx⟩ := hex
  obtain ⟨table, h1, h2, h3⟩ := compile_tagged hk ⟨p, hp⟩ hs
  rw [loads_of_compile h1, parse_tagged]
  simp only
  obtain ⟨q, hq, y, hy, he⟩ := taggedLoop_present (run := fun k => parse env (fullHeap env skip) (.obj kvs) (.ref k))
    (kvs := kvs) (table := table) ⟨p, (tag_mem_iff hk).2 hp, x, hx⟩
  have hq' := (tag_mem_iff hk).1 hq
  obtain ⟨l, hl, hle⟩ := hall q y hq' hy
  rw [he, eqJson_hashable hle]
  obtain ⟨k, hkey⟩ : ∃ k, tyKey env (.cls c) = some k := by
    obtain ⟨c', cd, _, he', hc', _⟩ := hp.2 _ hc
    cases he'
    exact ⟨cd.key, by simp [tyKey, hc']⟩
  rw [tagLookup_of_mem h2 ((h3 q l k).2 ⟨_, hc, hq', hl, hkey⟩) hle]
  simp only [Bool.not_true, Bool.false_eq_true, if_false]
  exact parse_key_eq_loads rfl hkey _

/-- Data is never deserialized as a member that does not list its tag. -/
theorem C22_never_other (env : Env) (hk : env.Ok) (skip : Bool) (ts : List Ty) (ht : ∃ p, IsTag env ts p) (j : Json)
    (v : Val) (h : loads env skip (.union ts) j = .ok v) :
    ∃ kvs c p x l, j = .obj kvs ∧ Ty.cls c ∈ ts ∧ IsTag env ts p ∧ Present kvs p x ∧ TagValue env (.cls c) p l ∧
      l.eqJson x = true ∧ loads env skip (.cls c) j = .ok v := by
  have hs : Supported env (.union ts) := by
    unfold loads at h
    split at h
    · cases h
    · rename_i d hd; exact ⟨d, hd⟩
  obtain ⟨table, h1, h2, h3⟩ := compile_tagged hk ht hs
  rw [loads_of_compile h1, parse_tagged] at h
  cases j with
  | obj kvs =>
    simp only at h
    by_cases hex : ∃ p ∈ env.setOrder (discProps env ts), ∃ x, Present kvs p x
    · obtain ⟨q, hq, y, hy, he⟩ := taggedLoop_present (run := fun k => parse env (fullHeap env skip) (.obj kvs) (.ref k))
        (table := table) hex
      rw [he] at h
      split at h
      · cases h
      · cases hl : tagLookup q y table with
        | none => rw [hl] at h; cases h
        | some k =>
          rw [hl] at h
          obtain ⟨l, hm, hle⟩ := tagLookup_some hl
          obtain ⟨t, htm, hq', htv, hkey⟩ := (h3 q l k).1 hm
          obtain ⟨c, _, _, _, rfl, _⟩ := id htv
          refine ⟨kvs, c, q, y, l, rfl, htm, hq', hy, htv, hle, ?_⟩
          rw [← parse_key_eq_loads rfl hkey]
          exact h
    · rw [taggedLoop_absent (fun p hp x hx => hex ⟨p, hp, x, hx⟩)] at h
      cases h
  | _ => cases h

/-- Data without any tag, or whose tags are unknown to all members, is refused with `JsonTypeError`; so is anything but
a JSON object.  Partial: the tag must not be a JSON array or object, see `C22_unhashable`. -/
theorem C22_unknown_partial (env : Env) (hk : env.Ok) (skip : Bool) (ts : List Ty) (ht : ∃ p, IsTag env ts p)
    (hs : Supported env (.union ts)) (j : Json)
    (h : ∀ kvs p x, j = .obj kvs → IsTag env ts p → Present kvs p x →
      x.hashable = true ∧ ∀ t ∈ ts, ∀ l, TagValue env t p l → l.eqJson x = false) :
    loads env skip (.union ts) j = .error .jsonType := by
  obtain ⟨table, h1, h2, h3⟩ := compile_tagged hk ht hs
  rw [loads_of_compile h1, parse_tagged]
  cases j with
  | obj kvs =>
    simp only
    by_cases hex : ∃ p ∈ env.setOrder (discProps env ts), ∃ x, Present kvs p x
    · obtain ⟨q, hq, y, hy, he⟩ := taggedLoop_present (run := fun k => parse env (fullHeap env skip) (.obj kvs) (.ref k))
        (table := table) hex
      obtain ⟨hh, hno⟩ := h kvs q y rfl ((tag_mem_iff hk).1 hq) hy
      rw [he, hh]
      cases hl : tagLookup q y table with
      | none => rfl
      | some k =>
        obtain ⟨l, hm, hle⟩ := tagLookup_some hl
        obtain ⟨t, htm, _, htv, _⟩ := (h3 q l k).1 hm
        rw [hno t htm l htv] at hle; cases hle
    · exact taggedLoop_absent (fun p hp x hx => hex ⟨p, hp, x, hx⟩)
  | _ => rfl

/-! ### The hypotheses are met, and what does not hold -/

/-- `Cat` and `Dog` with the common tag `kind`; `Dog` has two values for it. -/
private def cat : ClassDef :=
  { module := c!"m", name := c!"Cat", kind := .dataclass false, fields :=
    [{ name := c!"kind", ty := .literal [.str c!"cat"] }, { name := c!"lives", ty := .int }] }
private def dog : ClassDef :=
  { module := c!"m", name := c!"Dog", kind := .dataclass false, fields :=
    [{ name := c!"kind", ty := .literal [.str c!"dog", .str c!"puppy"] }] }
private def petEnv : Env := ⟨[], [cat, dog], id⟩
private theorem petEnv_ok : petEnv.Ok :=
  ⟨by decide +kernel, by simp [petEnv], by simp [petEnv, cat, dog], fun _ => .refl _⟩
private theorem pet_tag : IsTag petEnv [.cls 0, .cls 1] c!"kind" := mem_discProps.1 (by decide +kernel)

example : Supported petEnv (.union [.cls 0, .cls 1]) := ⟨_, rfl⟩
example : loads petEnv false (.union [.cls 0, .cls 1]) (.obj [(c!"kind", .str c!"puppy")]) =
    loads petEnv false (.cls 1) (.obj [(c!"kind", .str c!"puppy")]) := by
  refine C22_selected petEnv petEnv_ok false _ ⟨_, rfl⟩ 1 (by simp) _ ⟨_, _, pet_tag, rfl, by simp⟩ ?_
  intro p x hp hx
  have hp' : p ∈ [c!"kind"] := by
    have h := mem_discProps.2 hp
    exact h
  rw [List.mem_singleton] at hp'
  subst hp'
  cases hx.1
  exact ⟨.str c!"puppy", ⟨1, dog, _, _, rfl, rfl, List.mem_cons_self, rfl, by simp, rfl, by simp⟩, by decide +kernel⟩
example : loads petEnv false (.union [.cls 0, .cls 1]) (.obj [(c!"kind", .str c!"puppy")]) =
    .ok (.obj 1 [(c!"kind", .str c!"puppy")]) := rfl
example : loads petEnv false (.union [.cls 1, .cls 0]) (.obj [(c!"lives", .int 9), (c!"kind", .str c!"cat")]) =
    .ok (.obj 0 [(c!"kind", .str c!"cat"), (c!"lives", .int 9)]) := rfl
example : loads petEnv false (.union [.cls 1, .cls 0]) (.obj [(c!"kind", .str c!"cow")]) = .error .jsonType := rfl

/-- An ambiguous union: one class twice. -/
example : Ambiguous petEnv [.cls 0, .cls 0] :=
  ⟨c!"kind", mem_discProps.1 (by decide +kernel), .inl ⟨0, 1, .cls 0, .cls 0, .str c!"cat", .str c!"cat", by decide, rfl, rfl,
    ⟨0, cat, _, _, rfl, rfl, List.mem_cons_self, rfl, by simp, rfl, by simp⟩,
    ⟨0, cat, _, _, rfl, rfl, List.mem_cons_self, rfl, by simp, rfl, by simp⟩, by decide +kernel⟩⟩
example : compile petEnv (.union [.cls 0, .cls 0]) = .error .jsonType := rfl

/-- A tag that is a JSON array or object is refused with `TypeError`, not with `JsonTypeError`: the key of the table
cannot be hashed. -/
theorem C22_unhashable : loads petEnv false (.union [.cls 0, .cls 1]) (.obj [(c!"kind", .arr [])]) = .error .typeError :=
  rfl

/-- Two tags, one of which is written under another name. -/
private def aliasA : ClassDef :=
  { module := c!"m", name := c!"A", kind := .dataclass false, fields :=
    [{ name := c!"p", ty := .literal [.str c!"a"] }, { name := c!"q", ty := .annotated (.literal [.str c!"x"]) [.alias c!"r"] }] }
private def aliasB : ClassDef :=
  { module := c!"m", name := c!"B", kind := .dataclass false, fields :=
    [{ name := c!"p", ty := .literal [.str c!"b"] }, { name := c!"q", ty := .annotated (.literal [.str c!"y"]) [.alias c!"r"] }] }
private def tagEnv (order : List Str → List Str) : Env := ⟨[], [aliasA, aliasB], order⟩

/-- Tags that contradict each other: the iteration order of the set of tags (the hash seed of the interpreter) decides
whether the data can be read. -/
theorem C22_order_matters :
    (∀ l : List Str, (l.reverse).Perm l) ∧
    loads (tagEnv id) true (.union [.cls 0, .cls 1])
      (.obj [(c!"p", .str c!"a"), (c!"r", .str c!"x"), (c!"q", .str c!"y")]) =
        .ok (.obj 0 [(c!"p", .str c!"a"), (c!"q", .str c!"x")]) ∧
    loads (tagEnv List.reverse) true (.union [.cls 0, .cls 1])
      (.obj [(c!"p", .str c!"a"), (c!"r", .str c!"x"), (c!"q", .str c!"y")]) = .error .jsonType :=
  ⟨fun l => List.reverse_perm l, rfl, rfl⟩

/-- A tag that is written under another name is not found by the reader. -/
theorem C22_alias_not_found :
    ∃ cdA cdB : ClassDef, loads ⟨[], [cdA, cdB], id⟩ false (.cls 0) (.obj [(c!"r", .str c!"x")]) =
        .ok (.obj 0 [(c!"q", .str c!"x")]) ∧
      loads ⟨[], [cdA, cdB], id⟩ false (.union [.cls 0, .cls 1]) (.obj [(c!"r", .str c!"x")]) = .error .jsonType :=
  ⟨{ aliasA with fields := aliasA.fields.drop 1 }, { aliasB with fields := aliasB.fields.drop 1 }, rfl, rfl⟩

/-- Literals that are members of an enumeration never match: such a tagged union can be created, each member class can
be read, but not the union. -/
theorem C22_enum_tag :
    ∃ (e : EnumDef) (cdA cdB : ClassDef),
      loads ⟨[e], [cdA, cdB], id⟩ false (.cls 0) (.obj [(c!"q", .str c!"x")]) = .ok (.obj 0 [(c!"q", .enum 0 0)]) ∧
      Supported ⟨[e], [cdA, cdB], id⟩ (.union [.cls 0, .cls 1]) ∧
      loads ⟨[e], [cdA, cdB], id⟩ false (.union [.cls 0, .cls 1]) (.obj [(c!"q", .str c!"x")]) = .error .jsonType :=
  ⟨{ module := c!"m", name := c!"E", members := [(c!"X", .str c!"x"), (c!"Y", .str c!"y")] },
    { module := c!"m", name := c!"A", kind := .dataclass false, fields := [{ name := c!"q", ty := .literal [.enum 0 0] }] },
    { module := c!"m", name := c!"B", kind := .dataclass false, fields := [{ name := c!"q", ty := .literal [.enum 0 1] }] },
    rfl, ⟨_, rfl⟩, rfl⟩

end Verif
