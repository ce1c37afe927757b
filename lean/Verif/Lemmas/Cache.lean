import Verif.Spec.Cache
import Verif.Lemmas.Deser2
import Verif.Lemmas.Heap
/-!
# Lemmas about the cache of deserializers
-/
namespace Verif

/-! ### References of a deserializer -/

mutual
/-- All cached deserializers that a deserializer refers to have a key in `S`. -/
def Deser.Refs (S : TKey → Prop) : Deser → Prop
  | .list d => d.Refs S
  | .dict _ d => d.Refs S
  | .set d => d.Refs S
  | .tuple ds => Deser.RefsL S ds
  | .union ds => Deser.RefsL S ds
  | .tagged _ table => ∀ e ∈ table, S e.2.2
  | .literal _ d => d.Refs S
  | .ref k => S k
  | _ => True
/-- The same for a list. -/
def Deser.RefsL (S : TKey → Prop) : List Deser → Prop
  | [] => True
  | d :: ds => d.Refs S ∧ Deser.RefsL S ds
end

theorem Deser.refsL_iff {S : TKey → Prop} {ds : List Deser} : Deser.RefsL S ds ↔ ∀ d ∈ ds, d.Refs S := by
  induction ds with
  | nil => simp [Deser.RefsL]
  | cons d ds ih => simp [Deser.RefsL, ih]

mutual
theorem Deser.Refs.mono {S T : TKey → Prop} (h : ∀ k, S k → T k) : ∀ {d : Deser}, d.Refs S → d.Refs T
  | .list d, hd => Deser.Refs.mono h (d := d) hd
  | .dict _ d, hd => Deser.Refs.mono h (d := d) hd
  | .set d, hd => Deser.Refs.mono h (d := d) hd
  | .tuple ds, hd => Deser.RefsL.mono h (ds := ds) hd
  | .union ds, hd => Deser.RefsL.mono h (ds := ds) hd
  | .tagged _ table, hd => fun e he => h _ (hd e he)
  | .literal _ d, hd => Deser.Refs.mono h (d := d) hd
  | .ref k, hd => h k hd
  | .none, _ | .bool, _ | .int, _ | .float, _ | .str, _ | .bytes, _ | .datetime, _ | .date, _ | .time, _
  | .timedelta, _ | .uuid, _ | .ipv4, _ | .ipv6, _ => trivial
theorem Deser.RefsL.mono {S T : TKey → Prop} (h : ∀ k, S k → T k) : ∀ {ds : List Deser}, Deser.RefsL S ds → Deser.RefsL T ds
  | [], _ => trivial
  | _ :: _, hd => ⟨Deser.Refs.mono h hd.1, Deser.RefsL.mono h hd.2⟩
end

/-! ### `parse` depends only on the entries referred to -/

/-- Functions that agree on deserializers with references in `S`. -/
def AgreeOn (S : TKey → Prop) (f g : Deser → Res Val) : Prop := ∀ d : Deser, d.Refs S → f d = g d

/-- Children that agree. -/
inductive KidsAgree (S : TKey → Prop) : Kids → Kids → Prop
  | none : KidsAgree S .none .none
  | arr {fs gs} : All2 (AgreeOn S) fs gs → KidsAgree S (.arr fs) (.arr gs)
  | obj {fs gs} : All2 (fun f g => f.1 = g.1 ∧ f.2.1 = g.2.1 ∧ AgreeOn S f.2.2 g.2.2) fs gs → KidsAgree S (.obj fs) (.obj gs)

/-- Two caches agree on the keys in `S`, which is closed under references. -/
structure HeapAgree (S : TKey → Prop) (H H' : Heap) : Prop where
  eq : ∀ k, S k → H k = H' k
  closed : ∀ k, S k → ∀ c s fds, H k = some (.cls c s (some fds)) → ∀ fd ∈ fds, fd.parser.Refs S

theorem mapRes_all2 {f : α → Res γ} {g : β → Res γ} {as : List α} {bs : List β}
    (h : All2 (fun a b => f a = g b) as bs) : mapRes f as = mapRes g bs := by
  induction h with
  | nil => rfl
  | cons h _ ih => simp [mapRes, h, ih]

theorem parsePairs_agree {env : Env} {S : TKey → Prop} {k : KeyTy} {d : Deser} (hd : d.Refs S)
    {fs gs : List (Str × Json × (Deser → Res Val))}
    (h : All2 (fun f g => f.1 = g.1 ∧ f.2.1 = g.2.1 ∧ AgreeOn S f.2.2 g.2.2) fs gs) (acc : List (Key × Val)) :
    parsePairs env k d acc fs = parsePairs env k d acc gs := by
  induction h generalizing acc with
  | nil => rfl
  | @cons a b as bs h _ ih =>
    obtain ⟨s, j, f⟩ := a; obtain ⟨s', j', g⟩ := b
    obtain ⟨h1, h2, h3⟩ := h
    simp only at h1 h2 h3
    subst h1
    simp only [parsePairs, h3 d hd]
    cases parseKey env k s with
    | error e => rfl
    | ok key =>
      cases g d with
      | error e => rfl
      | ok v => exact ih _

theorem parseSetItems_agree {env : Env} {S : TKey → Prop} {d : Deser} (hd : d.Refs S)
    {fs gs : List (Deser → Res Val)} (h : All2 (AgreeOn S) fs gs) (acc : List Val) :
    parseSetItems env d acc fs = parseSetItems env d acc gs := by
  induction h generalizing acc with
  | nil => rfl
  | cons h _ ih =>
    simp only [parseSetItems, h d hd]
    split
    · rfl
    · split
      · rfl
      · exact ih _

theorem lookupKey_agree {S : TKey → Prop} {fs gs : List (Str × Json × (Deser → Res Val))}
    (h : All2 (fun f g => f.1 = g.1 ∧ f.2.1 = g.2.1 ∧ AgreeOn S f.2.2 g.2.2) fs gs) (k : Str) :
    (lookupKey k fs = none ∧ lookupKey k gs = none) ∨
      ∃ j f g, lookupKey k fs = some (j, f) ∧ lookupKey k gs = some (j, g) ∧ AgreeOn S f g := by
  induction h with
  | nil => exact .inl ⟨rfl, rfl⟩
  | @cons a b as bs h _ ih =>
    obtain ⟨s, j, f⟩ := a; obtain ⟨s', j', g⟩ := b
    obtain ⟨h1, h2, h3⟩ := h
    simp only at h1 h2 h3
    subst h1; subst h2
    by_cases he : s = k
    · exact .inr ⟨j, f, g, by simp [lookupKey, he], by simp [lookupKey, he], h3⟩
    · simpa [lookupKey, he] using ih

theorem parseField_agree {S : TKey → Prop} {fs gs : List (Str × Json × (Deser → Res Val))}
    (h : All2 (fun f g => f.1 = g.1 ∧ f.2.1 = g.2.1 ∧ AgreeOn S f.2.2 g.2.2) fs gs) {fd : FieldD} (hd : fd.parser.Refs S) :
    parseField fs fd = parseField gs fd := by
  unfold parseField
  rcases lookupKey_agree h fd.prop with ⟨h1, h2⟩ | ⟨j, f, g, h1, h2, h3⟩
  · rw [h1, h2]
  · rw [h1, h2]
    simp only [h3 _ hd]

theorem all_keys_agree {S : TKey → Prop} {fs gs : List (Str × Json × (Deser → Res Val))}
    (h : All2 (fun f g => f.1 = g.1 ∧ f.2.1 = g.2.1 ∧ AgreeOn S f.2.2 g.2.2) fs gs) (p : Str → Bool) :
    fs.all (fun x => p x.1) = gs.all (fun x => p x.1) := by
  induction h with
  | nil => rfl
  | cons h _ ih => simp [h.1, ih]

theorem parseCls_agree {env : Env} {S : TKey → Prop} {kids kids' : Kids} (h : KidsAgree S kids kids') (c : Nat) (skip : Bool)
    (fields : Option (List FieldD)) (hf : ∀ fds, fields = some fds → ∀ fd ∈ fds, fd.parser.Refs S) :
    parseCls env c skip fields kids = parseCls env c skip fields kids' := by
  cases h with
  | none => rfl
  | arr _ => rfl
  | @obj fs gs h =>
    cases fields with
    | none => rfl
    | some fds =>
      have : parseFields fs fds = parseFields gs fds := by
        unfold parseFields
        refine mapRes_congr ?_
        intro fd hfd
        rw [parseField_agree h (hf fds rfl fd hfd)]
      simp only [parseCls, this, all_keys_agree h (fun s => fds.any (fun fd => fd.prop = s))]

theorem parseRef_agree {env : Env} {S : TKey → Prop} {H H' : Heap} (hh : HeapAgree S H H') {kids kids' : Kids}
    (h : KidsAgree S kids kids') (raw : Json) {k : TKey} (hk : S k) :
    parseRef env H raw kids k = parseRef env H' raw kids' k := by
  unfold parseRef
  rw [← hh.eq k hk]
  cases he : H k with
  | none => rfl
  | some e =>
    cases e with
    | enum e => rfl
    | custom c => rfl
    | cls c skip fields =>
      refine parseCls_agree h c skip fields ?_
      rintro fds rfl
      exact hh.closed k hk c skip fds he

theorem tagLookup_mem {p : Str} {j : Json} {table : List (Str × Lit × TKey)} {k : TKey} (h : tagLookup p j table = some k) :
    ∃ e ∈ table, e.2.2 = k := by
  induction table with
  | nil => cases h
  | cons e r ih =>
    obtain ⟨q, l, k'⟩ := e
    simp only [tagLookup] at h
    split at h
    · cases h; exact ⟨(q, l, k), by simp, rfl⟩
    · obtain ⟨e, he, h⟩ := ih h
      exact ⟨e, by simp [he], h⟩

theorem taggedLoop_agree {run run' : TKey → Res Val} {kvs : List (Str × Json)} {table : List (Str × Lit × TKey)}
    (h : ∀ e ∈ table, run e.2.2 = run' e.2.2) (props : List Str) :
    taggedLoop run kvs table props = taggedLoop run' kvs table props := by
  induction props with
  | nil => rfl
  | cons p ps ih =>
    simp only [taggedLoop, ih]
    split
    · rfl
    · split
      · rfl
      · split
        · rfl
        · split
          · rfl
          · rename_i k hk
            obtain ⟨e, he, rfl⟩ := tagLookup_mem hk
            exact h e he

mutual
theorem parseD_agree {env : Env} {S : TKey → Prop} {H H' : Heap} (hh : HeapAgree S H H') (raw : Json) {kids kids' : Kids}
    (h : KidsAgree S kids kids') : ∀ d : Deser, d.Refs S → parseD env H raw kids d = parseD env H' raw kids' d
  | .list d, hd => by
    simp only [parseD]
    cases h with
    | none => rfl
    | arr h =>
      simp only [parseListK]
      rw [mapRes_all2 (h.imp fun f g hfg => hfg d hd)]
    | obj _ => rfl
  | .dict k d, hd => by
    simp only [parseD]
    cases h with
    | none => rfl
    | arr h => rfl
    | obj h =>
      simp only [parseDictK]
      rw [parsePairs_agree (S := S) (d := d) hd h]
  | .set d, hd => by
    simp only [parseD]
    cases h with
    | none => rfl
    | arr h =>
      simp only [parseSetK]
      rw [parseSetItems_agree (S := S) (d := d) hd h]
    | obj h => rfl
  | .tuple ds, hd => by
    simp only [parseD]
    cases h with
    | none => rfl
    | obj h => rfl
    | @arr fs gs h =>
      simp only [parseTupleK, h.length]
      split
      · rfl
      · have : All2 (fun (a b : (Deser → Res Val) × Deser) => a.1 a.2 = b.1 b.2) (fs.zip ds) (gs.zip ds) := by
          have hd' := Deser.refsL_iff.1 hd
          clear hd
          rename_i hlen
          clear hlen
          induction h generalizing ds with
          | nil => exact .nil
          | cons h _ ih =>
            cases ds with
            | nil => exact .nil
            | cons d ds => exact .cons (h d (hd' d (by simp))) (ih ds (fun x hx => hd' x (by simp [hx])))
        rw [mapRes_all2 this]
  | .union ds, hd => by
    simp only [parseD]
    exact parseU_agree hh raw h ds hd
  | .tagged props table, hd => by
    simp only [parseD]
    cases raw with
    | obj kvs =>
      simp only [parseTaggedK]
      exact taggedLoop_agree (fun e he => parseRef_agree hh h _ (hd e he)) props
    | _ => rfl
  | .literal vals d, hd => by
    simp only [parseD]
    rw [parseD_agree hh raw h d hd]
  | .ref k, hd => by
    simp only [parseD]
    exact parseRef_agree hh h raw hd
  | .none, _ | .bool, _ | .int, _ | .float, _ | .str, _ | .bytes, _ | .datetime, _ | .date, _ | .time, _
  | .timedelta, _ | .uuid, _ | .ipv4, _ | .ipv6, _ => by simp only [parseD]
theorem parseU_agree {env : Env} {S : TKey → Prop} {H H' : Heap} (hh : HeapAgree S H H') (raw : Json) {kids kids' : Kids}
    (h : KidsAgree S kids kids') : ∀ ds : List Deser, Deser.RefsL S ds → parseU env H raw kids ds = parseU env H' raw kids' ds
  | [], _ => by simp only [parseU]
  | d :: ds, hd => by
    simp only [parseU]
    rw [parseD_agree hh raw h d hd.1, parseU_agree hh raw h ds hd.2]
end

mutual
/-- Parsing gives the same result on caches that agree on the entries that the deserializer refers to. -/
theorem parse_agree {env : Env} {S : TKey → Prop} {H H' : Heap} (hh : HeapAgree S H H') :
    ∀ (j : Json), AgreeOn S (parse env H j) (parse env H' j)
  | .arr xs => fun d hd => by
    simp only [parse]
    exact parseD_agree hh _ (.arr (parseArr_agree hh xs)) d hd
  | .obj kvs => fun d hd => by
    simp only [parse]
    exact parseD_agree hh _ (.obj (parseObj_agree hh kvs)) d hd
  | .null | .bool _ | .int _ | .float _ | .str _ => fun d hd => by
    simp only [parse]
    exact parseD_agree hh _ .none d hd
theorem parseArr_agree {env : Env} {S : TKey → Prop} {H H' : Heap} (hh : HeapAgree S H H') :
    ∀ (xs : List Json), All2 (AgreeOn S) (parseArr env H xs) (parseArr env H' xs)
  | [] => .nil
  | x :: xs => by
    simp only [parseArr]
    exact .cons (parse_agree hh x) (parseArr_agree hh xs)
theorem parseObj_agree {env : Env} {S : TKey → Prop} {H H' : Heap} (hh : HeapAgree S H H') :
    ∀ (kvs : List (Str × Json)), All2 (fun (f g : Str × Json × (Deser → Res Val)) => f.1 = g.1 ∧ f.2.1 = g.2.1 ∧ AgreeOn S f.2.2 g.2.2)
      (parseObj env H kvs) (parseObj env H' kvs)
  | [] => .nil
  | (k, x) :: r => by
    simp only [parseObj]
    exact .cons ⟨rfl, rfl, parse_agree hh x⟩ (parseObj_agree hh r)
end

/-! ### What creation does to the cache -/

theorem Heap.put_self (H : Heap) (k : TKey) (e : Entry) : H.put k e k = some e := by simp [Heap.put]

theorem Heap.put_ne (H : Heap) {k k' : TKey} (e : Entry) (h : k' ≠ k) : H.put k e k' = H k' := by simp [Heap.put, h]

/-- The keys with an entry. -/
def Heap.Dom (H : Heap) (k : TKey) : Prop := H k ≠ none

theorem Heap.dom_put_self (H : Heap) (k : TKey) (e : Entry) : (H.put k e).Dom k := by simp [Heap.Dom, Heap.put]

theorem Heap.Dom.put {H : Heap} {k' : TKey} (h : H.Dom k') (k : TKey) (e : Entry) : (H.put k e).Dom k' := by
  unfold Heap.Dom Heap.put
  split
  · simp
  · exact h

/-- Number of classes without entry. -/
def missing (env : Env) (H : Heap) : Nat := (env.classes.filter (fun cd => (H cd.key).isNone)).length

theorem missing_le (env : Env) (H : Heap) : missing env H ≤ env.classes.length := List.length_filter_le _ _

theorem cacheFilter_mono {p q : α → Bool} {l : List α} (h : ∀ x ∈ l, p x = true → q x = true) :
    (l.filter p).length ≤ (l.filter q).length := by
  induction l with
  | nil => simp
  | cons a l ih =>
    have ih := ih (fun x hx => h x (by simp [hx]))
    simp only [List.filter_cons]
    cases hp : p a
    · cases hq : q a <;> simp <;> omega
    · rw [h a (by simp) hp]; simpa using ih

theorem cacheFilter_lt {p q : α → Bool} {l : List α} (h : ∀ x ∈ l, p x = true → q x = true) {a : α} (ha : a ∈ l)
    (hp : p a = false) (hq : q a = true) : (l.filter p).length < (l.filter q).length := by
  induction l with
  | nil => simp at ha
  | cons b l ih =>
    have hm := cacheFilter_mono (p := p) (q := q) (l := l) (fun x hx => h x (by simp [hx]))
    rcases List.mem_cons.1 ha with rfl | ha
    · simp only [List.filter_cons, hp, hq]
      simp only [Bool.false_eq_true, if_false, if_true, List.length_cons]
      omega
    · have ih := ih (fun x hx => h x (by simp [hx])) ha
      simp only [List.filter_cons]
      cases hpb : p b
      · cases hqb : q b <;> simp <;> omega
      · rw [h b (by simp) hpb]; simpa using ih

theorem missing_mono {env : Env} {H H' : Heap} (h : ∀ k, H.Dom k → H'.Dom k) : missing env H' ≤ missing env H := by
  refine cacheFilter_mono ?_
  intro cd _ hn
  have hn : H' cd.key = none := by simpa using hn
  cases he : H cd.key with
  | none => rfl
  | some e => exact absurd hn (h cd.key (by simp [Heap.Dom, he]))

theorem missing_put {env : Env} {H : Heap} {c : Nat} {cd : ClassDef} (hc : env.classes[c]? = some cd) (hn : H cd.key = none)
    (e : Entry) : missing env (H.put cd.key e) < missing env H := by
  refine cacheFilter_lt ?_ (List.mem_of_getElem? hc) ?_ ?_
  · intro cd' _ h
    have h : (H.put cd.key e) cd'.key = none := by simpa using h
    cases he : H cd'.key with
    | none => rfl
    | some e' => exact absurd h (Heap.Dom.put (by simp [Heap.Dom, he]) _ _)
  · simp [Heap.put]
  · simp [hn]

/-- The keys of the classes in `G` and of enumerations. -/
inductive KeyOf (env : Env) (G : Nat → Prop) : TKey → Prop
  | cls {c : Nat} {cd : ClassDef} : G c → env.classes[c]? = some cd → KeyOf env G cd.key
  | enum {e : Nat} {ed : EnumDef} : env.enums[e]? = some ed → KeyOf env G ed.key

/-- Those of them that have an entry. -/
def Heap.DomG (H : Heap) (env : Env) (G : Nat → Prop) (k : TKey) : Prop := KeyOf env G k ∧ H.Dom k

/-- Contents of the cache during creation, as far as the classes in `G` are concerned: every entry is the canonical one
or, for the keys in `P`, the canonical one before `build`; entries not in `P` only refer to existing entries. -/
structure Inv (env : Env) (skip : Bool) (G : Nat → Prop) (P : TKey → Prop) (H : Heap) : Prop where
  entries : ∀ k, KeyOf env G k → ∀ e, H k = some e → fullHeap env skip k = some e ∨ (P k ∧ ∃ c, e = .cls c skip none)
  closed : ∀ k, KeyOf env G k → ¬ P k → ∀ c s fds, H k = some (.cls c s (some fds)) →
    ∀ fd ∈ fds, fd.parser.Refs (H.DomG env G)

theorem Heap.DomG.mono {env : Env} {G : Nat → Prop} {H H' : Heap} (h : ∀ k, H.Dom k → H'.Dom k) (k : TKey)
    (hd : H.DomG env G k) : H'.DomG env G k := ⟨hd.1, h k hd.2⟩

theorem Inv.put {env : Env} {skip : Bool} {G : Nat → Prop} {P : TKey → Prop} {H : Heap} (h : Inv env skip G P H) {k : TKey} {e : Entry}
    (hf : fullHeap env skip k = some e) (hl : ∀ c s fds, e ≠ .cls c s (some fds)) : Inv env skip G P (H.put k e) := by
  constructor
  · intro k' hK e' he
    by_cases hk : k' = k
    · subst hk; rw [Heap.put_self] at he; cases he; exact .inl hf
    · rw [Heap.put_ne H e hk] at he; exact h.entries k' hK e' he
  · intro k' hK hp c s fds he fd hfd
    by_cases hk : k' = k
    · subst hk; rw [Heap.put_self] at he; cases he; exact absurd rfl (hl _ _ _)
    · rw [Heap.put_ne H e hk] at he
      exact (h.closed k' hK hp c s fds he fd hfd).mono (Heap.DomG.mono fun _ hd => hd.put _ _)

/-- What is claimed of every creation function. -/
structure Step (env : Env) (skip : Bool) (G : Nat → Prop) (P : TKey → Prop) (H H' : Heap) : Prop where
  inv : Inv env skip G P H'
  ext : ∀ k, H.Dom k → H'.Dom k

theorem Step.refl {env : Env} {skip : Bool} {G : Nat → Prop} {P : TKey → Prop} {H : Heap} (h : Inv env skip G P H) : Step env skip G P H H :=
  ⟨h, fun _ hk => hk⟩

theorem Step.trans {env : Env} {skip : Bool} {G : Nat → Prop} {P : TKey → Prop} {H H' H'' : Heap} (h1 : Step env skip G P H H')
    (h2 : Step env skip G P H' H'') : Step env skip G P H H'' :=
  ⟨h2.inv, fun k hk => h2.ext k (h1.ext k hk)⟩

/-- A builder that works for the classes in `G` as long as at most `n` classes are without entry. -/
def BuilderOk (env : Env) (skip : Bool) (G : Nat → Prop) (n : Nat) (bld : Builder) : Prop :=
  ∀ (P : TKey → Prop) c cd H, G c → env.classes[c]? = some cd → H cd.key = none → missing env H ≤ n → Inv env skip G P H →
    ∃ H', bld c cd H = (.ok (), H') ∧ Step env skip G P H H' ∧ H'.Dom cd.key

section
variable {env : Env} (hk : env.Ok) {skip : Bool} {G : Nat → Prop} (hG : ∀ c, G c → ∃ cd, env.classes[c]? = some cd)
  {n : Nat} {bld : Builder} (hb : BuilderOk env skip G n bld)

theorem getCls_step {P : TKey → Prop} {c : Nat} {cd : ClassDef} {H : Heap} (hb : BuilderOk env skip G n bld) (hc : G c)
    (hcd : env.classes[c]? = some cd) (hm : missing env H ≤ n) (hi : Inv env skip G P H) :
    ∃ H', getCls env bld c H = (.ok cd.key, H') ∧ Step env skip G P H H' ∧ H'.Dom cd.key := by
  unfold getCls
  rw [hcd]
  simp only
  cases he : H cd.key with
  | some e => exact ⟨H, rfl, .refl hi, by simp [Heap.Dom, he]⟩
  | none =>
    obtain ⟨H', h1, h2, h3⟩ := hb P c cd H hc hcd he hm hi
    exact ⟨H', by simp [h1], h2, h3⟩

include hk in
theorem getEnum_step {P : TKey → Prop} {e : Nat} {ed : EnumDef} {H : Heap}
    (hed : env.enums[e]? = some ed) (hi : Inv env skip G P H) :
    ∃ H', getEnum env e H = (.ok ed.key, H') ∧ Step env skip G P H H' ∧ H'.Dom ed.key := by
  unfold getEnum
  rw [hed]
  simp only
  cases he : H ed.key with
  | some e => exact ⟨H, rfl, .refl hi, by simp [Heap.Dom, he]⟩
  | none =>
    exact ⟨_, rfl, ⟨hi.put (fullHeap_enum hk skip hed) (by simp), fun _ h => h.put _ _⟩, Heap.dom_put_self _ _ _⟩

theorem tagItems_eq (ts : List Ty) : tagItems env ts = (tagTyItems env ts).map (fun e => (e.1, e.2.1, tyKey env e.2.2)) := by
  unfold tagItems tagTyItems
  simp only [List.map_flatMap, List.map_map]
  rfl

theorem tagTyItems_cls {ts : List Ty} {e : Str × Lit × Ty} (h : e ∈ tagTyItems env ts) : e.2.2 ∈ ts ∧ ∃ c, e.2.2 = .cls c := by
  unfold tagTyItems at h
  simp only [List.mem_flatMap, List.mem_map] at h
  obtain ⟨t, ht, p, _, l, hl, rfl⟩ := h
  refine ⟨ht, ?_⟩
  cases t <;> first | exact ⟨_, rfl⟩ | simp [memberLits] at hl

include hG in
theorem buildTagsC_step {P : TKey → Prop} (hb : BuilderOk env skip G n bld) (items : List (Str × Lit × Ty))
    (hit : ∀ e ∈ items, ∃ c, e.2.2 = .cls c ∧ G c) (table : List (Str × Lit × TKey)) (H : Heap) (hm : missing env H ≤ n)
    (hi : Inv env skip G P H) (ht : ∀ e ∈ table, H.DomG env G e.2.2) :
    ∃ H', buildTagsC env bld table items H = (buildTags table (items.map (fun e => (e.1, e.2.1, tyKey env e.2.2))), H') ∧
      Step env skip G P H H' ∧ ∀ tb, buildTags table (items.map (fun e => (e.1, e.2.1, tyKey env e.2.2))) = .ok tb →
        ∀ e ∈ tb, H'.DomG env G e.2.2 := by
  induction items generalizing table H with
  | nil =>
    refine ⟨H, rfl, .refl hi, ?_⟩
    intro tb h; cases h; exact ht
  | cons e r ih =>
    obtain ⟨p, l, t⟩ := e
    obtain ⟨c, rfl, hc⟩ := hit _ List.mem_cons_self
    obtain ⟨cd, hcd⟩ := hG c hc
    simp only [List.map_cons, buildTags, buildTagsC, tyKey, hcd, Option.map_some, addTag]
    cases hdup : table.any (fun e => e.1 = p && e.2.1.pyEq l) with
    | true => exact ⟨H, rfl, .refl hi, by intro tb h; cases h⟩
    | false =>
      obtain ⟨H1, h1, h2, h3⟩ := getCls_step hb hc hcd hm hi
      simp only [getMember, h1]
      obtain ⟨H2, h4, h5, h6⟩ := ih (fun e he => hit e (by simp [he])) (table ++ [(p, l, cd.key)]) H1
        (Nat.le_trans (missing_mono h2.ext) hm) h2.inv (by
          intro e he
          rcases List.mem_append.1 he with he | he
          · exact Heap.DomG.mono h2.ext _ (ht e he)
          · rcases List.mem_singleton.1 he with rfl; exact ⟨.cls hc hcd, h3⟩)
      exact ⟨H2, h4, h2.trans h5, h6⟩

include hk in
theorem getLit_step {P : TKey → Prop} (ls : List Lit) (H : Heap) (hi : Inv env skip G P H) :
    ∃ H', getLit env ls H = (compileLit env ls, H') ∧ Step env skip G P H H' ∧
      ∀ d, compileLit env ls = .ok d → d.Refs (H'.DomG env G) := by
  cases ls with
  | nil => exact ⟨H, rfl, .refl hi, by intro d h; cases h⟩
  | cons l r =>
    simp only [getLit, compileLit]
    cases r.all (fun m => l.sameTy m) with
    | false => exact ⟨H, rfl, .refl hi, by intro d h; cases h⟩
    | true =>
      cases l with
      | enum e m =>
        simp only [litDeser, tyKey]
        cases hed : env.enums[e]? with
        | none =>
          refine ⟨H, ?_, .refl hi, by intro d h; cases h⟩
          simp [getEnum, hed]
        | some ed =>
          obtain ⟨H', h1, h2, h3⟩ := getEnum_step hk hed hi
          refine ⟨H', by simp [h1], h2, ?_⟩
          intro d h
          cases h
          exact ⟨.enum hed, h3⟩
      | _ =>
        refine ⟨H, rfl, .refl hi, ?_⟩
        intro d h
        cases h
        trivial

mutual
/-- With entries for all classes in `G` at hand or buildable, `_get_deserializer` returns what `compile` says. -/
theorem getWith_step (hk : env.Ok) (hG : ∀ c, G c → ∃ cd, env.classes[c]? = some cd)
    (hb : BuilderOk env skip G n bld) {P : TKey → Prop} : ∀ (t : Ty) (H : Heap), t.Within G → missing env H ≤ n → Inv env skip G P H →
    ∃ H', getWith env bld t H = (compile env t, H') ∧ Step env skip G P H H' ∧ ∀ d, compile env t = .ok d → d.Refs (H'.DomG env G)
  | .list t, H, hw, hm, hi => by
    obtain ⟨H', h1, h2, h3⟩ := getWith_step hk hG hb t H hw hm hi
    refine ⟨H', ?_, h2, ?_⟩
    · simp only [getWith, compile, h1]; cases compile env t <;> rfl
    · intro d hd
      simp only [compile] at hd
      cases hc : compile env t with
      | error e => rw [hc] at hd; cases hd
      | ok d' => rw [hc] at hd; cases hd; exact h3 d' hc
  | .dict k t, H, hw, hm, hi => by
    simp only [getWith, compile]
    cases checkKeyTy env k with
    | error e => exact ⟨H, rfl, .refl hi, by intro d h; cases h⟩
    | ok u =>
      obtain ⟨H', h1, h2, h3⟩ := getWith_step hk hG hb t H hw hm hi
      refine ⟨H', ?_, h2, ?_⟩
      · simp only [h1]; cases compile env t <;> rfl
      · intro d hd
        cases hc : compile env t with
        | error e => rw [hc] at hd; cases hd
        | ok d' => rw [hc] at hd; cases hd; exact h3 d' hc
  | .set t, H, hw, hm, hi => by
    obtain ⟨H', h1, h2, h3⟩ := getWith_step hk hG hb t H hw hm hi
    refine ⟨H', ?_, h2, ?_⟩
    · simp only [getWith, compile, h1]; cases compile env t <;> rfl
    · intro d hd
      simp only [compile] at hd
      cases hc : compile env t with
      | error e => rw [hc] at hd; cases hd
      | ok d' => rw [hc] at hd; cases hd; exact h3 d' hc
  | .tuple ts, H, hw, hm, hi => by
    obtain ⟨H', h1, h2, h3⟩ := getWithL_step hk hG hb ts H hw hm hi
    refine ⟨H', ?_, h2, ?_⟩
    · simp only [getWith, compile, h1]; cases compileL env ts <;> rfl
    · intro d hd
      simp only [compile] at hd
      cases hc : compileL env ts with
      | error e => rw [hc] at hd; cases hd
      | ok d' => rw [hc] at hd; cases hd; exact h3 d' hc
  | .union ts, H, hw, hm, hi => by
    simp only [getWith, compile]
    by_cases hp : discProps env ts = []
    · simp only [hp, if_true]
      obtain ⟨H', h1, h2, h3⟩ := getWithL_step hk hG hb ts H hw hm hi
      refine ⟨H', ?_, h2, ?_⟩
      · simp only [h1]; cases compileL env ts <;> rfl
      · intro d hd
        cases hc : compileL env ts with
        | error e => rw [hc] at hd; cases hd
        | ok d' => rw [hc] at hd; cases hd; exact h3 d' hc
    · simp only [hp, if_false]
      obtain ⟨H', h1, h2, h3⟩ := buildTagsC_step hG (P := P) hb (tagTyItems env ts) (by
        intro e he
        obtain ⟨h1, c, h2⟩ := tagTyItems_cls he
        refine ⟨c, h2, ?_⟩
        have := Ty.withinL_iff.1 hw _ h1
        rw [h2] at this
        exact this) [] H hm hi (by simp)
      rw [← tagItems_eq] at h1 h3
      refine ⟨H', ?_, h2, ?_⟩
      · rw [h1]; cases buildTags [] (tagItems env ts) <;> rfl
      · intro d hd
        cases hc : buildTags [] (tagItems env ts) with
        | error e => rw [hc] at hd; cases hd
        | ok d' => rw [hc] at hd; cases hd; exact h3 d' hc
  | .literal ls, H, _, _, hi => by
    simp only [getWith, compile]
    exact getLit_step hk ls H hi
  | .annotated t _, H, hw, hm, hi => by
    simp only [getWith, compile]
    exact getWith_step hk hG hb t H hw hm hi
  | .enum e, H, _, _, hi => by
    simp only [getWith, compile, tyKey]
    cases hed : env.enums[e]? with
    | none =>
      refine ⟨H, by simp [getEnum, hed], .refl hi, by intro d h; cases h⟩
    | some ed =>
      obtain ⟨H', h1, h2, h3⟩ := getEnum_step hk hed hi
      refine ⟨H', by simp [h1], h2, ?_⟩
      intro d h
      cases h
      exact ⟨.enum hed, h3⟩
  | .cls c, H, hw, hm, hi => by
    obtain ⟨cd, hcd⟩ := hG c hw
    obtain ⟨H', h1, h2, h3⟩ := getCls_step hb hw hcd hm hi
    simp only [getWith, compile, tyKey, hcd, h1, Option.map_some]
    refine ⟨H', rfl, h2, ?_⟩
    intro d h
    cases h
    exact ⟨.cls hw hcd, h3⟩
  | .none, H, _, _, hi | .bool, H, _, _, hi | .int, H, _, _, hi | .float, H, _, _, hi | .str, H, _, _, hi
  | .bytes, H, _, _, hi | .datetime, H, _, _, hi | .date, H, _, _, hi | .time, H, _, _, hi | .timedelta, H, _, _, hi
  | .uuid, H, _, _, hi | .ipv4, H, _, _, hi | .ipv6, H, _, _, hi
  | .bareList, H, _, _, hi | .bareDict, H, _, _, hi | .bareSet, H, _, _, hi | .bareTuple, H, _, _, hi => by
    simp only [getWith, compile]
    refine ⟨H, rfl, .refl hi, ?_⟩
    intro d h
    cases h
    try trivial
theorem getWithL_step (hk : env.Ok) (hG : ∀ c, G c → ∃ cd, env.classes[c]? = some cd)
    (hb : BuilderOk env skip G n bld) {P : TKey → Prop} : ∀ (ts : List Ty) (H : Heap), Ty.WithinL G ts → missing env H ≤ n → Inv env skip G P H →
    ∃ H', getWithL env bld ts H = (compileL env ts, H') ∧ Step env skip G P H H' ∧
      ∀ ds, compileL env ts = .ok ds → Deser.RefsL (H'.DomG env G) ds
  | [], H, _, _, hi => ⟨H, by simp only [getWithL, compileL], .refl hi, by intro ds h; cases h; trivial⟩
  | t :: ts, H, hw, hm, hi => by
    obtain ⟨H1, h1, h2, h3⟩ := getWith_step hk hG hb t H hw.1 hm hi
    simp only [getWithL, compileL, h1]
    cases hc : compile env t with
    | error e => exact ⟨H1, rfl, h2, by intro ds h; cases h⟩
    | ok d =>
      obtain ⟨H2, h4, h5, h6⟩ := getWithL_step hk hG hb ts H1 hw.2 (Nat.le_trans (missing_mono h2.ext) hm) h2.inv
      simp only [h4]
      cases hcs : compileL env ts with
      | error e => exact ⟨H2, rfl, h2.trans h5, by intro ds h; cases h⟩
      | ok ds =>
        refine ⟨H2, rfl, h2.trans h5, ?_⟩
        intro ds' h
        cases h
        exact ⟨(h3 d hc).mono (Heap.DomG.mono h5.ext), h6 ds hcs⟩
end

include hk hG hb in
theorem getFields_step {P : TKey → Prop} (kind : ClassKind) : ∀ (fs : List FieldDef) (H : Heap),
    (∀ f ∈ fs, (fieldTy kind f).Within G) → missing env H ≤ n → Inv env skip G P H →
    ∃ H', getFields env bld kind fs H = (mapRes (compileField env kind) fs, H') ∧ Step env skip G P H H' ∧
      ∀ fds, mapRes (compileField env kind) fs = .ok fds → ∀ fd ∈ fds, fd.parser.Refs (H'.DomG env G)
  | [], H, _, _, hi => ⟨H, rfl, .refl hi, by intro ds h; cases h; simp⟩
  | f :: fs, H, hw, hm, hi => by
    obtain ⟨H1, h1, h2, h3⟩ := getWith_step hk hG hb (fieldTy kind f) H (hw f (by simp)) hm hi
    simp only [getFields, mapRes, compileField, h1]
    cases hc : compile env (fieldTy kind f) with
    | error e => exact ⟨H1, rfl, h2, by intro ds h; cases h⟩
    | ok d =>
      obtain ⟨H2, h4, h5, h6⟩ := getFields_step kind fs H1 (fun g hg => hw g (by simp [hg]))
        (Nat.le_trans (missing_mono h2.ext) hm) h2.inv
      simp only [h4]
      cases hcs : mapRes (compileField env kind) fs with
      | error e => exact ⟨H2, rfl, h2.trans h5, by intro ds h; cases h⟩
      | ok ds =>
        refine ⟨H2, rfl, h2.trans h5, ?_⟩
        intro ds' h
        cases h
        intro fd hfd
        rcases List.mem_cons.1 hfd with rfl | hfd
        · exact (h3 d hc).mono (Heap.DomG.mono h5.ext)
        · exact h6 ds hcs fd hfd
end

theorem buildCls_ok {env : Env} (hk : env.Ok) (skip : Bool) {G : Nat → Prop} (hG : GoodClasses env G) :
    ∀ n, BuilderOk env skip G n (buildCls env skip n) := by
  intro n
  induction n with
  | zero =>
    intro P c cd H hc hcd hn hm hi
    exact absurd (missing_put hcd hn (.enum 0)) (by omega)
  | succ n ih =>
    intro P c cd H hc hcd hn hm hi
    obtain ⟨cd', hcd', hgood⟩ := hG c hc
    rw [hcd] at hcd'
    cases hcd'
    have hfull := fullHeap_cls hk skip hcd
    simp only [buildCls]
    cases hcus : cd.custom with
    | true =>
      simp only [if_true]
      refine ⟨_, rfl, ⟨hi.put ?_ (by simp), fun _ h => h.put _ _⟩, Heap.dom_put_self _ _ _⟩
      rw [hfull]; simp [classEntry, hcus]
    | false =>
      simp only [Bool.false_eq_true, if_false]
      obtain ⟨⟨fds, hfds⟩, hwithin⟩ := hgood hcus
      have hfull' : fullHeap env skip cd.key = some (.cls c skip (some fds)) := by
        rw [hfull]; simp [classEntry, hcus, hfds]
      have hi1 : Inv env skip G (fun k => P k ∨ k = cd.key) (H.put cd.key (.cls c skip none)) := by
        constructor
        · intro k hK e he
          by_cases hkk : k = cd.key
          · subst hkk; rw [Heap.put_self] at he; cases he
            exact .inr ⟨.inr rfl, c, rfl⟩
          · rw [Heap.put_ne H _ hkk] at he
            rcases hi.entries k hK e he with h | ⟨h1, h2⟩
            · exact .inl h
            · exact .inr ⟨.inl h1, h2⟩
        · intro k hK hp c' s fds' he fd hfd
          have hkk : k ≠ cd.key := fun e => hp (.inr e)
          rw [Heap.put_ne H _ hkk] at he
          exact (hi.closed k hK (fun h => hp (.inl h)) c' s fds' he fd hfd).mono (Heap.DomG.mono fun _ hd => hd.put _ _)
      have hm1 : missing env (H.put cd.key (.cls c skip none)) ≤ n := by
        have := missing_put hcd hn (.cls c skip none)
        omega
      obtain ⟨H', h1, h2, h3⟩ := getFields_step hk (fun c hc => (hG c hc).imp fun _ h => h.1) ih cd.kind cd.hints _ hwithin hm1 hi1
      have hfds' : mapRes (compileField env cd.kind) cd.hints = .ok fds := hfds
      rw [hfds'] at h1
      rw [h1]
      refine ⟨_, rfl, ⟨?_, ?_⟩, Heap.dom_put_self _ _ _⟩
      · constructor
        · intro k hK e he
          by_cases hkk : k = cd.key
          · subst hkk; rw [Heap.put_self] at he; cases he
            exact .inl hfull'
          · rw [Heap.put_ne H' _ hkk] at he
            rcases h2.inv.entries k hK e he with h | ⟨h | h, h'⟩
            · exact .inl h
            · exact .inr ⟨h, h'⟩
            · exact absurd h hkk
        · intro k hK hp c' s fds' he fd hfd
          by_cases hkk : k = cd.key
          · subst hkk; rw [Heap.put_self] at he; cases he
            exact (h3 fds hfds' fd hfd).mono (Heap.DomG.mono fun _ hd => hd.put _ _)
          · rw [Heap.put_ne H' _ hkk] at he
            refine (h2.inv.closed k hK ?_ c' s fds' he fd hfd).mono (Heap.DomG.mono fun _ hd => hd.put _ _)
            rintro (h | h)
            · exact hp h
            · exact hkk h
      · intro k hd
        exact (h2.ext k (hd.put _ _)).put _ _

/-- All entries of classes in `G` are finished and canonical. -/
def Clean (env : Env) (skip : Bool) (G : Nat → Prop) (H : Heap) : Prop := Inv env skip G (fun _ => False) H

theorem clean_empty (env : Env) (skip : Bool) (G : Nat → Prop) : Clean env skip G Heap.empty :=
  ⟨fun k _ e h => by simp [Heap.empty] at h, fun k _ _ c s fds h => by simp [Heap.empty] at h⟩

theorem jsonToObject_clean {env : Env} (hk : env.Ok) (skip : Bool) {G : Nat → Prop} (hG : GoodClasses env G)
    {t : Ty} (hw : t.Within G) (j : Json) {H : Heap} (hc : Clean env skip G H) :
    ∃ H', jsonToObject env skip t j H = (loads env skip t j, H') ∧ Clean env skip G H' := by
  obtain ⟨H', h1, h2, h3⟩ := getWith_step hk (fun c hc => (hG c hc).imp fun _ h => h.1) (buildCls_ok hk skip hG _) t H hw
    (missing_le env H) hc
  refine ⟨H', ?_, h2.inv⟩
  unfold jsonToObject getDeser
  rw [h1]
  cases hcomp : compile env t with
  | error e => simp [loads, hcomp]
  | ok d =>
    simp only [loads, hcomp]
    have hagree : HeapAgree (H'.DomG env G) H' (fullHeap env skip) := by
      constructor
      · intro k hd
        obtain ⟨e, he⟩ := Option.ne_none_iff_exists'.1 hd.2
        rcases h2.inv.entries k hd.1 e he with h | ⟨h, _⟩
        · rw [he, h]
        · exact absurd h id
      · intro k hd c s fds he
        exact h2.inv.closed k hd.1 id c s fds he
    rw [parse_agree hagree j d (h3 d hcomp)]

/-! ### Other types do not disturb the classes in `G` -/

/-- A builder that, called for a class in `R`, keeps the entries of the classes in `G` in order. -/
def Keeps (env : Env) (skip : Bool) (G R : Nat → Prop) (n : Nat) (bld : Builder) : Prop :=
  ∀ (P : TKey → Prop) c cd H, R c → env.classes[c]? = some cd → H cd.key = none → missing env H ≤ n → Inv env skip G P H →
    Step env skip G P H (bld c cd H).2

section
variable {env : Env} {skip : Bool} {G R : Nat → Prop} {n : Nat} {bld : Builder} {P : TKey → Prop}

theorem getCls_keeps (hb : Keeps env skip G R n bld) {c : Nat} {H : Heap} (hc : R c) (hm : missing env H ≤ n)
    (hi : Inv env skip G P H) : Step env skip G P H (getCls env bld c H).2 := by
  unfold getCls
  cases hcd : env.classes[c]? with
  | none => exact .refl hi
  | some cd =>
    simp only
    cases he : H cd.key with
    | some e => exact .refl hi
    | none =>
      have := hb P c cd H hc hcd he hm hi
      simp only
      revert this
      rcases bld c cd H with ⟨r, H'⟩
      cases r <;> exact id

theorem getEnum_keeps (hk : env.Ok) {e : Nat} {H : Heap} (hi : Inv env skip G P H) :
    Step env skip G P H (getEnum env e H).2 := by
  cases hed : env.enums[e]? with
  | none => simp only [getEnum, hed]; exact .refl hi
  | some ed =>
    obtain ⟨H', h1, h2, _⟩ := getEnum_step hk hed hi
    rw [h1]; exact h2

theorem buildTagsC_keeps (hb : Keeps env skip G R n bld) (items : List (Str × Lit × Ty))
    (hit : ∀ e ∈ items, ∃ c, e.2.2 = .cls c ∧ R c) (table : List (Str × Lit × TKey)) (H : Heap) (hm : missing env H ≤ n)
    (hi : Inv env skip G P H) : Step env skip G P H (buildTagsC env bld table items H).2 := by
  induction items generalizing table H with
  | nil => exact .refl hi
  | cons e r ih =>
    obtain ⟨p, l, t⟩ := e
    obtain ⟨c, rfl, hc⟩ := hit _ List.mem_cons_self
    simp only [buildTagsC, getMember]
    split
    · exact .refl hi
    · have h := getCls_keeps hb hc hm hi
      revert h
      rcases getCls env bld c H with ⟨r', H'⟩
      cases r' with
      | error e => exact id
      | ok k => exact fun h => h.trans (ih (fun e he => hit e (by simp [he])) _ H' (Nat.le_trans (missing_mono h.ext) hm) h.inv)

theorem getLit_keeps (hk : env.Ok) (ls : List Lit) (H : Heap) (hi : Inv env skip G P H) :
    Step env skip G P H (getLit env ls H).2 := by
  obtain ⟨H', h1, h2, _⟩ := getLit_step hk (skip := skip) (G := G) ls H hi
  rw [h1]; exact h2

mutual
theorem getWith_keeps (hk : env.Ok) (hb : Keeps env skip G R n bld) : ∀ (t : Ty) (H : Heap), t.Within R → missing env H ≤ n →
    Inv env skip G P H → Step env skip G P H (getWith env bld t H).2
  | .list t, H, hw, hm, hi => by
    have h := getWith_keeps hk hb t H hw hm hi
    simp only [getWith]
    revert h; rcases getWith env bld t H with ⟨r, H'⟩; cases r <;> exact id
  | .dict k t, H, hw, hm, hi => by
    have h := getWith_keeps hk hb t H hw hm hi
    simp only [getWith]
    cases checkKeyTy env k with
    | error e => exact .refl hi
    | ok _ => revert h; rcases getWith env bld t H with ⟨r, H'⟩; cases r <;> exact id
  | .set t, H, hw, hm, hi => by
    have h := getWith_keeps hk hb t H hw hm hi
    simp only [getWith]
    revert h; rcases getWith env bld t H with ⟨r, H'⟩; cases r <;> exact id
  | .tuple ts, H, hw, hm, hi => by
    have h := getWithL_keeps hk hb ts H hw hm hi
    simp only [getWith]
    revert h; rcases getWithL env bld ts H with ⟨r, H'⟩; cases r <;> exact id
  | .union ts, H, hw, hm, hi => by
    simp only [getWith]
    split
    · have h := getWithL_keeps hk hb ts H hw hm hi
      revert h; rcases getWithL env bld ts H with ⟨r, H'⟩; cases r <;> exact id
    · have h := buildTagsC_keeps hb (tagTyItems env ts) (by
        intro e he
        obtain ⟨h1, c, h2⟩ := tagTyItems_cls he
        refine ⟨c, h2, ?_⟩
        have := Ty.withinL_iff.1 hw _ h1
        rw [h2] at this
        exact this) [] H hm hi
      revert h; rcases buildTagsC env bld [] (tagTyItems env ts) H with ⟨r, H'⟩; cases r <;> exact id
  | .literal ls, H, _, _, hi => by
    simp only [getWith]
    exact getLit_keeps hk ls H hi
  | .annotated t _, H, hw, hm, hi => by
    simp only [getWith]
    exact getWith_keeps hk hb t H hw hm hi
  | .enum e, H, _, _, hi => by
    have h := getEnum_keeps (skip := skip) (G := G) hk (e := e) hi
    simp only [getWith]
    revert h; rcases getEnum env e H with ⟨r, H'⟩; cases r <;> exact id
  | .cls c, H, hw, hm, hi => by
    have h := getCls_keeps hb hw hm hi
    simp only [getWith]
    revert h; rcases getCls env bld c H with ⟨r, H'⟩; cases r <;> exact id
  | .none, H, _, _, hi | .bool, H, _, _, hi | .int, H, _, _, hi | .float, H, _, _, hi | .str, H, _, _, hi
  | .bytes, H, _, _, hi | .datetime, H, _, _, hi | .date, H, _, _, hi | .time, H, _, _, hi | .timedelta, H, _, _, hi
  | .uuid, H, _, _, hi | .ipv4, H, _, _, hi | .ipv6, H, _, _, hi
  | .bareList, H, _, _, hi | .bareDict, H, _, _, hi | .bareSet, H, _, _, hi | .bareTuple, H, _, _, hi => by
    simp only [getWith]; exact .refl hi
theorem getWithL_keeps (hk : env.Ok) (hb : Keeps env skip G R n bld) : ∀ (ts : List Ty) (H : Heap), Ty.WithinL R ts →
    missing env H ≤ n → Inv env skip G P H → Step env skip G P H (getWithL env bld ts H).2
  | [], H, _, _, hi => by simp only [getWithL]; exact .refl hi
  | t :: ts, H, hw, hm, hi => by
    have h := getWith_keeps hk hb t H hw.1 hm hi
    simp only [getWithL]
    revert h
    rcases getWith env bld t H with ⟨r, H'⟩
    cases r with
    | error e => exact id
    | ok d =>
      intro h
      have h' := getWithL_keeps hk hb ts H' hw.2 (Nat.le_trans (missing_mono h.ext) hm) h.inv
      simp only
      revert h'
      rcases getWithL env bld ts H' with ⟨r', H''⟩
      cases r' <;> exact fun h' => h.trans h'
end

theorem getFields_keeps (hk : env.Ok) (hb : Keeps env skip G R n bld) (kind : ClassKind) : ∀ (fs : List FieldDef) (H : Heap),
    (∀ f ∈ fs, (fieldTy kind f).Within R) → missing env H ≤ n → Inv env skip G P H →
    Step env skip G P H (getFields env bld kind fs H).2
  | [], H, _, _, hi => by simp only [getFields]; exact .refl hi
  | f :: fs, H, hw, hm, hi => by
    have h := getWith_keeps hk hb (fieldTy kind f) H (hw f (by simp)) hm hi
    simp only [getFields]
    revert h
    rcases getWith env bld (fieldTy kind f) H with ⟨r, H'⟩
    cases r with
    | error e => exact id
    | ok d =>
      intro h
      have h' := getFields_keeps hk hb kind fs H' (fun g hg => hw g (by simp [hg])) (Nat.le_trans (missing_mono h.ext) hm) h.inv
      simp only
      revert h'
      rcases getFields env bld kind fs H' with ⟨r', H''⟩
      cases r' <;> exact fun h' => h.trans h'
end

/-- An entry for a class outside `G` does not matter. -/
theorem Inv.put_other {env : Env} (hk : env.Ok) {skip : Bool} {G : Nat → Prop} {P : TKey → Prop} {H : Heap}
    (h : Inv env skip G P H) {c : Nat} {cd : ClassDef} (hc : ¬ G c) (hcd : env.classes[c]? = some cd) (e : Entry) :
    Step env skip G P H (H.put cd.key e) := by
  have hne : ∀ k, KeyOf env G k → k ≠ cd.key := by
    intro k hK he
    have hn := List.nodup_append.1 hk.keys
    cases hK with
    | @cls c' cd' hc' hcd' =>
      have : c' = c := by
        have h1 := firstIdx_key hn.2.1 hcd' 0
        have h2 := firstIdx_key hn.2.1 hcd 0
        rw [he] at h1
        rw [h1] at h2
        simp only [Option.some.injEq, Prod.mk.injEq] at h2
        omega
      subst this
      exact hc hc'
    | @enum e ed hed =>
      exact hn.2.2 _ (List.mem_map.2 ⟨ed, List.mem_of_getElem? hed, rfl⟩) _
        (List.mem_map.2 ⟨cd, List.mem_of_getElem? hcd, rfl⟩) he
  refine ⟨⟨?_, ?_⟩, fun _ hd => hd.put _ _⟩
  · intro k hK e' he
    rw [Heap.put_ne H e (hne k hK)] at he
    exact h.entries k hK e' he
  · intro k hK hp c' s fds he fd hfd
    rw [Heap.put_ne H e (hne k hK)] at he
    exact (h.closed k hK hp c' s fds he fd hfd).mono (Heap.DomG.mono fun _ hd => hd.put _ _)

theorem buildCls_keeps {env : Env} (hk : env.Ok) {skip skip' : Bool} {G R : Nat → Prop} (hG : GoodClasses env G)
    (hR : ClosedClasses env R) (hs : ∀ c, R c → G c → skip' = skip) :
    ∀ n, Keeps env skip G R n (buildCls env skip' n) := by
  intro n
  induction n with
  | zero =>
    intro P c cd H hc hcd hn hm hi
    exact absurd (missing_put hcd hn (.enum 0)) (by omega)
  | succ n ih =>
    intro P c cd H hc hcd hn hm hi
    by_cases hg : G c
    · cases hs c hc hg
      obtain ⟨H', h1, h2, _⟩ := buildCls_ok hk skip hG (n + 1) P c cd H hg hcd hn hm hi
      rw [h1]; exact h2
    · simp only [buildCls]
      split
      · exact hi.put_other hk hg hcd _
      · rename_i hcus
        have h1 := hi.put_other hk hg hcd (.cls c skip' none)
        have hm1 : missing env (H.put cd.key (.cls c skip' none)) ≤ n := by
          have := missing_put hcd hn (.cls c skip' none)
          omega
        have h2 := getFields_keeps hk ih cd.kind cd.hints _ (hR c hc cd hcd (by simpa using hcus)) hm1 h1.inv
        revert h2
        rcases getFields env (buildCls env skip' n) cd.kind cd.hints (H.put cd.key (.cls c skip' none)) with ⟨r, H'⟩
        cases r with
        | error e => exact fun h2 => h1.trans h2
        | ok fds => exact fun h2 => (h1.trans h2).trans (h2.inv.put_other hk hg hcd _)

theorem jsonToObject_keeps {env : Env} (hk : env.Ok) {skip skip' : Bool} {G R : Nat → Prop} (hG : GoodClasses env G)
    (hR : ClosedClasses env R) (hs : ∀ c, R c → G c → skip' = skip) {t : Ty} (hw : t.Within R) (j : Json) {H : Heap}
    (hc : Clean env skip G H) : Clean env skip G (jsonToObject env skip' t j H).2 := by
  have h := getWith_keeps hk (buildCls_keeps hk hG hR hs env.classes.length) t H hw (missing_le env H) hc
  unfold jsonToObject getDeser
  revert h
  rcases getWith env (buildCls env skip' env.classes.length) t H with ⟨r, H'⟩
  cases r <;> exact fun h => h.inv

/-! ### Reachability -/

mutual
theorem within_iff {R : Nat → Prop} : ∀ {t : Ty}, t.Within R ↔ ∀ c, Mentions t c → R c
  | .list t => ⟨fun h c hm => by cases hm with | list hm => exact within_iff (t := t).1 h c hm,
      fun h => within_iff (t := t).2 fun c hm => h c (.list hm)⟩
  | .dict k t => ⟨fun h c hm => by cases hm with | dict hm => exact within_iff (t := t).1 h c hm,
      fun h => within_iff (t := t).2 fun c hm => h c (.dict hm)⟩
  | .set t => ⟨fun h c hm => by cases hm with | set hm => exact within_iff (t := t).1 h c hm,
      fun h => within_iff (t := t).2 fun c hm => h c (.set hm)⟩
  | .annotated t ms => ⟨fun h c hm => by cases hm with | annotated hm => exact within_iff (t := t).1 h c hm,
      fun h => within_iff (t := t).2 fun c hm => h c (.annotated hm)⟩
  | .tuple ts => ⟨fun h c hm => by cases hm with | tuple h1 h2 => exact withinL_iff'.1 h c _ h1 h2,
      fun h => withinL_iff' (ts := ts).2 fun c t ht hm => h c (.tuple ht hm)⟩
  | .union ts => ⟨fun h c hm => by cases hm with | union h1 h2 => exact withinL_iff'.1 h c _ h1 h2,
      fun h => withinL_iff' (ts := ts).2 fun c t ht hm => h c (.union ht hm)⟩
  | .cls c => ⟨fun h c' hm => by cases hm; exact h, fun h => h c .cls⟩
  | .none | .bool | .int | .float | .str | .bytes | .datetime | .date | .time | .timedelta | .uuid | .ipv4 | .ipv6
  | .bareList | .bareDict | .bareSet | .bareTuple | .literal _ | .enum _ =>
    ⟨(fun _ c hm => nomatch hm), fun _ => trivial⟩
theorem withinL_iff' {R : Nat → Prop} : ∀ {ts : List Ty}, Ty.WithinL R ts ↔ ∀ c, ∀ t ∈ ts, Mentions t c → R c
  | [] => ⟨(fun _ c t ht => nomatch ht), fun _ => trivial⟩
  | t :: ts => by
    have ih1 := within_iff (R := R) (t := t)
    have ih2 := withinL_iff' (R := R) (ts := ts)
    simp only [Ty.WithinL, ih1, ih2, List.mem_cons]
    constructor
    · rintro ⟨h1, h2⟩ c t' (rfl | ht) hm
      · exact h1 c hm
      · exact h2 c t' ht hm
    · intro h
      exact ⟨fun c hm => h c t (.inl rfl) hm, fun c t' ht hm => h c t' (.inr ht) hm⟩
end

theorem mentions_unwrapOpt {t : Ty} {c : Nat} (h : Mentions t.unwrapOpt c) : Mentions t c := by
  cases t with
  | union ts =>
    simp only [Ty.unwrapOpt] at h
    have hmem : ∀ t, t ∈ ts.filter (fun t => !t.isNone) → t ∈ ts := fun t ht => (List.mem_filter.1 ht).1
    revert h hmem
    generalize ts.filter (fun t => !t.isNone) = us
    intro h hmem
    split at h
    · exact .union (hmem _ (by simp)) h
    · cases h with
      | union h1 h2 => exact .union (hmem _ h1) h2
  | _ => exact h

theorem mentions_fieldTy {kind : ClassKind} {f : FieldDef} {c : Nat} (h : Mentions (fieldTy kind f) c) : Mentions f.ty c := by
  have hr : Mentions f.ty.required c → Mentions f.ty c := by
    intro h
    unfold Ty.required at h
    split at h
    · revert h
      cases f.ty with
      | annotated t ms =>
        intro h
        cases h with
        | annotated h => exact .annotated (mentions_unwrapOpt h)
      | _ => intro h; exact mentions_unwrapOpt h
    · exact h
  unfold fieldTy at h
  split at h
  · exact h
  · exact hr h

theorem reaches_closed (env : Env) (t : Ty) : ClosedClasses env (Reaches env t) := by
  intro c hc cd hcd hcus f hf
  rw [within_iff]
  intro c' hm
  exact .field hc hcd hcus hf (mentions_fieldTy hm)

theorem reaches_within (env : Env) (t : Ty) : t.Within (Reaches env t) := within_iff.2 fun _ hm => .here hm

theorem mapRes_total {f : α → Res β} {xs : List α} (h : ∀ x ∈ xs, ∃ y, f x = .ok y) : ∃ ys, mapRes f xs = .ok ys := by
  induction xs with
  | nil => exact ⟨[], rfl⟩
  | cons x xs ih =>
    obtain ⟨y, hy⟩ := h x (by simp)
    obtain ⟨ys, hys⟩ := ih (fun z hz => h z (by simp [hz]))
    exact ⟨y :: ys, by simp [mapRes, hy, hys]⟩

theorem reaches_good {env : Env} {t : Ty} (h : ∀ c, Reaches env t c → Buildable env c) : GoodClasses env (Reaches env t) := by
  intro c hc
  obtain ⟨cd, hcd, hs⟩ := h c hc
  refine ⟨cd, hcd, fun hcus => ⟨?_, reaches_closed env t c hc cd hcd hcus⟩⟩
  refine mapRes_total ?_
  intro f hf
  obtain ⟨d, hd⟩ := hs hcus f hf
  exact ⟨_, by unfold compileField; rw [hd]⟩

/-! ### Entries are never replaced -/

/-- A builder that, called for a class without entry, leaves existing entries alone. -/
def Frame (bld : Builder) : Prop :=
  ∀ c cd (H : Heap) k e, H cd.key = none → H k = some e → (bld c cd H).2 k = some e

section
variable {env : Env} {bld : Builder} (k : TKey) (e : Entry)

theorem getCls_frame (hb : Frame bld) {c : Nat} {H : Heap} (h : H k = some e) : (getCls env bld c H).2 k = some e := by
  unfold getCls
  cases hcd : env.classes[c]? with
  | none => exact h
  | some cd =>
    simp only
    cases he : H cd.key with
    | some e => exact h
    | none =>
      have := hb c cd H k e he h
      simp only
      revert this
      rcases bld c cd H with ⟨r, H'⟩
      cases r <;> exact id

theorem getEnum_frame {n : Nat} {H : Heap} (h : H k = some e) : (getEnum env n H).2 k = some e := by
  unfold getEnum
  cases hed : env.enums[n]? with
  | none => exact h
  | some ed =>
    simp only
    cases he : H ed.key with
    | some e => exact h
    | none =>
      have : k ≠ ed.key := by rintro rfl; rw [h] at he; cases he
      simp only [Heap.put_ne H _ this, h]

theorem getMember_frame (hb : Frame bld) {t : Ty} {H : Heap} (h : H k = some e) : (getMember env bld t H).2 k = some e := by
  unfold getMember
  split
  · exact getCls_frame k e hb h
  · exact getEnum_frame k e h
  · exact h

theorem buildTagsC_frame (hb : Frame bld) (items : List (Str × Lit × Ty)) (table : List (Str × Lit × TKey)) (H : Heap)
    (h : H k = some e) : (buildTagsC env bld table items H).2 k = some e := by
  induction items generalizing table H with
  | nil => exact h
  | cons x r ih =>
    obtain ⟨p, l, t⟩ := x
    simp only [buildTagsC]
    split
    · exact h
    · have h := getMember_frame (env := env) k e hb (t := t) h
      revert h
      rcases getMember env bld t H with ⟨r', H'⟩
      cases r' with
      | error e => exact id
      | ok k => exact fun h => ih _ H' h

theorem getLit_frame (ls : List Lit) (H : Heap) (h : H k = some e) : (getLit env ls H).2 k = some e := by
  unfold getLit
  split
  · exact h
  · split
    · split
      · rename_i n m _
        have h := getEnum_frame (env := env) k e (n := n) h
        revert h; rcases getEnum env n H with ⟨r, H'⟩; cases r <;> exact id
      · split <;> exact h
    · exact h

mutual
theorem getWith_frame (hb : Frame bld) : ∀ (t : Ty) (H : Heap), H k = some e → (getWith env bld t H).2 k = some e
  | .list t, H, h => by
    have h := getWith_frame hb t H h
    simp only [getWith]
    revert h; rcases getWith env bld t H with ⟨r, H'⟩; cases r <;> exact id
  | .dict kt t, H, h0 => by
    have h := getWith_frame hb t H h0
    simp only [getWith]
    cases checkKeyTy env kt with
    | error e => exact h0
    | ok _ => revert h; rcases getWith env bld t H with ⟨r, H'⟩; cases r <;> exact id
  | .set t, H, h => by
    have h := getWith_frame hb t H h
    simp only [getWith]
    revert h; rcases getWith env bld t H with ⟨r, H'⟩; cases r <;> exact id
  | .tuple ts, H, h => by
    have h := getWithL_frame hb ts H h
    simp only [getWith]
    revert h; rcases getWithL env bld ts H with ⟨r, H'⟩; cases r <;> exact id
  | .union ts, H, h => by
    simp only [getWith]
    split
    · have h := getWithL_frame hb ts H h
      revert h; rcases getWithL env bld ts H with ⟨r, H'⟩; cases r <;> exact id
    · have h := buildTagsC_frame (env := env) k e hb (tagTyItems env ts) [] H h
      revert h; rcases buildTagsC env bld [] (tagTyItems env ts) H with ⟨r, H'⟩; cases r <;> exact id
  | .literal ls, H, h => by
    simp only [getWith]
    exact getLit_frame k e ls H h
  | .annotated t _, H, h => by
    simp only [getWith]
    exact getWith_frame hb t H h
  | .enum n, H, h => by
    have h := getEnum_frame (env := env) k e (n := n) h
    simp only [getWith]
    revert h; rcases getEnum env n H with ⟨r, H'⟩; cases r <;> exact id
  | .cls c, H, h => by
    have h := getCls_frame (env := env) k e hb (c := c) h
    simp only [getWith]
    revert h; rcases getCls env bld c H with ⟨r, H'⟩; cases r <;> exact id
  | .none, H, h | .bool, H, h | .int, H, h | .float, H, h | .str, H, h | .bytes, H, h | .datetime, H, h | .date, H, h
  | .time, H, h | .timedelta, H, h | .uuid, H, h | .ipv4, H, h | .ipv6, H, h
  | .bareList, H, h | .bareDict, H, h | .bareSet, H, h | .bareTuple, H, h => by
    simp only [getWith]; exact h
theorem getWithL_frame (hb : Frame bld) : ∀ (ts : List Ty) (H : Heap), H k = some e → (getWithL env bld ts H).2 k = some e
  | [], H, h => by simp only [getWithL]; exact h
  | t :: ts, H, h => by
    have h := getWith_frame hb t H h
    simp only [getWithL]
    revert h
    rcases getWith env bld t H with ⟨r, H'⟩
    cases r with
    | error e => exact id
    | ok d =>
      intro h
      have h' := getWithL_frame hb ts H' h
      simp only
      revert h'
      rcases getWithL env bld ts H' with ⟨r', H''⟩
      cases r' <;> exact id
end

theorem getFields_frame (hb : Frame bld) (kind : ClassKind) : ∀ (fs : List FieldDef) (H : Heap), H k = some e →
    (getFields env bld kind fs H).2 k = some e
  | [], H, h => by simp only [getFields]; exact h
  | f :: fs, H, h => by
    have h := getWith_frame (env := env) k e hb (fieldTy kind f) H h
    simp only [getFields]
    revert h
    rcases getWith env bld (fieldTy kind f) H with ⟨r, H'⟩
    cases r with
    | error e => exact id
    | ok d =>
      intro h
      have h' := getFields_frame hb kind fs H' h
      simp only
      revert h'
      rcases getFields env bld kind fs H' with ⟨r', H''⟩
      cases r' <;> exact id
end

theorem buildCls_frame (env : Env) (skip : Bool) : ∀ n, Frame (buildCls env skip n) := by
  have hput : ∀ {H : Heap} {k k' : TKey} {e e' : Entry}, H k' = none → H k = some e → H.put k' e' k = some e := by
    intro H k k' e e' hn h
    have : k ≠ k' := by rintro rfl; rw [h] at hn; cases hn
    rw [Heap.put_ne H _ this, h]
  intro n
  induction n with
  | zero =>
    intro c cd H k e hn h
    simp only [buildCls]
    split <;> exact hput hn h
  | succ n ih =>
    intro c cd H k e hn h
    have hne : k ≠ cd.key := by rintro rfl; rw [h] at hn; cases hn
    simp only [buildCls]
    split
    · exact hput hn h
    · have h' := getFields_frame (env := env) k e ih cd.kind cd.hints _ (hput (e' := .cls c skip none) hn h)
      revert h'
      rcases getFields env (buildCls env skip n) cd.kind cd.hints (H.put cd.key (.cls c skip none)) with ⟨r, H'⟩
      cases r with
      | error e => exact id
      | ok fds => intro h'; simp only; rw [Heap.put_ne H' _ hne]; exact h'

/-- A call never changes an existing entry. -/
theorem jsonToObject_frame (env : Env) (skip : Bool) (t : Ty) (j : Json) (H : Heap) (k : TKey) (e : Entry) (h : H k = some e) :
    (jsonToObject env skip t j H).2 k = some e := by
  have h := getWith_frame (env := env) k e (buildCls_frame env skip env.classes.length) t H h
  unfold jsonToObject getDeser
  revert h
  rcases getWith env (buildCls env skip env.classes.length) t H with ⟨r, H'⟩
  cases r <;> exact id

theorem history_frame (env : Env) (calls : List Call) (H : Heap) (k : TKey) (e : Entry) (h : H k = some e) :
    history env calls H k = some e := by
  induction calls generalizing H with
  | nil => exact h
  | cons c cs ih => exact ih _ (jsonToObject_frame env _ _ _ H k e h)

/-! ### The bound on the nesting of classes is never reached -/

theorem missing_frame {env : Env} {H H' : Heap} (h : ∀ k e, H k = some e → H' k = some e) : missing env H' ≤ missing env H := by
  refine missing_mono ?_
  intro k hd
  obtain ⟨e, he⟩ := Option.ne_none_iff_exists'.1 hd
  simp [Heap.Dom, h k e he]

/-- Builders that do the same as long as at most `n` classes are without entry. -/
def SameBuild (env : Env) (n : Nat) (b b' : Builder) : Prop :=
  ∀ c cd H, env.classes[c]? = some cd → H cd.key = none → missing env H ≤ n → b c cd H = b' c cd H

section
variable {env : Env} {n : Nat} {b b' : Builder}

theorem getCls_same (hs : SameBuild env n b b') {c : Nat} {H : Heap} (hm : missing env H ≤ n) :
    getCls env b c H = getCls env b' c H := by
  unfold getCls
  cases hcd : env.classes[c]? with
  | none => rfl
  | some cd =>
    simp only
    cases he : H cd.key with
    | some e => rfl
    | none => rw [hs c cd H hcd he hm]

theorem getMember_same (hs : SameBuild env n b b') {t : Ty} {H : Heap} (hm : missing env H ≤ n) :
    getMember env b t H = getMember env b' t H := by
  unfold getMember
  split
  · exact getCls_same hs hm
  · rfl
  · rfl

theorem buildTagsC_same (hf : Frame b) (hs : SameBuild env n b b') (items : List (Str × Lit × Ty))
    (table : List (Str × Lit × TKey)) (H : Heap) (hm : missing env H ≤ n) :
    buildTagsC env b table items H = buildTagsC env b' table items H := by
  induction items generalizing table H with
  | nil => rfl
  | cons x r ih =>
    obtain ⟨p, l, t⟩ := x
    simp only [buildTagsC, ← getMember_same hs hm]
    have hfr : ∀ k e, H k = some e → (getMember env b t H).2 k = some e := fun k e h => getMember_frame k e hf h
    revert hfr
    rcases getMember env b t H with ⟨r', H'⟩
    intro hfr
    cases r' with
    | error e => rfl
    | ok k => simp only [ih _ H' (Nat.le_trans (missing_frame hfr) hm)]

mutual
theorem getWith_same (hf : Frame b) (hs : SameBuild env n b b') : ∀ (t : Ty) (H : Heap), missing env H ≤ n →
    getWith env b t H = getWith env b' t H
  | .list t, H, hm => by simp only [getWith, getWith_same hf hs t H hm]
  | .dict k t, H, hm => by simp only [getWith, getWith_same hf hs t H hm]
  | .set t, H, hm => by simp only [getWith, getWith_same hf hs t H hm]
  | .tuple ts, H, hm => by simp only [getWith, getWithL_same hf hs ts H hm]
  | .union ts, H, hm => by
    simp only [getWith, getWithL_same hf hs ts H hm, buildTagsC_same hf hs _ _ H hm]
  | .literal ls, H, hm => by simp only [getWith]
  | .annotated t _, H, hm => by simp only [getWith, getWith_same hf hs t H hm]
  | .enum n, H, hm => by simp only [getWith]
  | .cls c, H, hm => by simp only [getWith, getCls_same hs hm]
  | .none, _, _ | .bool, _, _ | .int, _, _ | .float, _, _ | .str, _, _ | .bytes, _, _ | .datetime, _, _ | .date, _, _
  | .time, _, _ | .timedelta, _, _ | .uuid, _, _ | .ipv4, _, _ | .ipv6, _, _
  | .bareList, _, _ | .bareDict, _, _ | .bareSet, _, _ | .bareTuple, _, _ => by simp only [getWith]
theorem getWithL_same (hf : Frame b) (hs : SameBuild env n b b') : ∀ (ts : List Ty) (H : Heap), missing env H ≤ n →
    getWithL env b ts H = getWithL env b' ts H
  | [], H, hm => by simp only [getWithL]
  | t :: ts, H, hm => by
    simp only [getWithL, ← getWith_same hf hs t H hm]
    have hfr : ∀ k e, H k = some e → (getWith env b t H).2 k = some e := fun k e h => getWith_frame k e hf t H h
    revert hfr
    rcases getWith env b t H with ⟨r, H'⟩
    intro hfr
    cases r with
    | error e => rfl
    | ok d => simp only [getWithL_same hf hs ts H' (Nat.le_trans (missing_frame hfr) hm)]
end

theorem getFields_same (hf : Frame b) (hs : SameBuild env n b b') (kind : ClassKind) : ∀ (fs : List FieldDef) (H : Heap),
    missing env H ≤ n → getFields env b kind fs H = getFields env b' kind fs H
  | [], H, hm => by simp only [getFields]
  | f :: fs, H, hm => by
    simp only [getFields, ← getWith_same hf hs (fieldTy kind f) H hm]
    have hfr : ∀ k e, H k = some e → (getWith env b (fieldTy kind f) H).2 k = some e :=
      fun k e h => getWith_frame k e hf _ H h
    revert hfr
    rcases getWith env b (fieldTy kind f) H with ⟨r, H'⟩
    intro hfr
    cases r with
    | error e => rfl
    | ok d => simp only [getFields_same hf hs kind fs H' (Nat.le_trans (missing_frame hfr) hm)]
end

theorem buildCls_same (env : Env) (skip : Bool) : ∀ n m, n ≤ m → SameBuild env n (buildCls env skip n) (buildCls env skip m) := by
  intro n
  induction n with
  | zero =>
    intro m _ c cd H hcd hn hm
    exact absurd (missing_put hcd hn (.enum 0)) (by omega)
  | succ n ih =>
    intro m hle c cd H hcd hn hm
    cases m with
    | zero => omega
    | succ m =>
      have hm1 : missing env (H.put cd.key (.cls c skip none)) ≤ n := by
        have := missing_put hcd hn (.cls c skip none)
        omega
      simp only [buildCls, getFields_same (buildCls_frame env skip n) (ih m (by omega)) cd.kind cd.hints _ hm1]

/-- A larger bound makes no difference. -/
theorem getDeser_fuel (env : Env) (skip : Bool) (t : Ty) (H : Heap) (m : Nat) (h : env.classes.length ≤ m) :
    getWith env (buildCls env skip m) t H = getDeser env skip t H :=
  (getWith_same (buildCls_frame env skip _) (buildCls_same env skip _ m h) t H (missing_le env H)).symm

end Verif
