import Verif.Model.Threads
import Verif.Lemmas.Cache
/-!
# Lemmas about concurrent use of the cache
-/
namespace Verif

/-! ### Renaming of references -/

mutual
/-- The deserializer with its references renamed. -/
def Deser.rename (φ : TKey → TKey) : Deser → Deser
  | .list d => .list (d.rename φ)
  | .dict k d => .dict k (d.rename φ)
  | .set d => .set (d.rename φ)
  | .tuple ds => .tuple (Deser.renameL φ ds)
  | .union ds => .union (Deser.renameL φ ds)
  | .tagged props table => .tagged props (table.map (fun e => (e.1, e.2.1, φ e.2.2)))
  | .literal vals d => .literal vals (d.rename φ)
  | .ref k => .ref (φ k)
  | .none => .none | .bool => .bool | .int => .int | .float => .float | .str => .str | .bytes => .bytes
  | .datetime => .datetime | .date => .date | .time => .time | .timedelta => .timedelta | .uuid => .uuid
  | .ipv4 => .ipv4 | .ipv6 => .ipv6
def Deser.renameL (φ : TKey → TKey) : List Deser → List Deser
  | [] => []
  | d :: ds => d.rename φ :: Deser.renameL φ ds
end

theorem Deser.renameL_eq (φ : TKey → TKey) (ds : List Deser) : Deser.renameL φ ds = ds.map (Deser.rename φ) := by
  induction ds with
  | nil => rfl
  | cons d ds ih => simp [Deser.renameL, ih]

mutual
theorem Deser.rename_congr {φ ψ : TKey → TKey} {D : TKey → Prop} (h : ∀ k, D k → φ k = ψ k) :
    ∀ d : Deser, d.Refs D → d.rename φ = d.rename ψ
  | .list d, hd => by simp only [Deser.rename]; rw [Deser.rename_congr h d hd]
  | .dict _ d, hd => by simp only [Deser.rename]; rw [Deser.rename_congr h d hd]
  | .set d, hd => by simp only [Deser.rename]; rw [Deser.rename_congr h d hd]
  | .tuple ds, hd => by simp only [Deser.rename]; rw [Deser.renameL_congr h ds hd]
  | .union ds, hd => by simp only [Deser.rename]; rw [Deser.renameL_congr h ds hd]
  | .tagged _ table, hd => by
    simp only [Deser.rename, Deser.tagged.injEq, true_and]
    exact List.map_congr_left fun e he => by rw [h _ (hd e he)]
  | .literal _ d, hd => by simp only [Deser.rename]; rw [Deser.rename_congr h d hd]
  | .ref k, hd => by simp only [Deser.rename]; rw [h k hd]
  | .none, _ | .bool, _ | .int, _ | .float, _ | .str, _ | .bytes, _ | .datetime, _ | .date, _ | .time, _
  | .timedelta, _ | .uuid, _ | .ipv4, _ | .ipv6, _ => rfl
theorem Deser.renameL_congr {φ ψ : TKey → TKey} {D : TKey → Prop} (h : ∀ k, D k → φ k = ψ k) :
    ∀ ds : List Deser, Deser.RefsL D ds → Deser.renameL φ ds = Deser.renameL ψ ds
  | [], _ => rfl
  | d :: ds, hd => by
    simp only [Deser.renameL]
    rw [Deser.rename_congr h d hd.1, Deser.renameL_congr h ds hd.2]
end

/-- A field deserializer with its references renamed. -/
def FieldD.rename (φ : TKey → TKey) (fd : FieldD) : FieldD := { fd with parser := fd.parser.rename φ }

/-! ### Simulation of `parse` -/

/-- The same outcome, or `AttributeError` because of a half-built deserializer. -/
def Sim (half : Prop) (r r' : Res α) : Prop := r = r' ∨ (r = .error .attribute ∧ half)

theorem Sim.refl {half : Prop} (r : Res α) : Sim half r r := .inl rfl

/-- Two outcomes that simulate. -/
@[elab_as_elim]
theorem Sim.elim {half : Prop} {motive : Res α → Res α → Prop} {r r' : Res α} (h : Sim half r r')
    (ok : ∀ v, motive (.ok v) (.ok v)) (error : ∀ e, motive (.error e) (.error e))
    (half : half → ∀ r, motive (.error .attribute) r) : motive r r' := by
  rcases h with rfl | ⟨rfl, hh⟩
  · cases r with
    | ok v => exact ok v
    | error e => exact error e
  · exact half hh _

section
variable {env : Env} {half : Prop} {D : TKey → Prop} {φ : TKey → TKey}

/-- Functions on deserializers of which the first runs on objects and the second on canonical entries. -/
def SimOn (half : Prop) (D : TKey → Prop) (φ : TKey → TKey) (f g : Deser → Res Val) : Prop :=
  ∀ d : Deser, d.Refs D → Sim half (f d) (g (d.rename φ))

/-- Children that simulate. -/
inductive KidsSim (half : Prop) (D : TKey → Prop) (φ : TKey → TKey) : Kids → Kids → Prop
  | none : KidsSim half D φ .none .none
  | arr {fs gs} : All2 (SimOn half D φ) fs gs → KidsSim half D φ (.arr fs) (.arr gs)
  | obj {fs gs} : All2 (fun f g => f.1 = g.1 ∧ f.2.1 = g.2.1 ∧ SimOn half D φ f.2.2 g.2.2) fs gs →
      KidsSim half D φ (.obj fs) (.obj gs)

/-- An object and the canonical entry of its class. -/
inductive EntrySim (half : Prop) (D : TKey → Prop) (φ : TKey → TKey) : Entry → Entry → Prop
  | enum {e} : EntrySim half D φ (.enum e) (.enum e)
  | custom {c} : EntrySim half D φ (.custom c) (.custom c)
  | half {c s fds} : half → EntrySim half D φ (.cls c s none) (.cls c s fds)
  | full {c s fds} : (∀ fd ∈ fds, fd.parser.Refs D) →
      EntrySim half D φ (.cls c s (some fds)) (.cls c s (some (fds.map (FieldD.rename φ))))

/-- All objects in `D` simulate canonical entries. -/
def HeapSim (half : Prop) (D : TKey → Prop) (φ : TKey → TKey) (H H0 : Heap) : Prop :=
  ∀ o, D o → ∃ e e0, H o = some e ∧ H0 (φ o) = some e0 ∧ EntrySim half D φ e e0

theorem mapRes_sim {f : α → Res γ} {g : β → Res γ} {as : List α} {bs : List β}
    (h : All2 (fun a b => Sim half (f a) (g b)) as bs) : Sim half (mapRes f as) (mapRes g bs) := by
  induction h with
  | nil => exact .refl _
  | cons h _ ih =>
    simp only [mapRes]
    exact h.elim (fun v => ih.elim (fun vs => .refl _) (fun e => .refl _) (fun hh _ => .inr ⟨rfl, hh⟩))
      (fun e => .refl _) (fun hh _ => .inr ⟨rfl, hh⟩)

theorem parsePairs_sim {k : KeyTy} {d : Deser} (hd : d.Refs D)
    {fs gs : List (Str × Json × (Deser → Res Val))}
    (h : All2 (fun f g => f.1 = g.1 ∧ f.2.1 = g.2.1 ∧ SimOn half D φ f.2.2 g.2.2) fs gs) (acc : List (Key × Val)) :
    Sim half (parsePairs env k d acc fs) (parsePairs env k (d.rename φ) acc gs) := by
  induction h generalizing acc with
  | nil => exact .refl _
  | @cons a b as bs h _ ih =>
    obtain ⟨s, j, f⟩ := a; obtain ⟨s', j', g⟩ := b
    obtain ⟨h1, h2, h3⟩ := h
    simp only at h1 h2 h3
    subst h1
    simp only [parsePairs]
    cases parseKey env k s with
    | error e => exact .refl _
    | ok key => exact (h3 d hd).elim (fun v => ih _) (fun e => .refl _) (fun hh _ => .inr ⟨rfl, hh⟩)

theorem parseSetItems_sim {d : Deser} (hd : d.Refs D)
    {fs gs : List (Deser → Res Val)} (h : All2 (SimOn half D φ) fs gs) (acc : List Val) :
    Sim half (parseSetItems env d acc fs) (parseSetItems env (d.rename φ) acc gs) := by
  induction h generalizing acc with
  | nil => exact .refl _
  | cons h _ ih =>
    simp only [parseSetItems]
    refine (h d hd).elim (fun v => ?_) (fun e => .refl _) (fun hh _ => .inr ⟨rfl, hh⟩)
    simp only
    cases setAdd env acc v with
    | error e => exact .refl _
    | ok acc' => exact ih _

theorem lookupKey_sim {fs gs : List (Str × Json × (Deser → Res Val))}
    (h : All2 (fun f g => f.1 = g.1 ∧ f.2.1 = g.2.1 ∧ SimOn half D φ f.2.2 g.2.2) fs gs) (k : Str) :
    (lookupKey k fs = none ∧ lookupKey k gs = none) ∨
      ∃ j f g, lookupKey k fs = some (j, f) ∧ lookupKey k gs = some (j, g) ∧ SimOn half D φ f g := by
  induction h with
  | nil => exact .inl ⟨rfl, rfl⟩
  | @cons a b as bs h _ ih =>
    obtain ⟨s, j, f⟩ := a; obtain ⟨s', j', g⟩ := b
    obtain ⟨h1, h2, h3⟩ := h
    simp only at h1 h2 h3
    subst h1; subst h2
    by_cases he : s = k
    · exact .inr ⟨j, f, g, by simp [lookupKey, he], by simp [lookupKey, he], h3⟩
    · simpa [lookupKey, he] using ih

theorem parseField_sim {fs gs : List (Str × Json × (Deser → Res Val))}
    (h : All2 (fun f g => f.1 = g.1 ∧ f.2.1 = g.2.1 ∧ SimOn half D φ f.2.2 g.2.2) fs gs) {fd : FieldD} (hd : fd.parser.Refs D) :
    Sim half (parseField fs fd) (parseField gs (fd.rename φ)) := by
  unfold parseField FieldD.rename
  simp only
  rcases lookupKey_sim h fd.prop with ⟨h1, h2⟩ | ⟨j, f, g, h1, h2, h3⟩
  · rw [h1, h2]; exact .refl _
  · rw [h1, h2]
    have := h3 _ hd
    cases fd.mode <;> simp only <;> cases j.isNull <;> first | exact this | exact .refl _

theorem all_keys_sim {fs gs : List (Str × Json × (Deser → Res Val))}
    (h : All2 (fun f g => f.1 = g.1 ∧ f.2.1 = g.2.1 ∧ SimOn half D φ f.2.2 g.2.2) fs gs) (p : Str → Bool) :
    fs.all (fun x => p x.1) = gs.all (fun x => p x.1) := by
  induction h with
  | nil => rfl
  | cons h _ ih => simp [h.1, ih]

theorem parseFields_sim {fs gs : List (Str × Json × (Deser → Res Val))}
    (h : All2 (fun f g => f.1 = g.1 ∧ f.2.1 = g.2.1 ∧ SimOn half D φ f.2.2 g.2.2) fs gs) (fds : List FieldD)
    (hd : ∀ fd ∈ fds, fd.parser.Refs D) : Sim half (parseFields fs fds) (parseFields gs (fds.map (FieldD.rename φ))) := by
  unfold parseFields
  refine mapRes_sim ?_
  induction fds with
  | nil => exact .nil
  | cons fd fds ih =>
    refine .cons ?_ (ih fun x hx => hd x (by simp [hx]))
    exact (parseField_sim h (hd fd (by simp))).elim (fun v => .refl _) (fun e => .refl _) (fun hh _ => .inr ⟨rfl, hh⟩)

theorem parseRef_sim {H H0 : Heap} (hh : HeapSim half D φ H H0) {kids kids' : Kids}
    (h : KidsSim half D φ kids kids') (raw : Json) {o : TKey} (ho : D o) :
    Sim half (parseRef env H raw kids o) (parseRef env H0 raw kids' (φ o)) := by
  obtain ⟨e, e0, he, he0, hs⟩ := hh o ho
  unfold parseRef
  rw [he, he0]
  cases hs with
  | enum => exact .refl _
  | custom => exact .refl _
  | half hf =>
    cases h with
    | none => exact .refl _
    | arr _ => exact .refl _
    | obj _ => exact .inr ⟨rfl, hf⟩
  | @full c s fds hd =>
    cases h with
    | none => exact .refl _
    | arr _ => exact .refl _
    | @obj fs gs h =>
      simp only [parseCls]
      refine (parseFields_sim h fds hd).elim (fun vs => ?_) (fun e => .refl _) (fun hh _ => .inr ⟨rfl, hh⟩)
      have : (fun s => (fds.map (FieldD.rename φ)).any (fun fd => decide (fd.prop = s))) =
          (fun s => fds.any (fun fd => decide (fd.prop = s))) := by
        funext s
        rw [List.any_map]
        rfl
      have h2 : gs.all (fun p => (fds.map (FieldD.rename φ)).any (fun fd => decide (fd.prop = p.1))) =
          fs.all (fun p => fds.any (fun fd => decide (fd.prop = p.1))) := by
        rw [all_keys_sim h (fun s => fds.any (fun fd => decide (fd.prop = s)))]
        simp only [funext_iff] at this
        simp only [this]
      rw [h2]
      exact .refl _

theorem tagLookup_rename (p : Str) (j : Json) (table : List (Str × Lit × TKey)) :
    tagLookup p j (table.map (fun e => (e.1, e.2.1, φ e.2.2))) = (tagLookup p j table).map φ := by
  induction table with
  | nil => rfl
  | cons e r ih =>
    obtain ⟨q, l, k⟩ := e
    simp only [List.map_cons, tagLookup, ih]
    split <;> rfl

theorem taggedLoop_sim {run run' : TKey → Res Val} {kvs : List (Str × Json)} {table : List (Str × Lit × TKey)}
    (h : ∀ e ∈ table, Sim half (run e.2.2) (run' (φ e.2.2))) (props : List Str) :
    Sim half (taggedLoop run kvs table props) (taggedLoop run' kvs (table.map (fun e => (e.1, e.2.1, φ e.2.2))) props) := by
  induction props with
  | nil => exact .refl _
  | cons p ps ih =>
    simp only [taggedLoop, tagLookup_rename]
    cases lookupKey p kvs with
    | none => exact ih
    | some j =>
      simp only
      split
      · exact ih
      · split
        · exact .refl _
        · cases hk : tagLookup p j table with
          | none => exact .refl _
          | some k =>
            obtain ⟨e, he, rfl⟩ := tagLookup_mem hk
            exact h e he

mutual
theorem parseD_sim {H H0 : Heap} (hh : HeapSim half D φ H H0) (raw : Json) {kids kids' : Kids}
    (h : KidsSim half D φ kids kids') : ∀ d : Deser, d.Refs D →
      Sim half (parseD env H raw kids d) (parseD env H0 raw kids' (d.rename φ))
  | .list d, hd => by
    simp only [parseD, Deser.rename]
    cases h with
    | none => exact .refl _
    | arr h =>
      simp only [parseListK]
      exact (mapRes_sim (h.imp fun f g hfg => hfg d hd)).elim (fun v => .refl _) (fun e => .refl _) (fun hh _ => .inr ⟨rfl, hh⟩)
    | obj _ => exact .refl _
  | .dict k d, hd => by
    simp only [parseD, Deser.rename]
    cases h with
    | none => exact .refl _
    | arr h => exact .refl _
    | obj h =>
      simp only [parseDictK]
      exact (parsePairs_sim (D := D) (d := d) hd h []).elim (fun v => .refl _) (fun e => .refl _) (fun hh _ => .inr ⟨rfl, hh⟩)
  | .set d, hd => by
    simp only [parseD, Deser.rename]
    cases h with
    | none => exact .refl _
    | arr h =>
      simp only [parseSetK]
      exact (parseSetItems_sim (D := D) (d := d) hd h []).elim (fun v => .refl _) (fun e => .refl _) (fun hh _ => .inr ⟨rfl, hh⟩)
    | obj h => exact .refl _
  | .tuple ds, hd => by
    simp only [parseD, Deser.rename, Deser.renameL_eq]
    cases h with
    | none => exact .refl _
    | obj h => exact .refl _
    | @arr fs gs h =>
      simp only [parseTupleK, h.length, List.length_map]
      split
      · exact .refl _
      · have : All2 (fun (a b : (Deser → Res Val) × Deser) => Sim half (a.1 a.2) (b.1 b.2)) (fs.zip ds)
            (gs.zip (ds.map (Deser.rename φ))) := by
          have hd' := Deser.refsL_iff.1 hd
          clear hd
          rename_i hlen
          clear hlen
          induction h generalizing ds with
          | nil => exact .nil
          | cons h _ ih =>
            cases ds with
            | nil => exact .nil
            | cons d ds => exact .cons (h d (hd' d (by simp))) (ih ds (fun x hx => hd' x (by simp [hx])))
        exact (mapRes_sim this).elim (fun v => .refl _) (fun e => .refl _) (fun hh _ => .inr ⟨rfl, hh⟩)
  | .union ds, hd => by
    simp only [parseD, Deser.rename]
    exact parseU_sim hh raw h ds hd
  | .tagged props table, hd => by
    simp only [parseD, Deser.rename]
    cases raw with
    | obj kvs =>
      simp only [parseTaggedK]
      exact taggedLoop_sim (fun e he => parseRef_sim hh h _ (hd e he)) props
    | _ => exact .refl _
  | .literal vals d, hd => by
    simp only [parseD, Deser.rename]
    exact (parseD_sim hh raw h d hd).elim (fun v => .refl _) (fun e => .refl _) (fun hh _ => .inr ⟨rfl, hh⟩)
  | .ref k, hd => by
    simp only [parseD, Deser.rename]
    exact parseRef_sim hh h raw hd
  | .none, _ | .bool, _ | .int, _ | .float, _ | .str, _ | .bytes, _ | .datetime, _ | .date, _ | .time, _
  | .timedelta, _ | .uuid, _ | .ipv4, _ | .ipv6, _ => by simp only [parseD, Deser.rename]; exact .refl _
theorem parseU_sim {H H0 : Heap} (hh : HeapSim half D φ H H0) (raw : Json) {kids kids' : Kids}
    (h : KidsSim half D φ kids kids') : ∀ ds : List Deser, Deser.RefsL D ds →
      Sim half (parseU env H raw kids ds) (parseU env H0 raw kids' (Deser.renameL φ ds))
  | [], _ => by simp only [parseU, Deser.renameL]; exact .refl _
  | d :: ds, hd => by
    simp only [parseU, Deser.renameL]
    rcases parseD_sim hh raw h d hd.1 with h1 | ⟨h1, h2⟩
    · rw [h1]
      cases parseD env H0 raw kids' (d.rename φ) with
      | ok v => exact .refl _
      | error e =>
        simp only
        split
        · exact parseU_sim hh raw h ds hd.2
        · exact .refl _
    · rw [h1]
      exact .inr ⟨rfl, h2⟩
end

mutual
/-- Parsing with objects gives the canonical outcome, or `AttributeError` because of a half-built object. -/
theorem parse_sim {H H0 : Heap} (hh : HeapSim half D φ H H0) : ∀ (j : Json), SimOn half D φ (parse env H j) (parse env H0 j)
  | .arr xs => fun d hd => by
    simp only [parse]
    exact parseD_sim hh _ (.arr (parseArr_sim hh xs)) d hd
  | .obj kvs => fun d hd => by
    simp only [parse]
    exact parseD_sim hh _ (.obj (parseObj_sim hh kvs)) d hd
  | .null | .bool _ | .int _ | .float _ | .str _ => fun d hd => by
    simp only [parse]
    exact parseD_sim hh _ .none d hd
theorem parseArr_sim {H H0 : Heap} (hh : HeapSim half D φ H H0) :
    ∀ (xs : List Json), All2 (SimOn half D φ) (parseArr env H xs) (parseArr env H0 xs)
  | [] => .nil
  | x :: xs => by
    simp only [parseArr]
    exact .cons (parse_sim hh x) (parseArr_sim hh xs)
theorem parseObj_sim {H H0 : Heap} (hh : HeapSim half D φ H H0) :
    ∀ (kvs : List (Str × Json)), All2 (fun (f g : Str × Json × (Deser → Res Val)) => f.1 = g.1 ∧ f.2.1 = g.2.1 ∧ SimOn half D φ f.2.2 g.2.2)
      (parseObj env H kvs) (parseObj env H0 kvs)
  | [] => .nil
  | (k, x) :: r => by
    simp only [parseObj]
    exact .cons ⟨rfl, rfl, parse_sim hh x⟩ (parseObj_sim hh r)
end
end

/-! ### The shared data during concurrent creation -/

/-- The class or enumeration that an entry belongs to. -/
def Entry.keyIn (env : Env) : Entry → TKey
  | .enum e => (match env.enums[e]? with | some ed => ed.key | Option.none => ([], []))
  | .custom c => (match env.classes[c]? with | some cd => cd.key | Option.none => ([], []))
  | .cls c _ _ => (match env.classes[c]? with | some cd => cd.key | Option.none => ([], []))

/-- The entry without the part that `build` adds. -/
def Entry.ident : Entry → Entry
  | .cls c s _ => .cls c s Option.none
  | e => e

theorem Entry.keyIn_ident (env : Env) (e : Entry) : e.ident.keyIn env = e.keyIn env := by cases e <;> rfl

/-- The objects that exist. -/
def Shared.Has (S : Shared) (o : TKey) : Prop := S.store o ≠ Option.none

/-- The class or enumeration of an object. -/
def Shared.phi (env : Env) (S : Shared) (o : TKey) : TKey :=
  match S.store o with
  | some e => e.keyIn env
  | Option.none => o

/-- What no operation takes away. -/
structure Shared.Le (S S' : Shared) : Prop where
  store : ∀ o e, S.store o = some e → ∃ e', S'.store o = some e' ∧ e'.ident = e.ident
  cache : ∀ k, S.cache k ≠ Option.none → S'.cache k ≠ Option.none

theorem Shared.Le.refl (S : Shared) : S.Le S := ⟨fun _ e h => ⟨e, h, rfl⟩, fun _ h => h⟩

theorem Shared.Le.trans {S S' S'' : Shared} (h : S.Le S') (h' : S'.Le S'') : S.Le S'' := by
  refine ⟨fun o e he => ?_, fun k hk => h'.cache k (h.cache k hk)⟩
  obtain ⟨e', h1, h2⟩ := h.store o e he
  obtain ⟨e'', h3, h4⟩ := h'.store o e' h1
  exact ⟨e'', h3, h4.trans h2⟩

theorem Shared.Le.has {S S' : Shared} (h : S.Le S') (o : TKey) (ho : S.Has o) : S'.Has o := by
  obtain ⟨e, he⟩ := Option.ne_none_iff_exists'.1 ho
  obtain ⟨e', he', _⟩ := h.store o e he
  simp [Shared.Has, he']

theorem Shared.Le.phi {S S' : Shared} (h : S.Le S') (env : Env) (o : TKey) (ho : S.Has o) : S'.phi env o = S.phi env o := by
  obtain ⟨e, he⟩ := Option.ne_none_iff_exists'.1 ho
  obtain ⟨e', he', hi⟩ := h.store o e he
  simp only [Shared.phi, he, he']
  rw [← Entry.keyIn_ident, hi, Entry.keyIn_ident]

theorem Shared.Le.rename {S S' : Shared} (h : S.Le S') (env : Env) {d : Deser} (hd : d.Refs S.Has) :
    d.rename (S'.phi env) = d.rename (S.phi env) :=
  Deser.rename_congr (fun k hk => h.phi env k hk) d hd

theorem Shared.Le.renameL {S S' : Shared} (h : S.Le S') (env : Env) {ds : List Deser} (hd : Deser.RefsL S.Has ds) :
    Deser.renameL (S'.phi env) ds = Deser.renameL (S.phi env) ds :=
  Deser.renameL_congr (fun k hk => h.phi env k hk) ds hd

theorem Shared.Le.renameF {S S' : Shared} (h : S.Le S') (env : Env) {fds : List FieldD} (hd : ∀ fd ∈ fds, fd.parser.Refs S.Has) :
    fds.map (FieldD.rename (S'.phi env)) = fds.map (FieldD.rename (S.phi env)) := by
  refine List.map_congr_left fun fd hfd => ?_
  unfold FieldD.rename
  rw [h.rename env (hd fd hfd)]

/-- An object is that of a class or enumeration, and complete if `build` has finished. -/
def ObjOk (env : Env) (skip : Bool) (S : Shared) : Entry → Prop
  | .enum e => ∃ ed, env.enums[e]? = some ed
  | .custom c => ∃ cd, env.classes[c]? = some cd ∧ cd.custom = true
  | .cls c s f => s = skip ∧ ∃ cd, env.classes[c]? = some cd ∧ cd.custom = false ∧
      ∀ fds, f = some fds → (∀ fd ∈ fds, fd.parser.Refs S.Has) ∧ compileFields env cd = .ok (fds.map (FieldD.rename (S.phi env)))

theorem ObjOk.mono {env : Env} {skip : Bool} {S S' : Shared} (h : S.Le S') {e : Entry}
    (he : ObjOk env skip S e) : ObjOk env skip S' e := by
  cases e with
  | enum e => exact he
  | custom c => exact he
  | cls c s f =>
    obtain ⟨h1, cd, h3, h4, h5⟩ := he
    refine ⟨h1, cd, h3, h4, ?_⟩
    intro fds hf
    obtain ⟨h6, h7⟩ := h5 fds hf
    exact ⟨fun fd hfd => (h6 fd hfd).mono h.has, by rw [h.renameF env h6]; exact h7⟩

/-- What holds at every moment.  `warm` says that all classes have their deserializers from the beginning. -/
structure TInv (env : Env) (skip : Bool) (G : Nat → Prop) (warm : Prop) (S : Shared) : Prop where
  fresh : ∀ i, S.next ≤ i → S.store (objKey i) = Option.none
  objs : ∀ o e, S.store o = some e → ObjOk env skip S e
  cache : ∀ k o, S.cache k = some o → S.Has o ∧ S.phi env o = k
  cached : warm → ∀ c cd, G c → env.classes[c]? = some cd → S.cache cd.key ≠ Option.none
  full : warm → ∀ o c s, S.store o ≠ some (.cls c s Option.none)

theorem objKey_inj {i j : Nat} (h : objKey i = objKey j) : i = j := by
  have := congrArg (fun k : TKey => k.2.length) h
  simpa [objKey] using this

section
variable {env : Env} {skip : Bool} {G : Nat → Prop} {warm : Prop} {S : Shared}

theorem TInv.new_le (h : TInv env skip G warm S) (e : Entry) : S.Le (S.new e) := by
  refine ⟨fun o e' he => ⟨e', ?_, rfl⟩, fun k hk => hk⟩
  have : o ≠ objKey S.next := by
    rintro rfl
    rw [h.fresh _ (Nat.le_refl _)] at he
    cases he
  simp only [Shared.new]
  rw [Heap.put_ne _ _ this]
  exact he

theorem Shared.new_has (S : Shared) (e : Entry) : (S.new e).Has (objKey S.next) := by
  simp [Shared.Has, Shared.new, Heap.put]

theorem Shared.new_phi (S : Shared) (e : Entry) (env : Env) : (S.new e).phi env (objKey S.next) = e.keyIn env := by
  simp [Shared.phi, Shared.new, Heap.put]

theorem Shared.new_store (S : Shared) (e : Entry) : (S.new e).store (objKey S.next) = some e := by
  simp [Shared.new, Heap.put]

theorem TInv.new (h : TInv env skip G warm S) {e : Entry} (he : ObjOk env skip S e)
    (hw : warm → ∀ c s, e ≠ .cls c s Option.none) : TInv env skip G warm (S.new e) := by
  have hle := h.new_le e
  refine ⟨?_, ?_, ?_, ?_, ?_⟩
  · intro i hi
    have hi' : S.next + 1 ≤ i := hi
    have : objKey i ≠ objKey S.next := fun e => by have := objKey_inj e; omega
    simp only [Shared.new]
    rw [Heap.put_ne _ _ this]
    exact h.fresh i (by omega)
  · intro o e' ho
    refine ObjOk.mono hle ?_
    simp only [Shared.new] at ho
    by_cases hk : o = objKey S.next
    · subst hk; rw [Heap.put_self] at ho; cases ho; exact he
    · rw [Heap.put_ne _ _ hk] at ho; exact h.objs o e' ho
  · intro k o hc
    obtain ⟨h1, h2⟩ := h.cache k o hc
    exact ⟨hle.has o h1, by rw [hle.phi env o h1]; exact h2⟩
  · exact h.cached
  · intro w o c s ho
    simp only [Shared.new] at ho
    by_cases hk : o = objKey S.next
    · subst hk; rw [Heap.put_self] at ho; cases ho; exact hw w c s rfl
    · rw [Heap.put_ne _ _ hk] at ho; exact h.full w o c s ho

theorem Shared.put_le (S : Shared) (k o : TKey) : S.Le (S.put k o) := by
  refine ⟨fun o e he => ⟨e, he, rfl⟩, fun k' hk => ?_⟩
  simp only [Shared.put]
  split
  · simp
  · exact hk

theorem TInv.put (h : TInv env skip G warm S) {k o : TKey} (ho : S.Has o) (hp : S.phi env o = k) :
    TInv env skip G warm (S.put k o) := by
  refine ⟨h.fresh, h.objs, ?_, ?_, h.full⟩
  · intro k' o' hc
    simp only [Shared.put] at hc
    split at hc
    · rename_i hk
      cases hc
      exact ⟨ho, hp.trans hk.symm⟩
    · exact h.cache k' o' hc
  · intro w c cd hc hcd
    exact (S.put_le k o).cache _ (h.cached w c cd hc hcd)

theorem Shared.assign_le (S : Shared) (o : TKey) (fds : List FieldD) : S.Le (S.assign o fds) := by
  unfold Shared.assign
  cases he : S.store o with
  | none => exact .refl S
  | some e =>
    cases e with
    | enum _ => exact .refl S
    | custom _ => exact .refl S
    | cls c s f =>
      refine ⟨fun o' e' he' => ?_, fun k hk => hk⟩
      by_cases hk : o' = o
      · subst hk
        rw [he] at he'
        cases he'
        exact ⟨_, Heap.put_self _ _ _, rfl⟩
      · exact ⟨e', by simp only; rw [Heap.put_ne _ _ hk]; exact he', rfl⟩

theorem TInv.assign (h : TInv env skip G warm S) {o : TKey} {c : Nat} {cd : ClassDef} {f : Option (List FieldD)}
    (ho : S.store o = some (.cls c skip f)) (hcd : env.classes[c]? = some cd) (hcus : cd.custom = false)
    {fds : List FieldD} (hr : ∀ fd ∈ fds, fd.parser.Refs S.Has)
    (hf : compileFields env cd = .ok (fds.map (FieldD.rename (S.phi env)))) : TInv env skip G warm (S.assign o fds) := by
  have hle := S.assign_le o fds
  have heq : S.assign o fds = { S with store := S.store.put o (.cls c skip (some fds)) } := by
    simp only [Shared.assign, ho]
  refine ⟨?_, ?_, ?_, ?_, ?_⟩
  · intro i hi
    rw [heq] at hi ⊢
    have : objKey i ≠ o := by
      rintro rfl
      rw [h.fresh i hi] at ho
      cases ho
    simp only
    rw [Heap.put_ne _ _ this]
    exact h.fresh i hi
  · intro o' e' ho'
    refine ObjOk.mono hle ?_
    rw [heq] at ho'
    simp only at ho'
    by_cases hk : o' = o
    · subst hk
      rw [Heap.put_self] at ho'
      cases ho'
      refine ⟨rfl, cd, hcd, hcus, ?_⟩
      intro fds' he
      cases he
      exact ⟨hr, hf⟩
    · rw [Heap.put_ne _ _ hk] at ho'; exact h.objs o' e' ho'
  · intro k o' hk
    have hk' : S.cache k = some o' := by rw [heq] at hk; exact hk
    obtain ⟨h1, h2⟩ := h.cache k o' hk'
    exact ⟨hle.has o' h1, by rw [hle.phi env o' h1]; exact h2⟩
  · intro w c' cd' hc' hcd'
    exact hle.cache _ (h.cached w c' cd' hc' hcd')
  · intro w o' c' s ho'
    rw [heq] at ho'
    simp only at ho'
    by_cases hk : o' = o
    · subst hk; rw [Heap.put_self] at ho'; cases ho'
    · rw [Heap.put_ne _ _ hk] at ho'; exact h.full w o' c' s ho'

/-- An object that `build` has not finished. -/
def Shared.Half (S : Shared) (o : TKey) : Prop := ∃ c s, S.store o = some (.cls c s Option.none)

theorem TInv.heapSim (hk : env.Ok) (h : TInv env skip G warm S) :
    HeapSim (∃ o, S.Half o) S.Has (S.phi env) S.store (fullHeap env skip) := by
  intro o ho
  obtain ⟨e, he⟩ := Option.ne_none_iff_exists'.1 ho
  have hobj := h.objs o e he
  have hphi : S.phi env o = e.keyIn env := by simp [Shared.phi, he]
  rw [hphi]
  cases e with
  | enum e =>
    obtain ⟨ed, hed⟩ := hobj
    refine ⟨_, _, he, ?_, .enum⟩
    simp only [Entry.keyIn, hed]
    exact fullHeap_enum hk skip hed
  | custom c =>
    obtain ⟨cd, hcd, hcus⟩ := hobj
    refine ⟨_, _, he, ?_, .custom⟩
    simp only [Entry.keyIn, hcd]
    rw [fullHeap_cls hk skip hcd]
    simp [classEntry, hcus]
  | cls c s f =>
    obtain ⟨rfl, cd, hcd, hcus, hf⟩ := hobj
    have hfull : fullHeap env s (Entry.keyIn env (.cls c s f)) = some (classEntry env s c cd) := by
      simp only [Entry.keyIn, hcd]
      exact fullHeap_cls hk s hcd
    simp only [classEntry, hcus, Bool.false_eq_true, if_false] at hfull
    refine ⟨_, _, he, hfull, ?_⟩
    cases f with
    | none => exact .half ⟨o, c, s, he⟩
    | some fds =>
      obtain ⟨h1, h2⟩ := hf fds rfl
      rw [h2]
      exact .full h1

/-! ### Programs that keep the shared data in order -/

/-- Whatever the other threads do in the meantime, the program keeps the shared data in order and returns the outcome `R`,
up to the names of objects.  `own` contains the unfinished objects that the program will finish. -/
def OK (env : Env) (I : Shared → Prop) (R : Res Deser) : Prog → (TKey → Prop) → Shared → Prop
  | .ret r, own, S => (∀ x, ¬ own x) ∧ ∀ S', S.Le S' → I S' →
      (match r with
       | .error e => R = .error e
       | .ok d => d.Refs S'.Has ∧ R = .ok (d.rename (S'.phi env)))
  | .get k cont, own, S => ∀ S', S.Le S' → I S' → OK env I R (cont (S'.cache k)) own S'
  | .new e cont, own, S => ∀ S', S.Le S' → I S' → I (S'.new e) ∧ S'.Le (S'.new e) ∧
      OK env I R (cont (objKey S'.next)) (fun o => own o ∨ (o = objKey S'.next ∧ ∃ c s, e = .cls c s Option.none)) (S'.new e)
  | .put k o cont, own, S => ∀ S', S.Le S' → I S' → I (S'.put k o) ∧ S'.Le (S'.put k o) ∧ OK env I R cont own (S'.put k o)
  | .assign o fds cont, own, S => ∀ S', S.Le S' → I S' → I (S'.assign o fds) ∧ S'.Le (S'.assign o fds) ∧
      (∃ c s f, S'.store o = some (.cls c s f)) ∧
      ∃ own' : TKey → Prop, (∀ x, own x → x = o ∨ own' x) ∧ OK env I R cont own' (S'.assign o fds)

theorem OK.mono {I : Shared → Prop} {R : Res Deser} {S S' : Shared} (h : S.Le S') {p : Prog} {own : TKey → Prop}
    (hp : OK env I R p own S) : OK env I R p own S' := by
  cases p with
  | ret r => exact ⟨hp.1, fun S'' h' => hp.2 S'' (h.trans h')⟩
  | get k cont => exact fun S'' h' => hp S'' (h.trans h')
  | new e cont => exact fun S'' h' => hp S'' (h.trans h')
  | put k o cont => exact fun S'' h' => hp S'' (h.trans h')
  | assign o fds cont => exact fun S'' h' => hp S'' (h.trans h')

/-- Number of classes that are not in the cache. -/
def cmissing (env : Env) (S : Shared) : Nat := missing env (fun k => (S.cache k).map (fun _ => .enum 0))

theorem cmissing_mono {S S' : Shared} (h : S.Le S') : cmissing env S' ≤ cmissing env S := by
  refine missing_mono ?_
  intro k hk
  have : S.cache k ≠ none := by
    intro h0; exact hk (by simp [h0])
  have := h.cache k this
  cases hc : S'.cache k with
  | none => exact absurd hc this
  | some o => simp [Heap.Dom, hc]

theorem cmissing_lt {S S' : Shared} (h : S.Le S') {c : Nat} {cd : ClassDef} (hc : env.classes[c]? = some cd)
    (hn : S.cache cd.key = none) (hs : S'.cache cd.key ≠ none) : cmissing env S' < cmissing env S := by
  refine cacheFilter_lt ?_ (List.mem_of_getElem? hc) ?_ ?_
  · intro cd' _ h'
    cases he : S.cache cd'.key with
    | none => simp [he]
    | some o =>
      have := h.cache cd'.key (by simp [he])
      simp only [Option.isNone_map, Option.isNone_iff_eq_none] at h'
      exact absurd h' this
  · cases he : S'.cache cd.key with
    | none => exact absurd he hs
    | some o => simp [he]
  · simp [hn]

/-- A builder that works for the classes in `G` as long as at most `n` classes are not in the cache. -/
def BuilderPOk (env : Env) (G : Nat → Prop) (I : Shared → Prop) (n : Nat) (bld : BuilderP) : Prop :=
  ∀ (R : Res Deser) c cd (cont : TKey → Prog) (own : TKey → Prop) (S : Shared), G c → env.classes[c]? = some cd →
    S.cache cd.key = none → cmissing env S ≤ n → I S →
    (∀ o S', S.Le S' → I S' → S'.Has o → S'.phi env o = cd.key → OK env I R (cont o) own S') →
    OK env I R (bld c cd cont) own S

end

section
variable {env : Env} {skip : Bool} {G : Nat → Prop} {warm : Prop} {n : Nat} {bld : BuilderP} {R : Res Deser}

local notation "I" => TInv env skip G warm

theorem getClsP_ok (hb : BuilderPOk env G I n bld) {c : Nat} {cd : ClassDef} (hc : G c) (hcd : env.classes[c]? = some cd)
    {cont : TKey → Prog} {own : TKey → Prop} {S : Shared} (hm : cmissing env S ≤ n)
    (hcont : ∀ o S', S.Le S' → I S' → S'.Has o → S'.phi env o = cd.key → OK env I R (cont o) own S') :
    OK env I R (getClsP env bld c cont) own S := by
  unfold getClsP
  rw [hcd]
  intro S' hle hi
  cases he : S'.cache cd.key with
  | some o =>
    obtain ⟨h1, h2⟩ := hi.cache _ _ he
    exact hcont o S' hle hi h1 h2
  | none =>
    exact hb R c cd cont own S' hc hcd he (Nat.le_trans (cmissing_mono hle) hm) hi
      (fun o S'' hle' => hcont o S'' (hle.trans hle'))

theorem getEnumP_ok {e : Nat} {ed : EnumDef} (hed : env.enums[e]? = some ed)
    {cont : TKey → Prog} {own : TKey → Prop} {S : Shared}
    (hcont : ∀ o S', S.Le S' → I S' → S'.Has o → S'.phi env o = ed.key → OK env I R (cont o) own S') :
    OK env I R (getEnumP env e cont) own S := by
  unfold getEnumP
  rw [hed]
  intro S' hle hi
  cases he : S'.cache ed.key with
  | some o =>
    obtain ⟨h1, h2⟩ := hi.cache _ _ he
    exact hcont o S' hle hi h1 h2
  | none =>
    intro S1 hle1 hi1
    have hi2 : I (S1.new (.enum e)) := hi1.new (e := .enum e) ⟨ed, hed⟩ (by simp)
    refine ⟨hi2, hi1.new_le _, ?_⟩
    intro S3 hle3 hi3
    have hhas := hle3.has _ (S1.new_has (.enum e))
    have hphi : S3.phi env (objKey S1.next) = ed.key := by
      rw [hle3.phi env _ (S1.new_has _), S1.new_phi]
      simp [Entry.keyIn, hed]
    refine ⟨hi3.put hhas hphi, S3.put_le _ _, ?_⟩
    have hown : (fun o => own o ∨ (o = objKey S1.next ∧ ∃ c s, Entry.enum e = .cls c s Option.none)) = own := by
      funext o; simp
    rw [hown]
    have hle4 := S3.put_le ed.key (objKey S1.next)
    exact hcont _ _ (hle.trans (hle1.trans ((hi1.new_le _).trans (hle3.trans hle4)))) (hi3.put hhas hphi)
      (hle4.has _ hhas) (by rw [hle4.phi env _ hhas]; exact hphi)

theorem buildTagsP_ok (hG : ∀ c, G c → ∃ cd, env.classes[c]? = some cd) (hb : BuilderPOk env G I n bld)
    (items : List (Str × Lit × Ty)) (hit : ∀ e ∈ items, ∃ c, e.2.2 = .cls c ∧ G c) :
    ∀ (table : List (Str × Lit × TKey)) {cont : List (Str × Lit × TKey) → Prog} {own : TKey → Prop} {S : Shared},
    cmissing env S ≤ n → I S → (∀ e ∈ table, S.Has e.2.2) →
    (∀ tb S', S.Le S' → I S' → (∀ e ∈ tb, S'.Has e.2.2) →
      buildTags (table.map (fun e => (e.1, e.2.1, S.phi env e.2.2))) (items.map (fun e => (e.1, e.2.1, tyKey env e.2.2))) =
        .ok (tb.map (fun e => (e.1, e.2.1, S'.phi env e.2.2))) → OK env I R (cont tb) own S') →
    (∀ e S', S.Le S' →
      buildTags (table.map (fun e => (e.1, e.2.1, S.phi env e.2.2))) (items.map (fun e => (e.1, e.2.1, tyKey env e.2.2))) =
        .error e → OK env I R (.ret (.error e)) own S') →
    OK env I R (buildTagsP env bld table items cont) own S := by
  induction items with
  | nil =>
    intro table cont own S hm hi ht hok _
    exact hok table S (.refl S) hi ht rfl
  | cons e r ih =>
    intro table cont own S hm hi ht hok herr
    obtain ⟨p, l, t⟩ := e
    obtain ⟨c, rfl, hc⟩ := hit _ List.mem_cons_self
    obtain ⟨cd, hcd⟩ := hG c hc
    have hany : (table.map (fun e => (e.1, e.2.1, S.phi env e.2.2))).any (fun e => e.1 = p && e.2.1.pyEq l) =
        table.any (fun e => e.1 = p && e.2.1.pyEq l) := by
      rw [List.any_map]; rfl
    simp only [List.map_cons, buildTags, buildTagsP, tyKey, hcd, Option.map_some, addTag, hany] at hok herr ⊢
    cases hdup : table.any (fun e => e.1 = p && e.2.1.pyEq l) with
    | true =>
      simp only [if_true]
      exact herr _ S (.refl S) (by simp [hdup])
    | false =>
      simp only [hdup, Bool.false_eq_true, if_false] at hok herr ⊢
      simp only [getMemberP]
      refine getClsP_ok hb hc hcd hm ?_
      intro o S1 hle1 hi1 hhas hphi
      have hmap : (table ++ [(p, l, o)]).map (fun e => (e.1, e.2.1, S1.phi env e.2.2)) =
          table.map (fun e => (e.1, e.2.1, S.phi env e.2.2)) ++ [(p, l, cd.key)] := by
        rw [List.map_append]
        congr 1
        · exact List.map_congr_left fun e he => by rw [hle1.phi env _ (ht e he)]
        · simp [hphi]
      refine ih (fun e he => hit e (by simp [he])) _ (Nat.le_trans (cmissing_mono hle1) hm) hi1 ?_ ?_ ?_
      · intro e he
        rcases List.mem_append.1 he with he | he
        · exact hle1.has _ (ht e he)
        · rcases List.mem_singleton.1 he with rfl; exact hhas
      · intro tb S' hle hi' htb h
        rw [hmap] at h
        exact hok tb S' (hle1.trans hle) hi' htb h
      · intro e S' hle h
        rw [hmap] at h
        exact herr e S' (hle1.trans hle) h

theorem getLitP_ok (ls : List Lit) {cont : Deser → Prog} {own : TKey → Prop} {S : Shared} (hi : I S)
    (hok : ∀ d S', S.Le S' → I S' → d.Refs S'.Has → compileLit env ls = .ok (d.rename (S'.phi env)) → OK env I R (cont d) own S')
    (herr : ∀ e S', S.Le S' → compileLit env ls = .error e → OK env I R (.ret (.error e)) own S') :
    OK env I R (getLitP env ls cont) own S := by
  cases ls with
  | nil => exact herr _ S (.refl S) rfl
  | cons l r =>
    simp only [getLitP, compileLit] at hok herr ⊢
    cases hall : r.all (fun m => l.sameTy m) with
    | false => exact herr _ S (.refl S) (by simp [hall])
    | true =>
      simp only [hall, if_true] at hok herr ⊢
      cases l with
      | enum e m =>
        simp only [litDeser, tyKey] at hok herr ⊢
        cases hed : env.enums[e]? with
        | none =>
          simp only [getEnumP, hed]
          exact herr _ S (.refl S) (by simp [hed])
        | some ed =>
          refine getEnumP_ok hed ?_
          intro o S' hle hi' hhas hphi
          refine hok _ S' hle hi' hhas ?_
          simp [hed, Deser.rename, hphi]
      | _ => exact hok _ S (.refl S) hi trivial rfl

mutual
theorem getP_ok (hG : ∀ c, G c → ∃ cd, env.classes[c]? = some cd) (hb : BuilderPOk env G I n bld) :
    ∀ (t : Ty) {cont : Deser → Prog} {own : TKey → Prop} {S : Shared}, t.Within G → cmissing env S ≤ n → I S →
    (∀ d S', S.Le S' → I S' → d.Refs S'.Has → compile env t = .ok (d.rename (S'.phi env)) → OK env I R (cont d) own S') →
    (∀ e S', S.Le S' → compile env t = .error e → OK env I R (.ret (.error e)) own S') →
    OK env I R (getP env bld t cont) own S
  | .list t, cont, own, S, hw, hm, hi, hok, herr => by
    simp only [getP]
    refine getP_ok hG hb t hw hm hi ?_ ?_
    · intro d S' hle hi' hd h
      exact hok _ S' hle hi' hd (by simp [compile, h, Deser.rename])
    · intro e S' hle h
      exact herr e S' hle (by simp [compile, h])
  | .dict k t, cont, own, S, hw, hm, hi, hok, herr => by
    simp only [getP]
    cases hck : checkKeyTy env k with
    | error e => exact herr e S (.refl S) (by simp [compile, hck])
    | ok u =>
      refine getP_ok hG hb t hw hm hi ?_ ?_
      · intro d S' hle hi' hd h
        exact hok _ S' hle hi' hd (by simp [compile, h, hck, Deser.rename])
      · intro e S' hle h
        exact herr e S' hle (by simp [compile, h, hck])
  | .set t, cont, own, S, hw, hm, hi, hok, herr => by
    simp only [getP]
    refine getP_ok hG hb t hw hm hi ?_ ?_
    · intro d S' hle hi' hd h
      exact hok _ S' hle hi' hd (by simp [compile, h, Deser.rename])
    · intro e S' hle h
      exact herr e S' hle (by simp [compile, h])
  | .tuple ts, cont, own, S, hw, hm, hi, hok, herr => by
    simp only [getP]
    refine getPL_ok hG hb ts hw hm hi ?_ ?_
    · intro d S' hle hi' hd h
      exact hok _ S' hle hi' hd (by simp [compile, h, Deser.rename])
    · intro e S' hle h
      exact herr e S' hle (by simp [compile, h])
  | .union ts, cont, own, S, hw, hm, hi, hok, herr => by
    simp only [getP]
    by_cases hp : discProps env ts = []
    · simp only [hp, if_true]
      refine getPL_ok hG hb ts hw hm hi ?_ ?_
      · intro d S' hle hi' hd h
        exact hok _ S' hle hi' hd (by simp [compile, h, hp, Deser.rename])
      · intro e S' hle h
        exact herr e S' hle (by simp [compile, h, hp])
    · simp only [hp, if_false]
      refine buildTagsP_ok hG hb (tagTyItems env ts) ?_ [] hm hi (by simp) ?_ ?_
      · intro e he
        obtain ⟨h1, c, h2⟩ := tagTyItems_cls he
        refine ⟨c, h2, ?_⟩
        have := Ty.withinL_iff.1 hw _ h1
        rw [h2] at this
        exact this
      · intro tb S' hle hi' htb h
        rw [← tagItems_eq] at h
        refine hok _ S' hle hi' htb ?_
        simp only [List.map_nil] at h
        simp only [compile, hp, if_false, h, Deser.rename]
      · intro e S' hle h
        rw [← tagItems_eq] at h
        refine herr e S' hle ?_
        simp only [List.map_nil] at h
        simp only [compile, hp, if_false, h]
  | .literal ls, cont, own, S, _, _, hi, hok, herr => by
    simp only [getP]
    simp only [compile] at hok herr
    exact getLitP_ok ls hi hok herr
  | .annotated t _, cont, own, S, hw, hm, hi, hok, herr => by
    simp only [getP]
    simp only [compile] at hok herr
    exact getP_ok hG hb t hw hm hi hok herr
  | .enum e, cont, own, S, _, _, hi, hok, herr => by
    simp only [getP]
    cases hed : env.enums[e]? with
    | none =>
      simp only [getEnumP, hed]
      exact herr _ S (.refl S) (by simp [compile, tyKey, hed])
    | some ed =>
      refine getEnumP_ok hed ?_
      intro o S' hle hi' hhas hphi
      exact hok _ S' hle hi' hhas (by simp [compile, tyKey, hed, Deser.rename, hphi])
  | .cls c, cont, own, S, hw, hm, hi, hok, herr => by
    obtain ⟨cd, hcd⟩ := hG c hw
    simp only [getP]
    refine getClsP_ok hb hw hcd hm ?_
    intro o S' hle hi' hhas hphi
    exact hok _ S' hle hi' hhas (by simp [compile, tyKey, hcd, Deser.rename, hphi])
  | .none, _, _, S, _, _, hi, hok, _ | .bool, _, _, S, _, _, hi, hok, _ | .int, _, _, S, _, _, hi, hok, _
  | .float, _, _, S, _, _, hi, hok, _ | .str, _, _, S, _, _, hi, hok, _ | .bytes, _, _, S, _, _, hi, hok, _
  | .datetime, _, _, S, _, _, hi, hok, _ | .date, _, _, S, _, _, hi, hok, _ | .time, _, _, S, _, _, hi, hok, _
  | .timedelta, _, _, S, _, _, hi, hok, _ | .uuid, _, _, S, _, _, hi, hok, _ | .ipv4, _, _, S, _, _, hi, hok, _
  | .ipv6, _, _, S, _, _, hi, hok, _ => by
    simp only [getP]
    exact hok _ S (.refl S) hi trivial (by simp [compile, Deser.rename])
  | .bareList, _, _, S, _, _, _, _, herr | .bareDict, _, _, S, _, _, _, _, herr | .bareSet, _, _, S, _, _, _, _, herr
  | .bareTuple, _, _, S, _, _, _, _, herr => by
    simp only [getP]
    exact herr _ S (.refl S) (by simp [compile])
theorem getPL_ok (hG : ∀ c, G c → ∃ cd, env.classes[c]? = some cd) (hb : BuilderPOk env G I n bld) :
    ∀ (ts : List Ty) {cont : List Deser → Prog} {own : TKey → Prop} {S : Shared}, Ty.WithinL G ts → cmissing env S ≤ n → I S →
    (∀ ds S', S.Le S' → I S' → Deser.RefsL S'.Has ds → compileL env ts = .ok (Deser.renameL (S'.phi env) ds) →
      OK env I R (cont ds) own S') →
    (∀ e S', S.Le S' → compileL env ts = .error e → OK env I R (.ret (.error e)) own S') →
    OK env I R (getPL env bld ts cont) own S
  | [], cont, own, S, _, _, hi, hok, _ => by
    simp only [getPL]
    exact hok [] S (.refl S) hi trivial (by simp [compileL, Deser.renameL])
  | t :: ts, cont, own, S, hw, hm, hi, hok, herr => by
    simp only [getPL]
    refine getP_ok hG hb t hw.1 hm hi ?_ ?_
    · intro d S1 hle1 hi1 hd h1
      refine getPL_ok hG hb ts hw.2 (Nat.le_trans (cmissing_mono hle1) hm) hi1 ?_ ?_
      · intro ds S2 hle2 hi2 hds h2
        refine hok _ S2 (hle1.trans hle2) hi2 ⟨hd.mono hle2.has, hds⟩ ?_
        simp [compileL, h1, h2, Deser.renameL, hle2.rename env hd]
      · intro e S2 hle2 h2
        exact herr e S2 (hle1.trans hle2) (by simp [compileL, h1, h2])
    · intro e S' hle h
      exact herr e S' hle (by simp [compileL, h])
end

theorem getFieldsP_ok (hG : ∀ c, G c → ∃ cd, env.classes[c]? = some cd) (hb : BuilderPOk env G I n bld) (kind : ClassKind) :
    ∀ (fs : List FieldDef) {cont : List FieldD → Prog} {own : TKey → Prop} {S : Shared},
    (∀ f ∈ fs, (fieldTy kind f).Within G) → cmissing env S ≤ n → I S → (∃ fds, mapRes (compileField env kind) fs = .ok fds) →
    (∀ fds S', S.Le S' → I S' → (∀ fd ∈ fds, fd.parser.Refs S'.Has) →
      mapRes (compileField env kind) fs = .ok (fds.map (FieldD.rename (S'.phi env))) → OK env I R (cont fds) own S') →
    OK env I R (getFieldsP env bld kind fs cont) own S
  | [], cont, own, S, _, _, hi, _, hok => by
    simp only [getFieldsP]
    exact hok [] S (.refl S) hi (by simp) rfl
  | f :: fs, cont, own, S, hw, hm, hi, ⟨fds0, hfds0⟩, hok => by
    simp only [getFieldsP]
    simp only [mapRes, compileField] at hfds0
    refine getP_ok hG hb (fieldTy kind f) (hw f (by simp)) hm hi ?_ ?_
    · intro d S1 hle1 hi1 hd h1
      rw [h1] at hfds0
      simp only at hfds0
      refine getFieldsP_ok hG hb kind fs (fun g hg => hw g (by simp [hg])) (Nat.le_trans (cmissing_mono hle1) hm) hi1 ?_ ?_
      · cases hr : mapRes (compileField env kind) fs with
        | ok fds => exact ⟨fds, rfl⟩
        | error e => rw [hr] at hfds0; cases hfds0
      · intro fds S2 hle2 hi2 hfds h2
        refine hok _ S2 (hle1.trans hle2) hi2 ?_ ?_
        · intro fd hfd
          rcases List.mem_cons.1 hfd with rfl | hfd
          · exact hd.mono hle2.has
          · exact hfds fd hfd
        · simp only [mapRes, compileField, h1]
          rw [h2]
          simp [FieldD.rename, hle2.rename env hd]
    · intro e S' hle h
      rw [h] at hfds0
      cases hfds0

theorem buildClsP_ok (hG : GoodClasses env G) : ∀ n, BuilderPOk env G I n (buildClsP env skip n) := by
  have hG' : ∀ c, G c → ∃ cd, env.classes[c]? = some cd := fun c hc => (hG c hc).imp fun _ h => h.1
  intro n
  induction n with
  | zero =>
    intro R c cd cont own S hc hcd hn hm hi hcont
    exact absurd (cmissing_lt (S.put_le cd.key cd.key) hcd hn (by simp [Shared.put])) (by omega)
  | succ n ih =>
    intro R c cd cont own S hc hcd hn hm hi hcont
    obtain ⟨cd', hcd', hgood⟩ := hG c hc
    rw [hcd] at hcd'
    cases hcd'
    have hcold : ¬ warm := fun w => hi.cached w c cd hc hcd hn
    simp only [buildClsP]
    cases hcus : cd.custom with
    | true =>
      simp only [if_true]
      intro S1 hle1 hi1
      have hi2 : I (S1.new (.custom c)) := hi1.new (e := .custom c) ⟨cd, hcd, hcus⟩ (by simp)
      refine ⟨hi2, hi1.new_le _, ?_⟩
      intro S3 hle3 hi3
      have hhas := hle3.has _ (S1.new_has (.custom c))
      have hphi : S3.phi env (objKey S1.next) = cd.key := by
        rw [hle3.phi env _ (S1.new_has _), S1.new_phi]
        simp [Entry.keyIn, hcd]
      refine ⟨hi3.put hhas hphi, S3.put_le _ _, ?_⟩
      have hown : (fun o => own o ∨ (o = objKey S1.next ∧ ∃ c' s, Entry.custom c = .cls c' s Option.none)) = own := by
        funext o; simp
      rw [hown]
      have hle4 := S3.put_le cd.key (objKey S1.next)
      exact hcont _ _ (hle1.trans ((hi1.new_le _).trans (hle3.trans hle4))) (hi3.put hhas hphi)
        (hle4.has _ hhas) (by rw [hle4.phi env _ hhas]; exact hphi)
    | false =>
      simp only [Bool.false_eq_true, if_false]
      obtain ⟨hfds, hwithin⟩ := hgood hcus
      intro S1 hle1 hi1
      have hi2 : I (S1.new (.cls c skip none)) :=
        hi1.new (e := .cls c skip none) ⟨rfl, cd, hcd, hcus, by simp⟩ (fun w => absurd w hcold)
      have hle2 := hi1.new_le (.cls c skip none)
      refine ⟨hi2, hle2, ?_⟩
      intro S3 hle3 hi3
      have hhas := hle3.has _ (S1.new_has (.cls c skip none))
      have hphi : S3.phi env (objKey S1.next) = cd.key := by
        rw [hle3.phi env _ (S1.new_has _), S1.new_phi]
        simp [Entry.keyIn, hcd]
      have hle4 := S3.put_le cd.key (objKey S1.next)
      have hi4 := hi3.put hhas hphi
      refine ⟨hi4, hle4, ?_⟩
      have hm4 : cmissing env (S3.put cd.key (objKey S1.next)) ≤ n := by
        have := cmissing_lt (hle1.trans (hle2.trans (hle3.trans hle4))) hcd hn (by simp [Shared.put])
        omega
      refine getFieldsP_ok hG' ih cd.kind cd.hints hwithin hm4 hi4 hfds ?_
      intro fds S5 hle5 hi5 hr hcomp S6 hle6 hi6
      have hst : ∃ f, S6.store (objKey S1.next) = some (.cls c skip f) := by
        obtain ⟨e', h1, h2⟩ := (hle3.trans (hle4.trans (hle5.trans hle6))).store _ _ (S1.new_store (.cls c skip none))
        cases e' with
        | enum _ => cases h2
        | custom _ => cases h2
        | cls c' s' f => cases h2; exact ⟨f, h1⟩
      obtain ⟨f, hst⟩ := hst
      have hr6 : ∀ fd ∈ fds, fd.parser.Refs S6.Has := fun fd hfd => (hr fd hfd).mono hle6.has
      have hcomp6 : compileFields env cd = .ok (fds.map (FieldD.rename (S6.phi env))) := by
        rw [hle6.renameF env hr]; exact hcomp
      have hi7 := hi6.assign hst hcd hcus hr6 hcomp6
      have hle7 := S6.assign_le (objKey S1.next) fds
      refine ⟨hi7, hle7, ⟨c, skip, f, hst⟩, own, ?_, ?_⟩
      · rintro x (h | h)
        · exact .inr h
        · exact .inl h.1
      · have hle36 := hle4.trans (hle5.trans (hle6.trans hle7))
        exact hcont _ _ (hle1.trans (hle2.trans (hle3.trans hle36))) hi7 (hle36.has _ hhas)
          (by rw [hle36.phi env _ hhas]; exact hphi)

/-- Creation returns what `compile` says, whatever other threads do. -/
theorem createP_ok (hG : GoodClasses env G) {t : Ty} (hw : t.Within G) {S : Shared} (hi : I S) :
    OK env I (compile env t) (createP env skip t) (fun _ => False) S := by
  refine getP_ok (fun c hc => (hG c hc).imp fun _ h => h.1) (buildClsP_ok hG _) t hw (missing_le env _) hi ?_ ?_
  · intro d S1 hle1 hi1 hd h
    refine ⟨by simp, ?_⟩
    intro S2 hle2 hi2
    exact ⟨hd.mono hle2.has, by rw [hle2.rename env hd]; exact h⟩
  · intro e S1 hle1 h
    exact ⟨by simp, fun S2 hle2 hi2 => h⟩

end

/-! ### The system -/

/-- What holds for all threads at every moment: `run0` tells which threads have something to do, `res` what they are
expected to return.  An unexpected outcome is `AttributeError` and needs another thread with something to do. -/
structure SysOk (env : Env) (skip : Bool) (G : Nat → Prop) (warm : Prop) (run0 : Nat → Prop) (res : Nat → Res Val)
    (s : Shared × List Thread) : Prop where
  inv : TInv env skip G warm s.1
  threads : ∃ owns : Nat → TKey → Prop,
    (∀ i p j, s.2[i]? = some (.running p j) → run0 i ∧
      ∃ t, OK env (TInv env skip G warm) (compile env t) p (owns i) s.1 ∧ res i = loads env skip t j) ∧
    (∀ o, s.1.Half o → ∃ i p j, s.2[i]? = some (.running p j) ∧ owns i o)
  results : ∀ i r, s.2[i]? = some (.done r) → run0 i → Sim (¬ warm ∧ ∃ i', i' ≠ i ∧ run0 i') r (res i)

section
variable {env : Env} {skip : Bool} {G : Nat → Prop} {warm : Prop} {run0 : Nat → Prop} {res : Nat → Res Val}

theorem getElem?_set_eq {l : List α} {i j : Nat} {a b : α} (h : (l.set i a)[j]? = some b) :
    (j = i ∧ b = a) ∨ (j ≠ i ∧ l[j]? = some b) := by
  by_cases hij : j = i
  · subst hij
    rw [List.getElem?_set] at h
    simp only [if_true] at h
    split at h
    · cases h; exact .inl ⟨rfl, rfl⟩
    · cases h
  · rw [List.getElem?_set_ne (fun e => hij e.symm)] at h
    exact .inr ⟨hij, h⟩

theorem getElem?_set_ne' {l : List α} {i j : Nat} {a b : α} (hij : j ≠ i) (h : l[j]? = some b) : (l.set i a)[j]? = some b := by
  rw [List.getElem?_set_ne (fun e => hij e.symm)]; exact h

theorem getElem?_set_self' {l : List α} {i : Nat} {a b : α} (h : l[i]? = some b) : (l.set i a)[i]? = some a := by
  have : i < l.length := (List.getElem?_eq_some_iff.1 h).1
  simp [this]

/-- A step of a thread that goes on. -/
theorem SysOk.go {S S' : Shared} {ths : List Thread} (h : SysOk env skip G warm run0 res (S, ths)) {i : Nat} {p p' : Prog} {j : Json}
    (hi : ths[i]? = some (.running p j)) (hinv : TInv env skip G warm S') (hle : S.Le S')
    (hok : ∀ t own, OK env (TInv env skip G warm) (compile env t) p own S → ∃ own' : TKey → Prop,
      OK env (TInv env skip G warm) (compile env t) p' own' S' ∧ (∀ o, S'.Half o → S.Half o ∨ own' o) ∧
      (∀ o, own o → S'.Half o → own' o)) :
    SysOk env skip G warm run0 res (S', ths.set i (.running p' j)) := by
  obtain ⟨hinv0, ⟨owns, hown, hhalf⟩, hres⟩ := h
  obtain ⟨hr, t, ht, hl⟩ := hown i p j hi
  obtain ⟨own', hok1, hok2, hok3⟩ := hok t (owns i) ht
  refine ⟨hinv, ⟨fun i' => if i' = i then own' else owns i', ?_, ?_⟩, ?_⟩
  · intro i' p1 j1 h1
    rcases getElem?_set_eq h1 with ⟨rfl, he⟩ | ⟨hne, h1⟩
    · cases he
      simp only [if_true]
      exact ⟨hr, t, hok1, hl⟩
    · simp only [hne, if_false]
      obtain ⟨h2, t', h3, h4⟩ := hown i' p1 j1 h1
      exact ⟨h2, t', h3.mono hle, h4⟩
  · intro o ho
    rcases hok2 o ho with h1 | h1
    · obtain ⟨i', p1, j1, h2, h3⟩ := hhalf o h1
      by_cases hne : i' = i
      · subst hne
        exact ⟨i', p', j, getElem?_set_self' h2, by simp only [if_true]; exact hok3 o h3 ho⟩
      · exact ⟨i', p1, j1, getElem?_set_ne' hne h2, by simp only [hne, if_false]; exact h3⟩
    · exact ⟨i, p', j, getElem?_set_self' hi, by simp only [if_true]; exact h1⟩
  · intro i' r h1
    rcases getElem?_set_eq h1 with ⟨rfl, he⟩ | ⟨_, h1⟩
    · cases he
    · exact hres i' r h1

/-- A step by which a thread ends. -/
theorem SysOk.stop {S : Shared} {ths : List Thread} (h : SysOk env skip G warm run0 res (S, ths)) {i : Nat} {p : Prog} {j : Json}
    (hi : ths[i]? = some (.running p j)) {r : Res Val}
    (hok : ∀ t own, OK env (TInv env skip G warm) (compile env t) p own S →
      (∀ x, ¬ own x) ∧ Sim (∃ o, S.Half o) r (loads env skip t j)) :
    SysOk env skip G warm run0 res (S, ths.set i (.done r)) := by
  obtain ⟨hinv0, ⟨owns, hown, hhalf⟩, hres⟩ := h
  obtain ⟨hr, t, ht, hl⟩ := hown i p j hi
  obtain ⟨hok1, hok2⟩ := hok t (owns i) ht
  refine ⟨hinv0, ⟨owns, ?_, ?_⟩, ?_⟩
  · intro i' p1 j1 h1
    rcases getElem?_set_eq h1 with ⟨rfl, he⟩ | ⟨hne, h1⟩
    · cases he
    · exact hown i' p1 j1 h1
  · intro o ho
    obtain ⟨i', p1, j1, h2, h3⟩ := hhalf o ho
    have hne : i' ≠ i := by rintro rfl; exact hok1 o h3
    exact ⟨i', p1, j1, getElem?_set_ne' hne h2, h3⟩
  · intro i' r' h1 hr'
    rcases getElem?_set_eq h1 with ⟨rfl, he⟩ | ⟨_, h1⟩
    · cases he
      rw [hl]
      rcases hok2 with h2 | ⟨h2, o, ho⟩
      · exact .inl h2
      · refine .inr ⟨h2, ?_, ?_⟩
        · intro w
          obtain ⟨c, s, hcs⟩ := ho
          exact hinv0.full w o c s hcs
        · obtain ⟨i2, p1, j1, h3, h4⟩ := hhalf o ho
          refine ⟨i2, ?_, (hown i2 p1 j1 h3).1⟩
          rintro rfl
          exact hok1 o h4
    · exact hres i' r' h1 hr'

theorem SysOk.step (hk : env.Ok) {s : Shared × List Thread} (h : SysOk env skip G warm run0 res s) (i : Nat) :
    SysOk env skip G warm run0 res (sysStep env s i) := by
  obtain ⟨S, ths⟩ := s
  unfold sysStep
  simp only
  cases hi : ths[i]? with
  | none => exact h
  | some th =>
    have hself : ths.set i th = ths := by
      refine List.ext_getElem? fun k => ?_
      by_cases hki : k = i
      · subst hki; rw [getElem?_set_self' hi, hi]
      · rw [List.getElem?_set_ne (fun e => hki e.symm)]
    cases th with
    | done r =>
      simp only [Thread.step, hself]
      exact h
    | running p j =>
      have hinv := h.inv
      cases p with
      | ret r =>
        cases r with
        | error e =>
          simp only [Thread.step]
          refine h.stop hi fun t own hok => ⟨hok.1, ?_⟩
          have := hok.2 S (.refl S) hinv
          simp only at this
          simp only [loads, this]
          exact .refl _
        | ok d =>
          simp only [Thread.step]
          refine h.stop hi fun t own hok => ⟨hok.1, ?_⟩
          obtain ⟨h1, h2⟩ := hok.2 S (.refl S) hinv
          simp only [loads, h2]
          exact parse_sim (hinv.heapSim hk) j d h1
      | get k cont =>
        simp only [Thread.step]
        refine h.go hi hinv (.refl S) fun t own hok => ⟨own, hok S (.refl S) hinv, fun o ho => .inl ho, fun o ho _ => ho⟩
      | new e cont =>
        simp only [Thread.step]
        obtain ⟨own0, t0, hok0⟩ : ∃ own t, OK env (TInv env skip G warm) (compile env t) (.new e cont) own S := by
          obtain ⟨owns, hown, _⟩ := h.threads
          obtain ⟨_, t, h1, _⟩ := hown i _ j hi
          exact ⟨_, t, h1⟩
        obtain ⟨hi1, hle1, _⟩ := hok0 S (.refl S) hinv
        refine h.go hi hi1 hle1 fun t own hok => ⟨_, (hok S (.refl S) hinv).2.2, ?_, fun o ho _ => .inl ho⟩
        rintro o ⟨c, s, ho⟩
        simp only [Shared.new] at ho
        by_cases hkk : o = objKey S.next
        · subst hkk
          rw [Heap.put_self] at ho
          cases ho
          exact .inr (.inr ⟨rfl, c, s, rfl⟩)
        · rw [Heap.put_ne _ _ hkk] at ho
          exact .inl ⟨c, s, ho⟩
      | put k o cont =>
        simp only [Thread.step]
        obtain ⟨own0, t0, hok0⟩ : ∃ own t, OK env (TInv env skip G warm) (compile env t) (.put k o cont) own S := by
          obtain ⟨owns, hown, _⟩ := h.threads
          obtain ⟨_, t, h1, _⟩ := hown i _ j hi
          exact ⟨_, t, h1⟩
        obtain ⟨hi1, hle1, _⟩ := hok0 S (.refl S) hinv
        exact h.go hi hi1 hle1 fun t own hok => ⟨own, (hok S (.refl S) hinv).2.2, fun o ho => .inl ho, fun o ho _ => ho⟩
      | assign o fds cont =>
        simp only [Thread.step]
        obtain ⟨own0, t0, hok0⟩ : ∃ own t, OK env (TInv env skip G warm) (compile env t) (.assign o fds cont) own S := by
          obtain ⟨owns, hown, _⟩ := h.threads
          obtain ⟨_, t, h1, _⟩ := hown i _ j hi
          exact ⟨_, t, h1⟩
        obtain ⟨hi1, hle1, ⟨c, s, f, hst⟩, _⟩ := hok0 S (.refl S) hinv
        have heq : S.assign o fds = { S with store := S.store.put o (.cls c s (some fds)) } := by
          simp only [Shared.assign, hst]
        refine h.go hi hi1 hle1 fun t own hok => ?_
        obtain ⟨_, _, _, own', h1, h2⟩ := hok S (.refl S) hinv
        refine ⟨own', h2, ?_, ?_⟩
        · rintro x ⟨c', s', hx⟩
          rw [heq] at hx
          simp only at hx
          by_cases hkk : x = o
          · subst hkk; rw [Heap.put_self] at hx; cases hx
          · rw [Heap.put_ne _ _ hkk] at hx; exact .inl ⟨c', s', hx⟩
        · rintro x hx ⟨c', s', hh⟩
          rcases h1 x hx with rfl | h1
          · rw [heq] at hh
            simp only at hh
            rw [Heap.put_self] at hh
            cases hh
          · exact h1

theorem SysOk.run (hk : env.Ok) (sched : List Nat) {s : Shared × List Thread} (h : SysOk env skip G warm run0 res s) :
    SysOk env skip G warm run0 res (sysRun env s sched) := by
  unfold sysRun
  induction sched generalizing s with
  | nil => exact h
  | cons i r ih => exact ih (h.step hk i)

theorem tinv_empty : TInv env skip G False Shared.empty :=
  { fresh := fun _ _ => rfl, objs := fun _ _ h => (nomatch h), cache := fun _ _ h => (nomatch h),
    cached := fun h => h.elim, full := fun h => h.elim }

/-- Other classes may be considered later. -/
theorem TInv.change {G' : Nat → Prop} {warm' : Prop} {S : Shared} (h : TInv env skip G warm S) (hw : warm' → False) :
    TInv env skip G' warm' S :=
  { fresh := h.fresh, objs := h.objs, cache := h.cache, cached := fun w => (hw w).elim, full := fun w => (hw w).elim }

/-- The state in which threads start. -/
theorem sysOk_start (hG : GoodClasses env G) {S : Shared} (hi : TInv env skip G warm S)
    (hhalf : ∀ o, ¬ S.Half o) (old : List (Res Val)) (calls : List (Ty × Json)) (hw : ∀ c ∈ calls, c.1.Within G) :
    SysOk env skip G warm (fun i => old.length ≤ i ∧ i < old.length + calls.length)
      (fun i => match calls[i - old.length]? with | some c => loads env skip c.1 c.2 | Option.none => .error .outOfModel)
      (S, old.map .done ++ calls.map (fun c => Thread.start env skip c.1 c.2)) := by
  have hget : ∀ i th, (old.map Thread.done ++ calls.map (fun c => Thread.start env skip c.1 c.2))[i]? = some th →
      (∃ r, th = .done r ∧ i < old.length) ∨
      (old.length ≤ i ∧ i < old.length + calls.length ∧ ∃ c, calls[i - old.length]? = some c ∧ th = Thread.start env skip c.1 c.2) := by
    intro i th h
    by_cases hlt : i < old.length
    · rw [List.getElem?_append_left (by simpa using hlt)] at h
      simp only [List.getElem?_map, Option.map_eq_some_iff] at h
      obtain ⟨r, _, hr⟩ := h
      exact .inl ⟨r, hr.symm, hlt⟩
    · rw [List.getElem?_append_right (by simpa using hlt)] at h
      simp only [List.getElem?_map, List.length_map, Option.map_eq_some_iff] at h
      obtain ⟨c, hc, hr⟩ := h
      have := (List.getElem?_eq_some_iff.1 hc).1
      exact .inr ⟨by omega, by omega, c, hc, hr.symm⟩
  refine ⟨hi, ⟨fun _ _ => False, ?_, fun o ho => absurd ho (hhalf o)⟩, ?_⟩
  · intro i p j h
    rcases hget i _ h with ⟨r, h1, _⟩ | ⟨h1, h2, c, h3, h4⟩
    · cases h1
    · cases h4
      refine ⟨⟨h1, h2⟩, c.1, createP_ok hG (hw c (List.mem_of_getElem? h3)) hi, ?_⟩
      simp only [h3]
  · intro i r h hr
    rcases hget i _ h with ⟨_, _, h1⟩ | ⟨_, _, c, _, h4⟩
    · omega
    · cases h4

end

end Verif
