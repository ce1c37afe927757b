import Verif.Lemmas.RebuildDoc
/-!
# Classes made again from their schemas: the definitions
-/
namespace Verif

/-! ### The order of the definitions -/

theorem strLe_total : ∀ s t : Str, strLe s t = true ∨ strLe t s = true
  | [], _ => .inl rfl
  | _ :: _, [] => .inr rfl
  | a :: s, b :: t => by
    simp only [strLe, Bool.or_eq_true, Bool.and_eq_true, decide_eq_true_eq]
    rcases Nat.lt_trichotomy a.toNat b.toNat with h | h | h
    · exact .inl (.inl h)
    · rcases strLe_total s t with h' | h'
      · exact .inl (.inr ⟨h, h'⟩)
      · exact .inr (.inr ⟨h.symm, h'⟩)
    · exact .inr (.inl h)

theorem strLe_trans : ∀ {s t u : Str}, strLe s t = true → strLe t u = true → strLe s u = true
  | [], _, _, _, _ => rfl
  | _ :: _, [], _, h, _ => by cases h
  | _ :: _, _ :: _, [], _, h => by cases h
  | a :: s, b :: t, c :: u, h, h' => by
    simp only [strLe, Bool.or_eq_true, Bool.and_eq_true, decide_eq_true_eq] at h h' ⊢
    rcases h with h | ⟨h, h1⟩ <;> rcases h' with h' | ⟨h', h2⟩
    · exact .inl (by omega)
    · exact .inl (by omega)
    · exact .inl (by omega)
    · exact .inr ⟨by omega, strLe_trans h1 h2⟩

theorem strLe_antisymm : ∀ {s t : Str}, strLe s t = true → strLe t s = true → s = t
  | [], [], _, _ => rfl
  | [], _ :: _, _, h => by cases h
  | _ :: _, [], h, _ => by cases h
  | a :: s, b :: t, h, h' => by
    simp only [strLe, Bool.or_eq_true, Bool.and_eq_true, decide_eq_true_eq] at h h'
    rcases h with h | ⟨h, h1⟩ <;> rcases h' with h' | ⟨h', h2⟩
    · omega
    · omega
    · omega
    · rw [strLe_antisymm h1 h2, show a = b from Char.toNat_inj.1 h]

/-- Names in the order of the alphabet. -/
def ByName {α : Type} (l : List (Str × α)) : Prop := l.Pairwise fun x y => strLe x.1 y.1 = true

theorem mem_insertByName' {α : Type} {x y : Str × α} {l : List (Str × α)} (h : y ∈ insertByName x l) : y = x ∨ y ∈ l := by
  induction l with
  | nil => exact .inl (List.mem_singleton.1 h)
  | cons z l ih =>
    simp only [insertByName] at h
    split at h
    · exact List.mem_cons.1 h
    · rcases List.mem_cons.1 h with h | h
      · exact .inr (by simp [h])
      · rcases ih h with h | h
        · exact .inl h
        · exact .inr (List.mem_cons_of_mem _ h)

theorem insertByName_sorted {α : Type} (x : Str × α) {l : List (Str × α)} (h : ByName l) : ByName (insertByName x l) := by
  induction l with
  | nil => exact List.pairwise_singleton _ _
  | cons y l ih =>
    obtain ⟨h1, h2⟩ := List.pairwise_cons.1 h
    simp only [insertByName]
    split
    · rename_i hle
      refine List.pairwise_cons.2 ⟨fun z hz => ?_, h⟩
      rcases List.mem_cons.1 hz with rfl | hz
      · exact hle
      · exact strLe_trans hle (h1 z hz)
    · rename_i hle
      refine List.pairwise_cons.2 ⟨fun z hz => ?_, ih h2⟩
      rcases mem_insertByName' hz with rfl | hz
      · rcases strLe_total z.1 y.1 with h | h
        · exact absurd h hle
        · exact h
      · exact h1 z hz

theorem sortByName_sorted {α : Type} (l : List (Str × α)) : ByName (sortByName l) := by
  induction l with
  | nil => exact List.Pairwise.nil
  | cons x l ih => exact insertByName_sorted x ih

/-- A name that comes before that of a definition is among those that were before it. -/
theorem before_mem {α : Type} {l r : List (Str × α)} {x : Str × α} (h : ByName (l ++ x :: r)) {n : Str}
    (hm : n ∈ (l ++ x :: r).map Prod.fst) (hle : strLe n x.1 = true) (hne : n ≠ x.1) : n ∈ l.map Prod.fst := by
  rw [List.map_append, List.mem_append] at hm
  rcases hm with hm | hm
  · exact hm
  rw [List.map_cons, List.mem_cons] at hm
  rcases hm with hm | hm
  · exact absurd hm hne
  obtain ⟨y, hy, rfl⟩ := List.mem_map.1 hm
  have := (List.pairwise_append.1 h).2.1
  exact absurd (strLe_antisymm hle ((List.pairwise_cons.1 this).1 y hy)) hne

section
variable {bcfg : BuildCfg} {scfg : SchemaCfg} {A : Env} {cat : SchemaCatalog} {name : Str} {c : Nat}

/-! ### What the definitions are -/

/-- A definition is the schema of a registered type. -/
def DefSchema (scfg : SchemaCfg) (A : Env) (cat : SchemaCatalog) (names : List Str) (d : Str × Sch) : Prop :=
  ∃ k e us, lookupKey k cat.byType = some e ∧ e.identifier = d.1 ∧ typeToSchema scfg A cat true k.toTy = .ok (d.2, us) ∧
    ∀ u ∈ us, u.name ∈ names

theorem toTy_regKey (k : RegKey) : k.toTy.regKey = some k := by cases k <;> rfl

theorem schemaWithLookup_plain (hp : RebuildableProgram bcfg scfg A cat name c) {k : RegKey} {e : CatEntry Sch (List Json)}
    (he : lookupKey k cat.byType = some e) : schemaWithLookup scfg A cat (.ty k.toTy) = typeToSchema scfg A cat true k.toTy := by
  obtain ⟨h1, h2⟩ := hp.entry k e he
  simp only [schemaWithLookup, UseTy.ref, toTy_regKey, Catalog.get, he, h1, h2, entrySchema, useSchema, withExamples]
  cases typeToSchema scfg A cat true k.toTy with
  | error e => rfl
  | ok p => rfl

theorem document_defs (hA : A.Ok) (hp : RebuildableProgram bcfg scfg A cat name c) {us : List TypeUse} {Before : Str → Prop}
    (hus : ∀ u ∈ us, UseOf cat Before u) {defs : List (Str × Sch)} {m : Nat}
    (h : defineLoop scfg A cat m (addUses [] us) [] = .ok defs) :
    (defs.map Prod.fst).Nodup ∧ (∀ u ∈ us, u.name ∈ defs.map Prod.fst) ∧ ∀ d ∈ defs, DefSchema scfg A cat (defs.map Prod.fst) d := by
  obtain ⟨used, h1, h2, h3⟩ := defineLoop_rec (P := fun used defined =>
      (∀ n t, (n, t) ∈ used → ∃ k e, lookupKey k cat.byType = some e ∧ e.identifier = n ∧ t = .ty k.toTy) ∧
      (∀ d ∈ defined, DefSchema scfg A cat (used.map Prod.fst) d) ∧ ∀ u ∈ us, u.name ∈ used.map Prod.fst)
    (fun n t used defined s us' hn hP hsh hnd hnu hs => by
      obtain ⟨used0, defined0, hP0, hm⟩ := hn
      obtain ⟨k, e, he, hi, rfl⟩ := hP0.1 n t hm
      rw [schemaWithLookup_plain hp he] at hs
      obtain ⟨node, -, hu', -⟩ := rebuild hA hp.path hp.identifier (hp.types k e he) _ _ _ hs
      obtain ⟨a1, a2, a3⟩ := addUses_spec us' used
      refine ⟨fun n' t' h' => ?_, fun d hd => ?_, fun u hu => (a1 _).2 (.inl (hP.2.2 u hu))⟩
      · rcases a3 n' t' h' with h' | ⟨u, hu, rfl, rfl⟩
        · exact hP.1 n' t' h'
        · obtain ⟨k', e', g1, g2, g3, -⟩ := hu' u hu
          exact ⟨k', e', g1, g2.symm, g3⟩
      · rcases upsert_mem hd with hd | hd
        · subst hd
          exact ⟨k, e, us', he, hi, hs, fun u hu => (a1 _).2 (.inr ⟨u, hu, rfl⟩)⟩
        · obtain ⟨k', e', us'', g1, g2, g3, g4⟩ := hP.2.1 d hd
          exact ⟨k', e', us'', g1, g2, g3, fun u hu => (a1 _).2 (.inl (g4 u hu))⟩)
    m _ _ _ (loop_start us)
    (by
      obtain ⟨a1, a2, a3⟩ := addUses_spec us []
      refine ⟨fun n t hm => ?_, fun d hd => (by cases hd), fun u hu => (a1 _).2 (.inr ⟨u, hu, rfl⟩)⟩
      rcases a3 n t hm with hm | ⟨u, hu, rfl, rfl⟩
      · cases hm
      · obtain ⟨k', e', g1, g2, g3, -⟩ := hus u hu
        exact ⟨k', e', g1, g2.symm, g3⟩) h
  refine ⟨h1.definedNodup, fun u hu => h3 _ (h2.2.2 u hu), fun d hd => ?_⟩
  obtain ⟨k', e', us'', g1, g2, g3, g4⟩ := h2.2.1 d hd
  exact ⟨k', e', us'', g1, g2, g3, fun u hu => h3 _ (g4 u hu)⟩

/-! ### Making the definitions -/

theorem KnownDefs.imp {S S' : Str → Prop} {st : BuildSt} (h : KnownDefs bcfg A cat S st) (hi : ∀ n, S' n → S n) :
    KnownDefs bcfg A cat S' st := ⟨h.tidy, fun n hn => h.defs n (hi n hn)⟩

theorem Settled.tyIn {cfg : BuildCfg} {B : Env} {u : Ty} (h : Settled cfg B u) : TyIn cfg B u := by
  rcases h with ⟨c, cd, rfl, h2, h3⟩ | ⟨e, ed, rfl, h2, h3⟩
  · exact ⟨fun c' hc => by cases hc; exact ⟨cd, h2, h3⟩, fun e he => by cases he⟩
  · exact ⟨fun c he => (by cases he), fun c' hc => by cases hc; exact ⟨ed, h2, h3⟩⟩

theorem Settled.setModule {cfg : BuildCfg} {st : BuildSt} {u : Ty} (h : Settled cfg st.env u) :
    ∃ st', setModule cfg st u = .ok st' ∧ st'.env = st.env ∧ st'.attrs = st.attrs := by
  have : ∃ st', Verif.setModule cfg st u = .ok st' := by
    rcases h with ⟨c, cd, rfl, h2, h3⟩ | ⟨e, ed, rfl, h2, h3⟩ <;> exact ⟨_, rfl⟩
  obtain ⟨st', h'⟩ := this
  exact ⟨st', h', setModule_same h.tyIn h', (setModule_ok h').2⟩

theorem identifier_noNul {uni : Char → Bool} {s : Str} (h : ∀ x ∈ s, isWordChar uni x = true) :
    '\x00' ∉ s := by
  intro hm
  have := h _ hm
  simp [isWordChar, isDig] at this

/-- What `d` and `d'` are in `RebuildableProgram.apart`. -/
def DocumentName (cat : SchemaCatalog) (name d : Str) : Prop :=
  d = name ∨ ∃ k e, lookupKey k cat.byType = some e ∧ e.identifier = d

theorem apart_keys (hp : RebuildableProgram bcfg scfg A cat name c) {d d' : Str} (hd : DocumentName cat name d)
    (hd' : DocumentName cat name d') (hne : d ≠ d') {k : TKey} (h : KeyIn bcfg d k) (h' : KeyIn bcfg d' k) : False := by
  rcases inContext_apart h.2 h'.2 (hp.ends d hd) (hp.ends d' hd') with h | h | h
  · exact hne h
  · exact hp.apart d d' hd hd' h
  · exact hp.apart d' d hd' hd h

theorem definitions_make (hA : A.Ok) (hp : RebuildableProgram bcfg scfg A cat name c) {names : List Str} :
    ∀ (post pre : List (Str × Sch)), ByName (pre ++ post) → ((pre ++ post).map Prod.fst).Nodup →
      (pre ++ post).map Prod.fst = names → (∀ d ∈ pre ++ post, DefSchema scfg A cat names d) →
      ∃ ns : List (Str × TNode), All2 (fun d n => n.1 = d.1 ∧ ReadAs (.obj d.2) n.2) post ns ∧
        ∀ st, KnownDefs bcfg A cat (fun n => n ∈ pre.map Prod.fst) st →
          ∃ st', buildDefinitions bcfg ns st = .ok st' ∧ Adds st st' (fun k => ∃ d ∈ post, KeyIn bcfg d.1 k) ∧
            KnownDefs bcfg A cat (fun n => n ∈ names) st' := by
  intro post
  induction post with
  | nil =>
    intro pre _ _ hn _
    refine ⟨[], .nil, fun st hk => ⟨st, rfl, .refl, ?_⟩⟩
    rw [List.append_nil] at hn
    subst hn
    exact hk
  | cons d post ih =>
    intro pre hs hnd hn hd
    obtain ⟨k, e, us, he, hi, hsch, hus⟩ := hd d (by simp)
    obtain ⟨node, hr, hu, hmk⟩ := rebuild hA hp.path hp.identifier (hp.types k e he) _ _ _ hsch
    have hS : ∀ u ∈ us, u.name ∈ pre.map Prod.fst := by
      intro u hum
      obtain ⟨k', e', g1, g2, g3, g4, g5⟩ := hu u hum
      rw [hi, ← g2] at g4 g5
      exact before_mem hs (by rw [hn]; exact hus u hum) g4 g5
    have hsp : pre ++ d :: post = (pre ++ [d]) ++ post := by simp
    obtain ⟨ns, hns, hbuild⟩ := ih (pre ++ [d]) (by rw [← hsp]; exact hs) (by rw [← hsp]; exact hnd) (by rw [← hsp]; exact hn)
      (by rw [← hsp]; exact hd)
    refine ⟨(d.1, node) :: ns, .cons ⟨rfl, hr⟩ hns, fun st hk => ?_⟩
    rw [List.map_append, List.nodup_append] at hnd
    have hdoc : DocumentName cat name d.1 := .inr ⟨k, e, he, hi⟩
    have hpre : ∀ n ∈ pre.map Prod.fst, n ≠ d.1 := fun n hm hne => hnd.2.2 n hm d.1 (by simp) hne
    have hdn : ∀ n, DefSchema scfg A cat names n → DocumentName cat name n.1 := fun n hn => by
      obtain ⟨k', e', -, g1, g2, -⟩ := hn
      exact .inr ⟨k', e', g1, g2⟩
    have hfresh : FreshIn (fun n => n ∈ pre.map Prod.fst) d.1 := by
      intro n hm hc
      rcases hc with hc | hc
      · exact hpre n hm hc
      · obtain ⟨x, hx, rfl⟩ := List.mem_map.1 hm
        exact hp.apart d.1 x.1 hdoc (hdn x (hd x (by simp [hx]))) hc
    have h0 : '\x00' ∉ d.1 := by rw [← hi]; exact identifier_noNul (hp.identifier k e he).2
    obtain ⟨u, st1, g1, g2, g3, g4⟩ := hmk _ hS d.1 st hfresh h0 hk
    obtain ⟨st2, m1, m2, m3⟩ := (g4.settled (by rw [toTy_regKey]; rfl)).setModule
    have hk2 : KnownDefs bcfg A cat (fun n => n ∈ (pre ++ [d]).map Prod.fst) { st2 with attrs := upsert d.1 u st2.attrs } := by
      refine ⟨by simp only [m2]; exact g3.tidy, fun n hm k' e' he' hi' => ?_⟩
      simp only [lookupKey_upsert, m3, m2]
      by_cases hne : d.1 = n
      · rw [if_pos hne]
        have := hp.unique k' e' k e he' he (by rw [hi', hi, hne])
        subst this
        exact ⟨u, rfl, g4⟩
      · rw [if_neg hne]
        refine g3.defs n ?_ k' e' he' hi'
        simp only [List.map_append, List.mem_append, List.map_cons, List.map_nil, List.mem_singleton] at hm
        rcases hm with hm | hm
        · exact hm
        · exact absurd hm.symm hne
    obtain ⟨st', b1, b2, b3⟩ := hbuild _ hk2
    refine ⟨st', ?_, ?_, b3⟩
    · simp only [buildDefinitions, g1, Option.isSome_none, Bool.false_eq_true, if_false, m1]
      exact b1
    · refine ((g2.env { st2 with attrs := upsert d.1 u st2.attrs } m2).trans b2 ?_).imp ?_
      · rintro key hk1 ⟨y, hy, hk'⟩
        refine apart_keys hp hdoc (hdn y (hd y (by simp [hy]))) ?_ hk1 hk'
        intro heq
        have := hnd.2.1
        rw [List.map_cons, List.nodup_cons] at this
        exact this.1 (heq ▸ List.mem_map.2 ⟨y, hy, rfl⟩)
      · rintro key (hk1 | ⟨y, hy, hk'⟩)
        · exact ⟨d, by simp, hk1⟩
        · exact ⟨y, by simp [hy], hk'⟩

/-! ### The document -/

theorem readAsD_map {D : List (Str × Sch)} {ns : List (Str × TNode)}
    (h : All2 (fun d n => n.1 = d.1 ∧ ReadAs (.obj d.2) n.2) D ns) : ReadAsD (D.map fun d => (d.1, .obj d.2)) ns := by
  induction h with
  | nil => exact .nil
  | cons h _ ih => exact .cons h ih

/-- The class is made from its schema, and values of both are written alike. -/
theorem document_make (hA : A.Ok) (hp : RebuildableProgram bcfg scfg A cat name c) {root : Sch}
    (h : classdefToSchema scfg A cat (.cls c) = .ok root) {E : Env} (hE : E.enums = [] ∧ E.classes = [] ∧ ∀ l, (E.setOrder l).Perm l) :
    ∃ u st, schemaToType bcfg name (.obj root) ⟨E, [], []⟩ = .ok (u, st) ∧ st.env.Ok ∧ Mirror A st.env (.cls c) u := by
  obtain ⟨s, us, defs, h1, h2, h3⟩ := document_ok h
  have hcls : ∃ cd q, A.classes[c]? = some cd ∧ cd.kind = .dataclass q ∧ cd.toJson = Option.none ∧ cd.fields ≠ [] ∧
      (∀ f ∈ cd.fields, FieldFits bcfg f) ∧ (cd.fields.map FieldDef.jsonName).Nodup ∧
      ∀ f ∈ cd.fields, Rebuildable bcfg A cat (fun _ => True) false f.ty.required := by
    cases hp.root with
    | known hk he _ => cases hk; rw [hp.unregistered] at he; cases he
    | leaf ht => simp [rebuiltTys] at ht
    | cls _ a1 a2 a3 a4 a5 a6 a7 => exact ⟨_, _, a1, a2, a3, a4, a5, a6, a7⟩
  obtain ⟨cd, q, c1, c2, c3, c4, c5, c6, c7⟩ := hcls
  simp only [typeToSchema, tySchema, hp.unregistered, Bool.false_eq_true, if_false] at h1
  obtain ⟨ss, ns, req, rfl, p1, p2, p3, p4, p5⟩ := cls_parts c1 c2 c3 c4 c5 c6
    (fun f hf m s us hs => rebuild hA hp.path hp.identifier (c7 f hf) m s us hs) h1
  obtain ⟨d1, d2, d3⟩ := document_defs hA hp p4 h2
  have hD := sortByName_perm defs
  have hmemD : ∀ n, n ∈ (sortByName defs).map Prod.fst ↔ n ∈ defs.map Prod.fst := fun n => (hD.map Prod.fst).mem_iff
  generalize hdd : sortByName defs = D at h3 hD hmemD
  have hDs : ByName D := hdd ▸ sortByName_sorted defs
  have hDn : (D.map Prod.fst).Nodup := hdd ▸ sortByName_keys_nodup d1
  have hDd : ∀ d ∈ D, DefSchema scfg A cat (D.map Prod.fst) d := fun d hd => by
    obtain ⟨k, e, us, g1, g2, g3, g4⟩ := d3 d (hD.mem_iff.1 hd)
    exact ⟨k, e, us, g1, g2, g3, fun u hu => (hmemD _).2 (g4 u hu)⟩
  obtain ⟨dns, hdns, hbuild⟩ := definitions_make hA hp (names := D.map Prod.fst) D [] hDs hDn rfl hDd
  -- the keywords of the document
  have hks : KeysOk (classSchema ss req) := by
    have := typeToSchema_rec (cfg := scfg) (env := A) (cat := cat) keys_closed (force := false) (t := .cls c) (s := classSchema ss req) (us := us)
      (by simp only [typeToSchema, tySchema, hp.unregistered, Bool.false_eq_true, if_false]; exact h1)
    exact this
  have hb : ((if D.isEmpty then []
      else [(c!"definitions", Json.obj (D.map fun d => (d.1, .obj d.2)))]).map Prod.fst).Nodup := by split <;> simp
  have hl : ∀ k, lookupKey k root = match lookupKey k (classSchema ss req) with
      | some a => some a
      | none => match lookupKey k (if D.isEmpty then []
          else [(c!"definitions", Json.obj (D.map fun d => (d.1, .obj d.2)))]) with
        | some a => some a
        | none => lookupKey k [(c!"$schema", js metaSchemaId)] := by
    intro k
    rw [h3, document_lookup _ hb, lookupKey_updateSch k _ _ hks.1]
    cases lookupKey k (classSchema ss req) <;> rfl
  have hsame : ∀ k, k ≠ c!"definitions" → k ≠ c!"$schema" → lookupKey k root = lookupKey k (classSchema ss req) := by
    intro k k1 k2
    have e1 : lookupKey k (if D.isEmpty then []
          else [(c!"definitions", Json.obj (D.map fun d => (d.1, .obj d.2)))]) = Option.none := by
      split
      · rfl
      · simp [lookupKey, Ne.symm k1]
    have e2 : lookupKey k [(c!"$schema", js metaSchemaId)] = Option.none := by simp [lookupKey, Ne.symm k2]
    rw [hl, e1, e2]
    cases lookupKey k (classSchema ss req) <;> rfl
  have hschema : lookupKey c!"$schema" root = some (.str metaSchemaId) := by
    have e1 : lookupKey c!"$schema" (if D.isEmpty then []
          else [(c!"definitions", Json.obj (D.map fun d => (d.1, .obj d.2)))]) = Option.none := by
      split
      · rfl
      · simp [lookupKey]
    rw [hl, lookupKey_none_iff'.2 hks.2.2, e1]
    rfl
  have hdefs : ∃ ds, DefsRead root ds ∧ ds.getD [] = dns := by
    cases D with
    | nil =>
      cases hdns
      refine ⟨Option.none, .absent ?_, rfl⟩
      rw [hl, lookupKey_none_iff'.2 hks.2.1]
      rfl
    | cons d D =>
      refine ⟨some dns, .some (xs := (d :: D).map fun d => (d.1, .obj d.2)) ?_ ?_ ?_, rfl⟩
      · rw [hl, lookupKey_none_iff'.2 hks.2.1]
        rfl
      · simpa [List.map_map, Function.comp_def] using hDn
      · exact readAsD_map hdns
  obtain ⟨ds, hds, hdse⟩ := hdefs
  have htop := top_read (kvs := root) (cls_keywords (req := req) p1 (by simp) (by simp) fun k x hx hk => by
      rw [← hsame k (fun e => hk (by simp [e])) (fun e => hk (by simp [e]))]; exact hx)
    (by show lookupKey c!"type" root = _; rw [hsame _ (by decide) (by decide)]; rfl) hschema
    (by rw [hsame _ (by decide) (by decide)]; exact classSchema_properties ss req p1) p2 p3 hds
  have ha : kvBool c!"additionalProperties" root = some false := by
    simp only [kvBool, hsame _ (show c!"additionalProperties" ≠ c!"definitions" by decide) (by decide), classSchema_additional p1]
  rw [ha] at htop
  -- the types
  have hk0 : KnownDefs bcfg A cat (fun n => n ∈ ([] : List (Str × Sch)).map Prod.fst) ⟨E, [], []⟩ := by
    refine ⟨⟨?_, ?_, hE.2.2⟩, fun n hn => by cases hn⟩
    · intro ed hed; rw [show (BuildSt.mk E [] []).env.enums = [] from hE.1] at hed; cases hed
    · intro ed hed; rw [show (BuildSt.mk E [] []).env.classes = [] from hE.2.1] at hed; cases hed
  obtain ⟨st1, b1, b2, b3⟩ := hbuild _ hk0
  have hfresh : FreshIn (fun n => n ∈ D.map Prod.fst) name := by
    intro n hm hc
    obtain ⟨x, hx, rfl⟩ := List.mem_map.1 hm
    obtain ⟨k, e, us, g1, g2, -⟩ := hDd x hx
    rcases hc with hc | hc
    · exact hp.top k e g1 (g2.trans hc)
    · exact hp.apart name x.1 (.inl rfl) (.inr ⟨k, e, g1, g2⟩) hc
  obtain ⟨u, st, g1, g2, g3, g4⟩ := p5 (fun n => n ∈ D.map Prod.fst) _ (fun u hu => (hmemD _).2 (d2 u hu))
    (kvStrs_required ss req p1 root (hsame _ (by decide) (by decide))) name st1 hfresh hp.nul b3
  refine ⟨u, st, ?_, ?_, g4.mirror⟩
  · simp only [schemaToType, htop, hdse, b1, g1]
  · obtain ⟨es, cs, e1, e2, e3, -⟩ := (b2.trans g2 (by
      rintro key ⟨d, hd, hk⟩ hk'
      obtain ⟨k, e, us, q1, q2, -⟩ := hDd d hd
      exact apart_keys hp (.inr ⟨k, e, q1, q2⟩) (.inl rfl) (fun h => hp.top k e q1 (q2.trans h)) hk hk')).more
    rw [show (BuildSt.mk E [] []).env.enums = [] from hE.1, List.nil_append] at e1
    rw [show (BuildSt.mk E [] []).env.classes = [] from hE.2.1, List.nil_append] at e2
    refine ⟨?_, g3.tidy.enums, g3.tidy.fields, g3.tidy.setOrder⟩
    rw [e1, e2]
    exact e3
end

end Verif
