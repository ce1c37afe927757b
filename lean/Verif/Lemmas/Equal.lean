import Verif.Spec.Equal
import Verif.Lemmas.RoundTrip
import Verif.Lemmas.SchemaLoop
import Verif.Lemmas.TypeName
import Verif.Props.C14_StaticDynamic
/-!
# Equal objects are written alike: lemmas
-/
namespace Verif

theorem EqualOutcome.rfl' {r : Res Json} : EqualOutcome r r := by
  cases r with
  | ok j => exact .inl ⟨j, j, rfl, rfl, .same⟩
  | error e => exact .inr ⟨e, e, rfl, rfl⟩

theorem EqualOutcome.of_eq {r s : Res Json} (h : r = s) : EqualOutcome r s := h ▸ EqualOutcome.rfl'

/-- Two JSON objects under construction. -/
def AccEqual (ps qs : List (Str × Json)) : Prop :=
  (∀ s, s ∈ ps.map Prod.fst ↔ s ∈ qs.map Prod.fst) ∧
    ∀ s x y, lookupKey s ps = some x → lookupKey s qs = some y → JsonEqual x y

theorem AccEqual.nil : AccEqual [] [] := ⟨fun _ => .rfl, fun _ _ _ h => by simp [lookupKey] at h⟩

theorem AccEqual.upsert {ps qs : List (Str × Json)} (h : AccEqual ps qs) {s : Str} {x y : Json} (hxy : JsonEqual x y) :
    AccEqual (upsert s x ps) (upsert s y qs) := by
  refine ⟨fun s' => ?_, fun s' x' y' hx hy => ?_⟩
  · rw [mem_upsert_keys, mem_upsert_keys, h.1]
  · rw [lookupKey_upsert] at hx hy
    split at hx
    · rename_i hs
      rw [if_pos hs] at hy
      cases hx
      cases hy
      exact hxy
    · rename_i hs
      rw [if_neg hs] at hy
      exact h.2 _ _ _ hx hy

theorem AccEqual.done {ps qs : List (Str × Json)} (h : AccEqual ps qs) : EqualOutcome (.ok (.obj ps)) (.ok (.obj qs)) :=
  .inl ⟨_, _, rfl, rfl, .obj h.1 h.2⟩

/-! ### Sequences -/

theorem mapRes_equal {f g : α → Res Json} {vs ws : List α} (h : All2 (fun v w => EqualOutcome (f v) (g w)) vs ws) :
    (∃ xs ys, mapRes f vs = .ok xs ∧ mapRes g ws = .ok ys ∧ All2 JsonEqual xs ys) ∨
      ∃ e e', mapRes f vs = .error e ∧ mapRes g ws = .error e' := by
  induction h with
  | nil => exact .inl ⟨[], [], rfl, rfl, .nil⟩
  | cons h1 _ ih =>
    rcases h1 with ⟨j, k, hj, hk, hjk⟩ | ⟨e, e', he, he'⟩
    · rcases ih with ⟨xs, ys, hx, hy, hxy⟩ | ⟨e, e', he, he'⟩
      · exact .inl ⟨j :: xs, k :: ys, by simp [mapRes, hj, hx], by simp [mapRes, hk, hy], .cons hjk hxy⟩
      · exact .inr ⟨e, e', by simp [mapRes, hj, he], by simp [mapRes, hk, he']⟩
    · exact .inr ⟨e, e', by simp [mapRes, he], by simp [mapRes, he']⟩

theorem arrOf_equal {f g : α → Res Json} {vs ws : List α} (h : All2 (fun v w => EqualOutcome (f v) (g w)) vs ws) :
    EqualOutcome (arrOf (mapRes f vs)) (arrOf (mapRes g ws)) := by
  rcases mapRes_equal h with ⟨xs, ys, hx, hy, hxy⟩ | ⟨e, e', he, he'⟩
  · refine .inl ⟨.arr xs, .arr ys, by rw [hx]; rfl, by rw [hy]; rfl, .arr hxy.length fun i x y h1 h2 => ?_⟩
    obtain ⟨z, hz, hr⟩ := hxy.get i x h1
    rw [h2] at hz
    cases hz
    exact hr
  · exact .inr ⟨e, e', by rw [he]; rfl, by rw [he']; rfl⟩

/-! ### Class instances -/

theorem PyEqual.isNone {env : Env} {cross : Bool} {v w : Val} (h : PyEqual env cross v w) : v.isNone = w.isNone := by
  cases h with
  | scalar h1 h2 h3 =>
    cases v <;> simp [Val.scalar] at h1 <;> cases w <;> simp [Val.scalar] at h2 <;> subst h1 <;> subst h2 <;>
      simp [Scalar.pyEq, Scalar.asInt, Val.isNone] at h3 ⊢
  | _ => rfl

/-- What `generate` sees of two instances of a class. -/
def FieldsAlike (fs gs : List (Str × Val × (Ty → Res Json))) (ty : FieldDef → Ty) (fds : List FieldDef) : Prop :=
  ∀ fd ∈ fds, ∃ v w f g, lookupKey fd.name fs = some (v, f) ∧ lookupKey fd.name gs = some (w, g) ∧ v.isNone = w.isNone ∧
    EqualOutcome (f (ty fd)) (g (ty fd))

theorem genProps_equal {kind : ClassKind} {fs gs : List (Str × Val × (Ty → Res Json))} :
    ∀ (fds : List FieldDef) (acc acc' : List (Str × Json)), AccEqual acc acc' → FieldsAlike fs gs FieldDef.ty fds →
      EqualOutcome (genProps kind fs acc fds) (genProps kind gs acc' fds) := by
  intro fds
  induction fds with
  | nil => intro acc acc' ha _; exact ha.done
  | cons fd r ih =>
    intro acc acc' ha h
    obtain ⟨v, w, f, g, h1, h2, h3, h4⟩ := h fd (by simp)
    have ih' := fun acc acc' ha => ih acc acc' ha fun x hx => h x (by simp [hx])
    simp only [genProps, h1, h2]
    rw [h3]
    split
    · exact ih' _ _ ha
    · rcases h4 with ⟨j, k, hj, hk, hjk⟩ | ⟨e, e', he, he'⟩
      · simp only [hj, hk]
        exact ih' _ _ (ha.upsert hjk)
      · simp only [he, he']
        exact .inr ⟨e, e', rfl, rfl⟩

theorem genUntypedTuple_equal {fs gs : List (Str × Val × (Ty → Res Json))} :
    ∀ (fds : List FieldDef) (acc acc' : List (Str × Json)), AccEqual acc acc' → FieldsAlike fs gs (fun _ => dynTy) fds →
      EqualOutcome (genUntypedTuple fs acc fds) (genUntypedTuple gs acc' fds) := by
  intro fds
  induction fds with
  | nil => intro acc acc' ha _; exact ha.done
  | cons fd r ih =>
    intro acc acc' ha h
    obtain ⟨v, w, f, g, h1, h2, _, h4⟩ := h fd (by simp)
    simp only [genUntypedTuple, h1, h2]
    rcases h4 with ⟨j, k, hj, hk, hjk⟩ | ⟨e, e', he, he'⟩
    · simp only [hj, hk]
      exact ih _ _ (ha.upsert hjk) fun x hx => h x (by simp [hx])
    · simp only [he, he']
      exact .inr ⟨e, e', rfl, rfl⟩

/-! ### Dictionaries -/

/-- The conversion of keys is defined on, and distinguishes, the keys of a dictionary. -/
theorem keysAlike_conv {env : Env} (hk : env.Ok) {ks : List Key} (h : KeysAlike env ks) {conv : Key → Res Str}
    (hc : (conv = keyStr env ∧ ∀ k ∈ ks, ∀ e m, k ≠ .enum e m) ∨ (conv = keyValue env ∧ ∃ e m, Key.enum e m ∈ ks)) :
    ∀ k ∈ ks, ∀ k' ∈ ks, ∀ s, conv k = .ok s → conv k' = .ok s → k = k' := by
  intro k hm k' hm' s h1 h2
  rcases h with h | h | ⟨e, ed, hed, h⟩
  · rcases hc with ⟨rfl, _⟩ | ⟨rfl, e, m, hem⟩
    · obtain ⟨a, rfl⟩ := h k hm
      obtain ⟨b, rfl⟩ := h k' hm'
      simp only [keyStr, Except.ok.injEq] at h1 h2
      rw [h1, h2]
    · obtain ⟨a, ha⟩ := h _ hem
      cases ha
  · rcases hc with ⟨rfl, _⟩ | ⟨rfl, e, m, hem⟩
    · obtain ⟨a, rfl⟩ := h k hm
      obtain ⟨b, rfl⟩ := h k' hm'
      simp only [keyStr, Except.ok.injEq] at h1 h2
      have : intStr a ++ [] = intStr b ++ [] := by simp [h1, h2]
      rw [(intStr_cancel (by simp [NoDigit]) (by simp [NoDigit]) this).1]
    · obtain ⟨a, ha⟩ := h _ hem
      cases ha
  · obtain ⟨m, rfl, hml⟩ := h k hm
    obtain ⟨n, rfl, hnl⟩ := h k' hm'
    rcases hc with ⟨rfl, hno⟩ | ⟨rfl, _⟩
    · exact absurd rfl (hno _ hm e m)
    · simp only [keyValue, enumValue, hed, List.getElem?_eq_getElem hml, List.getElem?_eq_getElem hnl] at h1 h2
      have hok := hk.enums ed (List.mem_of_getElem? hed)
      rcases Nat.lt_trichotomy m n with hlt | rfl | hlt
      · have := List.pairwise_iff_getElem.1 hok m n hml hnl hlt
        generalize ed.members[m] = p at h1 this
        generalize ed.members[n] = q at h2 this
        obtain ⟨p1, p2⟩ := p
        obtain ⟨q1, q2⟩ := q
        cases p2 <;> simp [Scalar.jsonKey] at h1 <;> cases q2 <;> simp [Scalar.jsonKey] at h2
        subst h1 h2
        simp [Scalar.pyEq] at this
      · rfl
      · have := List.pairwise_iff_getElem.1 hok n m hnl hml hlt
        generalize ed.members[m] = p at h1 this
        generalize ed.members[n] = q at h2 this
        obtain ⟨p1, p2⟩ := p
        obtain ⟨q1, q2⟩ := q
        cases p2 <;> simp [Scalar.jsonKey] at h1 <;> cases q2 <;> simp [Scalar.jsonKey] at h2
        subst h1 h2
        simp [Scalar.pyEq] at this

/-- The pairs that are written for a dictionary. -/
def Pairs (conv : Key → Res Str) (out : Val → Res Json) (kvs : List (Key × Val)) (ps : List (Str × Json)) : Prop :=
  All2 (fun kv p => conv kv.1 = .ok p.1 ∧ out kv.2 = .ok p.2) kvs ps

theorem all2_of_ok {conv : Key → Res Str} {out : Val → Res Json} : ∀ {kvs : List (Key × Val)},
    (∀ kv ∈ kvs, (∃ s, conv kv.1 = .ok s) ∧ ∃ j, out kv.2 = .ok j) → ∃ ps, Pairs conv out kvs ps
  | [], _ => ⟨[], .nil⟩
  | kv :: r, h => by
    obtain ⟨ps, hps⟩ := all2_of_ok (kvs := r) fun x hx => h x (by simp [hx])
    obtain ⟨⟨s, hs⟩, j, hj⟩ := h kv (by simp)
    exact ⟨(s, j) :: ps, .cons ⟨hs, hj⟩ hps⟩

theorem pairs_nodup {conv : Key → Res Str} {out : Val → Res Json} {kvs : List (Key × Val)} {ps : List (Str × Json)}
    (h : Pairs conv out kvs ps) (hn : (kvs.map Prod.fst).Nodup)
    (hi : ∀ k ∈ kvs.map Prod.fst, ∀ k' ∈ kvs.map Prod.fst, ∀ s, conv k = .ok s → conv k' = .ok s → k = k') :
    (ps.map Prod.fst).Nodup := by
  induction h with
  | nil => simp
  | @cons kv p kvs ps h1 h2 ih =>
    simp only [List.map_cons, List.nodup_cons] at hn ⊢
    refine ⟨fun hm => ?_, ih hn.2 fun k hk k' hk' => hi k (by simp only [List.map_cons, List.mem_cons]; exact .inr hk) k'
      (by simp only [List.map_cons, List.mem_cons]; exact .inr hk')⟩
    obtain ⟨q, hq, he⟩ := List.mem_map.1 hm
    obtain ⟨kv', hkv', h3, _⟩ := h2.mem_right hq
    have : kv.1 = kv'.1 := hi _ (by simp) _ (by
      simp only [List.map_cons, List.mem_cons]; exact .inr (List.mem_map.2 ⟨kv', hkv', rfl⟩)) p.1 h1.1 (by rw [h3, he])
    exact hn.1 (this ▸ List.mem_map.2 ⟨kv', hkv', rfl⟩)

theorem pairs_written {env : Env} {conv : Key → Res Str} {kvs : List (Key × Val)} {ps : List (Str × Json)}
    (h : Pairs conv (objectToJson env) kvs ps) (hn : (ps.map Prod.fst).Nodup) :
    genPairs conv dynTy [] (kvs.map fun kv => (kv.1, gen env kv.2)) = .ok (.obj ps) := by
  have h' : All2 (fun (f : Key × (Ty → Res Json)) p => conv f.1 = .ok p.1 ∧ f.2 dynTy = .ok p.2)
      (kvs.map fun kv => (kv.1, gen env kv.2)) ps := by
    clear hn
    induction h with
    | nil => exact .nil
    | cons h1 _ ih => exact .cons ⟨h1.1, by simpa only [gen_dyn] using h1.2⟩ ih
  simpa using genPairs_ok _ ps [] h' (by simpa using hn)

theorem pairs_of_written {env : Env} {conv : Key → Res Str} {kvs : List (Key × Val)} {j : Json}
    (h : genPairs conv dynTy [] (kvs.map fun kv => (kv.1, gen env kv.2)) = .ok j) :
    ∃ ps, Pairs conv (objectToJson env) kvs ps := by
  obtain ⟨ps, hps⟩ := genPairs_inv _ _ _ h
  refine ⟨ps, ?_⟩
  clear h
  induction kvs generalizing ps with
  | nil => cases hps; exact .nil
  | cons kv r ih =>
    cases hps with
    | cons h1 h2 => exact .cons ⟨h1.1, by simpa only [gen_dyn] using h1.2⟩ (ih _ h2)

/-- Two dictionaries with the same keys and equal values are written alike. -/
theorem genPairs_equal {env : Env} {conv : Key → Res Str} {kvs kws : List (Key × Val)}
    (hp : (kvs.map Prod.fst).Perm (kws.map Prod.fst)) (hn : (kvs.map Prod.fst).Nodup)
    (hi : ∀ k ∈ kvs.map Prod.fst, ∀ k' ∈ kvs.map Prod.fst, ∀ s, conv k = .ok s → conv k' = .ok s → k = k')
    (hv : ∀ k v w, (k, v) ∈ kvs → (k, w) ∈ kws → EqualOutcome (objectToJson env v) (objectToJson env w)) :
    EqualOutcome (genPairs conv dynTy [] (kvs.map fun kv => (kv.1, gen env kv.2)))
      (genPairs conv dynTy [] (kws.map fun kv => (kv.1, gen env kv.2))) := by
  have hn' : (kws.map Prod.fst).Nodup := hp.nodup_iff.1 hn
  have hi' : ∀ k ∈ kws.map Prod.fst, ∀ k' ∈ kws.map Prod.fst, ∀ s, conv k = .ok s → conv k' = .ok s → k = k' :=
    fun k hk k' hk' => hi k (hp.mem_iff.2 hk) k' (hp.mem_iff.2 hk')
  have partner : ∀ kv ∈ kvs, ∃ w, (kv.1, w) ∈ kws := fun kv hkv => by
    obtain ⟨x, hx, he⟩ := List.mem_map.1 (hp.mem_iff.1 (List.mem_map.2 ⟨kv, hkv, rfl⟩))
    exact ⟨x.2, he ▸ hx⟩
  have partner' : ∀ kw ∈ kws, ∃ v, (kw.1, v) ∈ kvs := fun kw hkw => by
    obtain ⟨x, hx, he⟩ := List.mem_map.1 (hp.mem_iff.2 (List.mem_map.2 ⟨kw, hkw, rfl⟩))
    exact ⟨x.2, he ▸ hx⟩
  have both : ∀ ps qs, Pairs conv (objectToJson env) kvs ps → Pairs conv (objectToJson env) kws qs →
      EqualOutcome (genPairs conv dynTy [] (kvs.map fun kv => (kv.1, gen env kv.2)))
        (genPairs conv dynTy [] (kws.map fun kv => (kv.1, gen env kv.2))) := by
    intro ps qs hps hqs
    have n1 := pairs_nodup hps hn hi
    have n2 := pairs_nodup hqs hn' hi'
    rw [pairs_written hps n1, pairs_written hqs n2]
    refine AccEqual.done ⟨fun s => ⟨fun hs => ?_, fun hs => ?_⟩, fun s x y hx hy => ?_⟩
    · obtain ⟨p, hp1, rfl⟩ := List.mem_map.1 hs
      obtain ⟨kv, hkv, h1, _⟩ := hps.mem_right hp1
      obtain ⟨w, hw⟩ := partner kv hkv
      obtain ⟨q, hq, h2, _⟩ := hqs.mem_left hw
      simp only [h1, Except.ok.injEq] at h2
      exact List.mem_map.2 ⟨q, hq, h2.symm⟩
    · obtain ⟨q, hq1, rfl⟩ := List.mem_map.1 hs
      obtain ⟨kw, hkw, h1, _⟩ := hqs.mem_right hq1
      obtain ⟨v, hv⟩ := partner' kw hkw
      obtain ⟨p, hp, h2, _⟩ := hps.mem_left hv
      simp only [h1, Except.ok.injEq] at h2
      exact List.mem_map.2 ⟨p, hp, h2.symm⟩
    · obtain ⟨kv, hkv, h1, h2⟩ := hps.mem_right (lookupKey_some_mem hx)
      obtain ⟨kw, hkw, h3, h4⟩ := hqs.mem_right (lookupKey_some_mem hy)
      have hkey : kv.1 = kw.1 := hi _ (List.mem_map.2 ⟨kv, hkv, rfl⟩) _
        (hp.mem_iff.2 (List.mem_map.2 ⟨kw, hkw, rfl⟩)) s h1 h3
      rcases hv kv.1 kv.2 kw.2 hkv (hkey ▸ hkw) with ⟨j, k, hj, hk, hjk⟩ | ⟨e, e', he, _⟩
      · rw [h2] at hj
        rw [h4] at hk
        cases hj
        cases hk
        exact hjk
      · rw [h2] at he
        cases he
  have fwd : ∀ ps, Pairs conv (objectToJson env) kvs ps → ∃ qs, Pairs conv (objectToJson env) kws qs := by
    intro ps hps
    refine all2_of_ok fun kw hkw => ?_
    obtain ⟨v, hv'⟩ := partner' kw hkw
    obtain ⟨p, _, h1, h2⟩ := hps.mem_left hv'
    refine ⟨⟨p.1, h1⟩, ?_⟩
    rcases hv kw.1 v kw.2 hv' hkw with ⟨_, k, _, hk, _⟩ | ⟨e, e', he, _⟩
    · exact ⟨k, hk⟩
    · simp only [h2] at he
      cases he
  have bwd : ∀ qs, Pairs conv (objectToJson env) kws qs → ∃ ps, Pairs conv (objectToJson env) kvs ps := by
    intro qs hqs
    refine all2_of_ok fun kv hkv => ?_
    obtain ⟨w, hw⟩ := partner kv hkv
    obtain ⟨q, _, h1, h2⟩ := hqs.mem_left hw
    refine ⟨⟨q.1, h1⟩, ?_⟩
    rcases hv kv.1 kv.2 w hkv hw with ⟨j, _, hj, _, _⟩ | ⟨e, e', _, he⟩
    · exact ⟨j, hj⟩
    · simp only [h2] at he
      cases he
  cases hr : genPairs conv dynTy [] (kvs.map fun kv => (kv.1, gen env kv.2)) with
  | ok j =>
    obtain ⟨ps, hps⟩ := pairs_of_written hr
    obtain ⟨qs, hqs⟩ := fwd ps hps
    exact hr ▸ both ps qs hps hqs
  | error e =>
    cases hs : genPairs conv dynTy [] (kws.map fun kv => (kv.1, gen env kv.2)) with
    | error e' => exact .inr ⟨e, e', rfl, rfl⟩
    | ok k =>
      obtain ⟨qs, hqs⟩ := pairs_of_written hs
      obtain ⟨ps, hps⟩ := bwd qs hqs
      rw [pairs_written hps (pairs_nodup hps hn hi)] at hr
      cases hr

/-- Which conversion of keys `UntypedDictSerializer` chooses. -/
theorem untypedKey_choice {env : Env} {kvs : List (Key × Val)} (h : KeysAlike env (kvs.map Prod.fst)) :
    (untypedKey env (kvs.map fun kv => (kv.1, gen env kv.2)) = keyStr env ∧ ∀ k ∈ kvs.map Prod.fst, ∀ e m, k ≠ .enum e m) ∨
      (untypedKey env (kvs.map fun kv => (kv.1, gen env kv.2)) = keyValue env ∧ ∃ e m, Key.enum e m ∈ kvs.map Prod.fst) := by
  cases kvs with
  | nil => exact .inl ⟨rfl, by simp⟩
  | cons kv r =>
    obtain ⟨k, v⟩ := kv
    cases k with
    | enum e m => exact .inr ⟨rfl, e, m, by simp⟩
    | str s =>
      refine .inl ⟨rfl, fun k hk e m he => ?_⟩
      rcases h with h | h | ⟨e', ed, _, h⟩
      · obtain ⟨s, hs⟩ := h k hk; rw [he] at hs; cases hs
      · obtain ⟨s, hs⟩ := h k hk; rw [he] at hs; cases hs
      · obtain ⟨s, hs, _⟩ := h (.str s) (by simp); cases hs
    | int i =>
      refine .inl ⟨rfl, fun k hk e m he => ?_⟩
      rcases h with h | h | ⟨e', ed, _, h⟩
      · obtain ⟨s, hs⟩ := h k hk; rw [he] at hs; cases hs
      · obtain ⟨s, hs⟩ := h k hk; rw [he] at hs; cases hs
      · obtain ⟨s, hs, _⟩ := h (.int i) (by simp); cases hs

end Verif
