import Verif.Lemmas.Liberal
/-!
# Liberties in unions: the members of unions read what they admit
-/
namespace Verif

variable {vc : ValidatorCfg} {cfg : SchemaCfg} {env : Env} {cat : SchemaCatalog} {root : Json} {names : Str → Prop}

/-- The type, the data and the schema are of the kinds for which valid data is read (C62). -/
structure ReadWhenValid (cfg : SchemaCfg) (env : Env) (cat : SchemaCatalog) (names : Str → Prop) (t : Ty) (j : Json) : Prop where
  wf : j.Wf
  ints : SmallInts j
  kind : Dependable env t
  floats : ¬ FloatForInt env t j
  schema : ∃ fwd skip s, TySch cfg env cat names fwd skip t s ∧ FwdOk env cat fwd skip t

theorem readWhenValid_inherited (hp : SchemaNames cfg env cat) (hk : env.Ok) (hcr : ∀ cd ∈ env.classes, ClassReads env cd)
    (hg : GoodDoc cfg env cat root names) (hfm : FormatsRead vc) :
    Inherited vc cfg env (ReadWhenValid cfg env cat names) := by
  refine ⟨?_, ?_, ?_, ?_, ?_, ?_, ?_⟩
  · rintro t ms j ⟨hw, hi, hd, hfl, fwd, skip, s, ⟨m, us, h1, h2⟩, hf⟩
    refine ⟨hw, hi, ?_, fun h => hfl (.annotated h), ?_⟩
    · cases hd with
      | leaf h => simp at h
      | annotated h => exact h
    · have hf' : FwdOk env cat fwd true t := fun hfw k b ho => hf hfw k b (.annotated ho)
      simp only [tySchema] at h1
      split at h1
      · rename_i base hb
        exact ⟨fwd, true, base, ⟨m, [], by
          cases t <;> simp only [simpleSchema, Option.some.injEq, reduceCtorEq] at hb <;> subst hb <;> rfl, by simp [UsesIn]⟩, hf'⟩
      · exact ⟨fwd, true, s, ⟨m, us, h1, h2⟩, hf'⟩
  · rintro t x xs ⟨hw, hi, hd, hfl, fwd, skip, s, ⟨m, us, h1, h2⟩, hf⟩ hx
    refine ⟨?_, hi.arr x hx, ?_, fun h => hfl (.list hx h), ?_⟩
    · cases hw with | arr hw => exact hw x hx
    · cases hd with
      | leaf h => simp at h
      | list h => exact h
    · simp only [tySchema] at h1
      rw [SchRes.map_ok] at h1
      obtain ⟨s1, h1, _⟩ := h1
      refine ⟨fwd, fwd, s1, ⟨m, us, h1, h2⟩, ?_⟩
      intro hfw k b ho
      subst hfw
      exact hf rfl k b (.list ho)
  · rintro t x xs ⟨hw, hi, hd, hfl, fwd, skip, s, ⟨m, us, h1, h2⟩, hf⟩ hx
    refine ⟨?_, hi.arr x hx, ?_, fun h => hfl (.set hx h), ?_⟩
    · cases hw with | arr hw => exact hw x hx
    · cases hd with
      | leaf h => simp at h
      | set _ h => exact h
    · simp only [tySchema] at h1
      rw [SchRes.map_ok] at h1
      obtain ⟨s1, h1, _⟩ := h1
      refine ⟨fwd, fwd, s1, ⟨m, us, h1, h2⟩, ?_⟩
      intro hfw k b ho
      subst hfw
      exact hf rfl k b (.set ho)
  · rintro ts xs i t x ⟨hw, hi, hd, hfl, fwd, skip, s, ⟨m, us, h1, h2⟩, hf⟩ ht hx
    have htm := List.mem_of_getElem? ht
    have hxm := List.mem_of_getElem? hx
    refine ⟨?_, hi.arr x hxm, ?_, fun h => hfl (.tuple ht hx h), ?_⟩
    · cases hw with | arr hw => exact hw x hxm
    · cases hd with
      | leaf h => simp at h
      | tuple h => exact h t htm
    · simp only [tySchema] at h1
      rw [SchRes.map_ok] at h1
      obtain ⟨ss, h1, _⟩ := h1
      obtain ⟨hlen, hss, _⟩ := tySchemas_ok h1
      obtain ⟨s1, hs1⟩ : ∃ s1, ss[i]? = some s1 :=
        ⟨_, List.getElem?_eq_getElem (by rw [hlen]; exact (List.getElem?_eq_some_iff.1 ht).1)⟩
      obtain ⟨us', h4, h5⟩ := hss i t s1 ht hs1
      refine ⟨fwd, fwd, s1, ⟨m, us', h4, fun u hu => h2 u (h5 u hu)⟩, ?_⟩
      intro hfw k b ho
      subst hfw
      exact hf rfl k b (.tuple htm ho)
  · rintro k t kv kvs ⟨hw, hi, hd, hfl, fwd, skip, s, ⟨m, us, h1, h2⟩, hf⟩ hm
    refine ⟨?_, hi.obj kv hm, ?_, fun h => hfl (.dict hm h), ?_⟩
    · cases hw with | obj _ hw => exact hw kv hm
    · cases hd with
      | leaf h => simp at h
      | dictStr h => exact h
      | dictEnum _ _ _ _ h => exact h
    · simp only [tySchema] at h1
      rw [ite_error_ok, SchRes.map_ok] at h1
      obtain ⟨_, s1, h1, _⟩ := h1
      refine ⟨fwd, fwd, s1, ⟨m, us, h1, h2⟩, ?_⟩
      intro hfw k b ho
      subst hfw
      exact hf rfl k b (.dict ho)
  · rintro ts t j ⟨hw, hi, hd, hfl, fwd, skip, s, ⟨m, us, h1, h2⟩, hf⟩ htm ha
    have hdt : Dependable env t := by
      cases hd with
      | leaf h => simp at h
      | untagged _ h _ => exact h t htm
      | tagged _ _ h _ => exact h t htm
    have hflt : ¬ FloatForInt env t j := fun h => hfl (.union htm h)
    simp only [tySchema] at h1
    split at h1
    · rw [SchRes.map_ok] at h1
      obtain ⟨ss, h1, _⟩ := h1
      obtain ⟨hlen, hss, _⟩ := tySchemas_ok h1
      obtain ⟨i, ht⟩ := List.mem_iff_getElem?.1 htm
      obtain ⟨s1, hs1⟩ : ∃ s1, ss[i]? = some s1 :=
        ⟨_, List.getElem?_eq_getElem (by rw [hlen]; exact (List.getElem?_eq_some_iff.1 ht).1)⟩
      obtain ⟨us', h4, h5⟩ := hss i t s1 ht hs1
      have hs : TySch cfg env cat names fwd false t s1 := ⟨m, us', h4, fun u hu => h2 u (h5 u hu)⟩
      have hf' : FwdOk env cat fwd false t := fun hfw k b ho => hf hfw k b (.union htm ho)
      have hv := (ty_meaning (vc := vc) hp hg _ t j (Nat.lt_succ_self _) hw fwd false s1 hs hf').2 ha
      exact ⟨⟨hw, hi, hdt, hflt, fwd, false, s1, hs, hf'⟩, (valid_read hp hk hcr hg hfm _ hdt (Nat.lt_succ_self _) hw hi hs hf' hv).2 hflt⟩
    · cases h1
  · rintro c cd f x kvs ⟨hw, hi, hd, hfl, fwd, skip, s, hs, hf⟩ hc hfm' hlk
    have hcm := List.mem_of_getElem? hc
    have hcc := hcr cd hcm
    have hm := lookupKey_some_mem hlk
    refine ⟨?_, hi.obj _ hm, hcc.types f hfm', fun h => hfl (.cls hc ?_ (by rw [hcc.names f hfm']; exact hlk)
      (by rw [hcc.fieldTy hfm']; exact h)), ?_⟩
    · cases hw with | obj _ hw => exact hw _ hm
    · revert hfm'
      unfold ClassDef.hints
      split
      · simp
      · exact id
    · obtain ⟨s0, h1, _⟩ := reg_meaning (vc := vc) hp hg (k := .cls c) _ _ _ rfl hs hf
      obtain ⟨ps, rfl, b1, _, _⟩ := def_class hp hc h1
      obtain ⟨s2, s1, _, _, c3⟩ := b1 f hfm'
      exact ⟨_, _, s1, c3, (hp.classes cd hcm).forward f hfm'⟩

/-- Data that takes a liberty is not of the type. -/
theorem lax_not_valid (hp : SchemaNames cfg env cat) (hk : env.Ok) (hcr : ∀ cd ∈ env.classes, ClassReads env cd) (hfm : FormatsRead vc)
    {t : Ty} (hd : Dependable env t) {root : Sch} (hr : classdefToSchema cfg env cat t = .ok root) {j : Json} (hw : j.Wf)
    (hi : SmallInts j) (hfl : ¬ FloatForInt env t j) (h : Lax vc cfg env t j) : ¬ Admits vc cfg env t j := by
  obtain ⟨names, s, us, h1, h2, _, h4⟩ := document_good hp hr
  exact lax_not_admits_of (readWhenValid_inherited hp hk hcr h4 hfm) h
    ⟨hw, hi, hd, hfl, false, false, s, ⟨_, us, h1, h2⟩, fun h => by cases h⟩

end Verif
