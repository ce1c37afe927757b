import Verif.Lemmas.Names
import Verif.Lemmas.SchemaRead
import Verif.Props.C66_SchemaEvolve
import Verif.Spec.Liberal
/-!
# Lemmas on data that is read and on the schema of its type
-/
namespace Verif

variable {vc : ValidatorCfg} {cfg : SchemaCfg} {env : Env}

/-- Equality of Python and equality of JSON values differ in Booleans only. -/
theorem same_iff_pyEq {j : Json} {s x : Scalar} (h : j.scalar = some s) :
    Json.same j x.toJson = true ↔ s.pyEq x = true ∧ (s.IsBool ↔ x.IsBool) := by
  cases j <;> simp only [Json.scalar, Option.some.injEq] at h <;> try (cases h; done)
  all_goals subst h
  all_goals cases x <;> simp [Json.same, Scalar.toJson, Scalar.pyEq, Scalar.IsBool, Scalar.asInt]
  rename_i b c
  cases b <;> cases c <;> simp

theorem ClassMirrored.fieldTy {cd : ClassDef} (h : ClassMirrored vc cfg env cd) {f : FieldDef} (hf : f ∈ cd.hints) :
    fieldTy cd.kind f = f.ty.required := by
  have ha := h.absent f hf
  unfold Verif.fieldTy
  split
  · rename_i b hkd
    have ho : f.ty.isOptional = false := by
      cases ho : f.ty.isOptional with
      | false => rfl
      | true => exact absurd (by rw [hkd]; simp [IsRequired, absentValue]) (ha ho)
    simp [Ty.required, ho]
  · rfl

private theorem admits_leaf {t : Ty} (ht : t ∈ [Ty.none, .bool, .int, .float, .str, .bytes, .datetime, .date, .time, .timedelta, .uuid,
    .ipv4, .ipv6]) (j : Json) : Admits vc cfg env t j = LeafAdmits vc j t := by
  simp only [List.mem_cons, List.not_mem_nil, or_false] at ht
  rcases ht with rfl | rfl | rfl | rfl | rfl | rfl | rfl | rfl | rfl | rfl | rfl | rfl | rfl <;> simp only [Admits]

private theorem leaf_admits {t : Ty} (ht : t.IsPlain) {j : Json} {v : Val} (h : loads env false t j = .ok v)
    (hl : ¬ Lax vc cfg env t j) : Admits vc cfg env t j := by
  have fmt : ∀ f s, (f, t) ∈ textFormats → j = .str s → vc.format f s = true := by
    rintro f s hf rfl
    cases hv : vc.format f s with
    | true => rfl
    | false => exact absurd (.text hf hv) hl
  simp only [Ty.IsPlain, List.mem_cons, List.not_mem_nil, or_false] at ht
  rcases ht with rfl | rfl | rfl | rfl | rfl | rfl | rfl | rfl | rfl | rfl | rfl <;> rw [admits_leaf (by simp)] <;>
    cases j <;>
    first
      | (cases h; done)
      | exact ⟨_, rfl⟩
      | rfl
      | exact ⟨_, .inl rfl⟩
      | exact trivial
      | exact absurd .boolInt hl
      | exact absurd .boolFloat hl
      | exact ⟨_, rfl, fmt _ _ (by simp [textFormats]) rfl⟩

private theorem words_of {ms : List (Str × Scalar)} (h : ∀ m ∈ ms, ∃ s, m.2 = .str s) :
    ∃ words, All2 (fun m w => m.2.pyStr = .ok w) ms words := by
  induction ms with
  | nil => exact ⟨[], .nil⟩
  | cons m ms ih =>
    obtain ⟨words, hw⟩ := ih fun x hx => h x (List.mem_cons_of_mem _ hx)
    obtain ⟨s, hs⟩ := h m List.mem_cons_self
    exact ⟨s :: words, .cons (by rw [hs]; rfl) hw⟩

/-- Data that is read and takes no liberty is of the type. -/
theorem read_admits (hk : env.Ok) (hm : ∀ cd ∈ env.classes, ClassMirrored vc cfg env cd) (j : Json) (t : Ty) :
    Mirrored vc cfg env t → j.Wf → ∀ v, loads env false t j = .ok v → ¬ Lax vc cfg env t j → Admits vc cfg env t j := by
  refine json_ty_induction (P := fun j t => Mirrored vc cfg env t → j.Wf → ∀ v, loads env false t j = .ok v →
    ¬ Lax vc cfg env t j → Admits vc cfg env t j) ?_ j t
  intro j t ihj iht ht hw v h hl
  cases ht with
  | leaf hp => exact leaf_admits hp h hl
  | @literal ls hle =>
    have hlk : LitsKnown env ls := fun e m hin => absurd hin (hle e m)
    have hst : SameType ls := by
      apply Classical.byContradiction
      intro hns
      rw [(C24_mixed env ls hlk).2.2 hns] at h
      cases h
    have hb : ∀ i b, Lit.int i ∈ ls → j ≠ .bool b := by
      rintro i b hi rfl
      obtain ⟨u, _, hu⟩ := hst
      refine hl (.boolLiteral fun l hlm => ?_)
      have := (hu l hlm).trans (hu _ hi).symm
      cases l <;> simp [Lit.ty] at this
      exact ⟨_, rfl⟩
    obtain ⟨l, hlm, his, _⟩ := (C24_accepts_iff_partial env hk false ls hst hlk j hb v).1 h
    rw [Admits]
    refine ⟨l, hlm, ?_⟩
    cases l with
    | enum e m => exact absurd hlm (hle e m)
    | none => cases his; exact ⟨_, rfl, rfl⟩
    | bool b => cases his; exact ⟨_, rfl, by simp [Scalar.toJson, Json.same]⟩
    | int i => cases his; exact ⟨_, rfl, by simp [Scalar.toJson, Json.same]⟩
    | str s => cases his; exact ⟨_, rfl, by simp [Scalar.toJson, Json.same]⟩
  | @enum e =>
    obtain ⟨ed, he⟩ : ∃ ed, env.enums[e]? = some ed := by
      obtain ⟨d, hd⟩ := loads_ok_supported h
      cases he : env.enums[e]? with
      | some ed => exact ⟨ed, rfl⟩
      | none => simp [compile, tyKey, he] at hd
    obtain ⟨s, m, name, x, hs, hmem, _, _, _⟩ := (C25_lookup env hk false e ed he j v).1 h
    rw [Admits]
    refine ⟨ed, he, ?_⟩
    apply Classical.byContradiction
    intro hno
    refine hl (.boolEnum he hs fun y hy heq hiff => hno ⟨y, hy, ?_⟩)
    exact (same_iff_pyEq hs).2 ⟨heq, hiff⟩
  | @annotated t ms ht =>
    rw [Admits]
    refine ⟨iht t (by simp; omega) ht hw v h (fun hx => hl (.annotated hx)), fun hp ha => ?_⟩
    exact Classical.byContradiction fun hno => hl (.note hp ha hno)
  | @list t ht =>
    obtain ⟨xs, vs, rfl, rfl, ha⟩ := (C15_list env false t (supported_list (loads_ok_supported h)) j v).1 h
    rw [Admits]
    refine ⟨xs, rfl, fun x hx => ?_⟩
    obtain ⟨w, _, hw'⟩ := ha.mem_left hx
    cases hw with | arr hws => exact ihj x t (sizeOf_arr hx) ht (hws x hx) w hw' (fun hy => hl (.list hx hy))
  | @set t ht =>
    obtain ⟨xs, vs, rfl, ha, _⟩ := (C15_set_ok env false t (supported_set (loads_ok_supported h)) j).1 ⟨v, h⟩
    rw [Admits]
    refine ⟨xs, rfl, fun x hx => ?_, ?_⟩
    · obtain ⟨w, _, hw'⟩ := ha.mem_left hx
      cases hw with | arr hws => exact ihj x t (sizeOf_arr hx) ht (hws x hx) w hw' (fun hy => hl (.set hx hy))
    · cases hd : allDistinct xs with
      | true => rfl
      | false => exact absurd (.twice hd) hl
  | @tuple ts hts =>
    obtain ⟨xs, vs, rfl, rfl, h1, h2, h3⟩ :=
      (C15_tuple env false ts (supported_tuple (loads_ok_supported h)) j v).1 h
    rw [Admits]
    refine ⟨xs, rfl, h1, fun i t x hi hx => ?_⟩
    have hlt : i < vs.length := by
      have := (List.getElem?_eq_some_iff.1 hi).1; omega
    cases hw with
    | arr hws =>
      exact ihj x t (sizeOf_arr (List.mem_of_getElem? hx)) (hts t (List.mem_of_getElem? hi)) (hws x (List.mem_of_getElem? hx)) _
        (h3 i x t vs[i] hx hi (by simp [hlt])) (fun hy => hl (.tuple hi hx hy))
  | @dictStr t ht =>
    obtain ⟨kvs, rfl, ha⟩ := dict_items_of_ok h
    rw [Admits]
    refine ⟨kvs, rfl, fun kv hkv => ⟨trivial, ?_⟩⟩
    obtain ⟨w, hw'⟩ := ha kv hkv
    cases hw with | obj _ hws => exact ihj kv.2 t (sizeOf_obj hkv) ht (hws kv hkv) w hw' (fun hy => hl (.dict hkv hy))
  | @dictEnum e ed t he hlen ht =>
    have hsup := loads_ok_supported h
    obtain ⟨kvs, out, rfl, _, ha⟩ := (C15_dict_enum env false e ed he (hk.enums ed (List.mem_of_getElem? he)) t hsup j hw v).1 h
    have hstr : ∀ m ∈ ed.members, ∃ s, m.2 = .str s := by
      obtain ⟨d, hd⟩ := hsup
      simp only [compile, checkKeyTy, he] at hd
      by_cases hv : ed.strValued = true
      · exact ((strValued_iff ed).1 hv).2
      · simp [hv] at hd
    rw [Admits]
    refine ⟨kvs, rfl, fun kv hkv => ?_⟩
    obtain ⟨w, _, ⟨m, name, hmem, _⟩, hw'⟩ := ha.mem_left hkv
    refine ⟨?_, ?_⟩
    · obtain ⟨words, hwords⟩ : ∃ words, All2 (fun m w => m.2.pyStr = .ok w) ed.members words := words_of hstr
      refine ⟨ed, words, he, hwords, ?_⟩
      rw [if_neg (by rw [← hwords.length]; exact Nat.not_lt.2 hlen)]
      obtain ⟨y, hy, hs⟩ := hwords.mem_left (List.mem_of_getElem? hmem)
      cases hs
      exact hy
    · cases hw with | obj _ hws => exact ihj kv.2 t (sizeOf_obj hkv) ht (hws kv hkv) w.2 hw' (fun hy => hl (.dict hkv hy))
  | @union ts hts hex =>
    obtain ⟨t, htm, v, h1, hlt⟩ : ∃ t, t ∈ ts ∧ ∃ v, loads env false t j = .ok v ∧ ¬ Lax vc cfg env t j := by
      apply Classical.byContradiction
      intro hno
      refine hl (.union fun t htm v hv => ?_)
      exact Classical.byContradiction fun hn => hno ⟨t, htm, v, hv, hn⟩
    have had := iht t (sizeOf_mem_union htm) (hts t htm) hw v h1 hlt
    obtain ⟨i, hi⟩ := List.getElem?_of_mem htm
    rw [Admits]
    exact ⟨i, t, hi, had, fun k u hne hu hadu => hex i k t u (Ne.symm hne) hi hu j hw ⟨had, hadu⟩⟩
  | @cls c =>
    obtain ⟨cd, hc, hcu | hr⟩ := readable_of_ok hk h
    · rw [(hm cd (List.mem_of_getElem? hc)).standard] at hcu; cases hcu
    · have hcm := hm cd (List.mem_of_getElem? hc)
      obtain ⟨kvs, vs, rfl, rfl, ha, hkn⟩ := (loads_cls_ok_iff hk false hr j v).1 h
      have hkn := hkn.resolve_left (by simp)
      cases hw with
      | obj hnd hws =>
        rw [Admits]
        refine ⟨kvs, cd, rfl, hc, fun _ kv hkv => ?_, fun f hf kv hkv hkey => ?_, fun f hf hopt => ?_⟩
        · obtain ⟨f, hf, hn⟩ := hkn kv hkv
          exact ⟨f, hf, by rw [← hcm.names f hf]; exact hn⟩
        · obtain ⟨k, x⟩ := kv
          simp only at hkey
          subst hkey
          have hlk : lookupKey (jsonName f) kvs = some x := lookupKey_of_mem hnd hkv
          obtain ⟨w, _, _, hrf⟩ := ha.mem_left hf
          unfold readField at hrf
          rw [hcm.names f hf, hlk, hcm.fieldTy hf] at hrf
          have key : x ≠ .null → Admits vc cfg env f.ty.required x := by
            intro hx
            have hw' : loads env false f.ty.required x = .ok w.2 := by
              cases x <;> first | exact absurd rfl hx | exact hrf
            exact ihj x _ (sizeOf_obj hkv) (hcm.types f hf) (hws _ hkv) _ hw' (fun hy => hl (.cls hc hf hlk hy))
          by_cases hx : x = .null
          · subst hx
            exact Classical.byContradiction fun hno => hl (.null hc hf hlk hno)
          · exact key hx
        · cases hlk : lookupKey (jsonName f) kvs with
          | none => exact absurd (.absent hc hf hopt hlk) hl
          | some x => exact ⟨_, lookupKey_some_mem hlk, rfl⟩

/-- A property of types with data that parts have, and by which a member of a union that admits the data reads it. -/
structure Inherited (vc : ValidatorCfg) (cfg : SchemaCfg) (env : Env) (P : Ty → Json → Prop) : Prop where
  annotated : ∀ {t ms j}, P (.annotated t ms) j → P t j
  list : ∀ {t x xs}, P (.list t) (.arr xs) → x ∈ xs → P t x
  set : ∀ {t x xs}, P (.set t) (.arr xs) → x ∈ xs → P t x
  tuple : ∀ {ts : List Ty} {xs : List Json} {i : Nat} {t x}, P (.tuple ts) (.arr xs) → ts[i]? = some t → xs[i]? = some x → P t x
  dict : ∀ {k t kv kvs}, P (.dict k t) (.obj kvs) → kv ∈ kvs → P t kv.2
  union : ∀ {ts t j}, P (.union ts) j → t ∈ ts → Admits vc cfg env t j → P t j ∧ ∃ v, loads env false t j = .ok v
  cls : ∀ {c cd f x kvs}, P (.cls c) (.obj kvs) → env.classes[c]? = some cd → f ∈ cd.hints → lookupKey (jsonName f) kvs = some x →
    P f.ty.required x

/-- Data that takes a liberty is not of the type, if members of unions read what they admit. -/
theorem lax_not_admits_of {P : Ty → Json → Prop} (hP : Inherited vc cfg env P) {t : Ty} {j : Json}
    (h : Lax vc cfg env t j) : P t j → ¬ Admits vc cfg env t j := by
  induction h with
  | boolInt => intro _ h; rw [admits_leaf (by simp)] at h; simp [LeafAdmits, Json.IsInt] at h
  | boolFloat => intro _ h; rw [admits_leaf (by simp)] at h; simp [LeafAdmits, Json.IsNumber] at h
  | boolLiteral hall =>
    intro _ h
    rw [Admits] at h
    obtain ⟨l, hlm, s, hs, he⟩ := h
    obtain ⟨i, rfl⟩ := hall l hlm
    cases hs
    cases he
  | boolEnum he hs hall =>
    intro _ h
    rw [Admits] at h
    obtain ⟨ed', he', m, hmm, hsame⟩ := h
    rw [he] at he'; cases he'
    obtain ⟨h1, h2⟩ := (same_iff_pyEq hs).1 hsame
    exact hall m hmm h1 h2
  | text hft hf =>
    intro _ h
    simp only [textFormats, List.mem_cons, List.not_mem_nil, or_false] at hft
    rcases hft with h' | h' | h' | h' | h' | h' | h' <;> cases h' <;> rw [admits_leaf (by simp)] at h <;>
      simp [LeafAdmits, hf] at h
  | note hp ha hno => intro _ h; rw [Admits] at h; exact hno (h.2 hp ha)
  | twice hd =>
    intro _ h
    rw [Admits] at h
    obtain ⟨xs, hx, _, h2⟩ := h
    cases hx
    rw [hd] at h2; cases h2
  | null hc hf hlk hno =>
    intro _ h
    rw [Admits] at h
    obtain ⟨kvs, cd', hx, hc', _, h2, _⟩ := h
    cases hx
    rw [hc] at hc'; cases hc'
    exact hno (h2 _ hf _ (lookupKey_some_mem hlk) rfl)
  | absent hc hf ho hlk =>
    intro _ h
    rw [Admits] at h
    obtain ⟨kvs, cd', hx, hc', _, _, h2⟩ := h
    cases hx
    rw [hc] at hc'; cases hc'
    obtain ⟨kv, hkv, hke⟩ := h2 _ hf ho
    exact (lookupKey_none_iff').1 hlk (by rw [← hke]; exact List.mem_map_of_mem hkv)
  | annotated _ ih =>
    intro hu h
    rw [Admits] at h
    exact ih (hP.annotated hu) h.1
  | list hm _ ih =>
    intro hu h
    rw [Admits] at h
    obtain ⟨xs, hx, h⟩ := h
    cases hx
    exact ih (hP.list hu hm) (h _ hm)
  | set hm _ ih =>
    intro hu h
    rw [Admits] at h
    obtain ⟨xs, hx, h, _⟩ := h
    cases hx
    exact ih (hP.set hu hm) (h _ hm)
  | tuple ht hm _ ih =>
    intro hu h
    rw [Admits] at h
    obtain ⟨xs, hx, _, h⟩ := h
    cases hx
    exact ih (hP.tuple hu ht hm) (h _ _ _ ht hm)
  | dict hm _ ih =>
    intro hu h
    rw [Admits] at h
    obtain ⟨kvs, hx, h⟩ := h
    cases hx
    exact ih (hP.dict hu hm) (h _ hm).2
  | union _ ih =>
    intro hu h
    rw [Admits] at h
    obtain ⟨i, t, ht, ha, _⟩ := h
    have hm := List.mem_of_getElem? ht
    obtain ⟨hu', v, hv⟩ := hP.union hu hm ha
    exact ih t hm v hv hu' ha
  | cls hc hf hlk _ ih =>
    intro hu h
    rw [Admits] at h
    obtain ⟨kvs, cd', hx, hc', _, h2, _⟩ := h
    cases hx
    rw [hc] at hc'; cases hc'
    exact ih (hP.cls hu hc hf hlk) (h2 _ hf _ (lookupKey_some_mem hlk) rfl)

/-- Data that takes a liberty is not of the type, if there is no union. -/
theorem lax_not_admits (hn : ∀ cd ∈ env.classes, ∀ f ∈ cd.hints, NoUnion f.ty.required) {t : Ty} {j : Json}
    (h : Lax vc cfg env t j) (hu : NoUnion t) : ¬ Admits vc cfg env t j := by
  refine lax_not_admits_of (P := fun t _ => NoUnion t) ⟨?_, ?_, ?_, ?_, ?_, ?_, ?_⟩ h hu
  · intro t ms j h
    cases h with
    | leaf hp => simp [Ty.IsPlain] at hp
    | annotated h => exact h
  · intro t x xs h _
    cases h with
    | leaf hp => simp [Ty.IsPlain] at hp
    | list h => exact h
  · intro t x xs h _
    cases h with
    | leaf hp => simp [Ty.IsPlain] at hp
    | set h => exact h
  · intro ts xs i t x h ht _
    cases h with
    | leaf hp => simp [Ty.IsPlain] at hp
    | tuple h => exact h _ (List.mem_of_getElem? ht)
  · intro k t kv kvs h _
    cases h with
    | leaf hp => simp [Ty.IsPlain] at hp
    | dict h => exact h
  · intro ts t j h
    cases h with | leaf hp => simp [Ty.IsPlain] at hp
  · intro c cd f x kvs _ hc hf _
    exact hn _ (List.mem_of_getElem? hc) _ hf

end Verif
