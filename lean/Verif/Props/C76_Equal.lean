import Verif.Lemmas.Equal
/-!
# C76: equal objects are written as equal JSON
-/
namespace Verif

theorem all2_of_index {R : α → β → Prop} {vs : List α} {ws : List β} (hl : vs.length = ws.length)
    (h : ∀ (i : Nat) v w, vs[i]? = some v → ws[i]? = some w → v ∈ vs → w ∈ ws → R v w) : All2 R vs ws :=
  All2.of_get hl fun i v w h1 h2 => h i v w h1 h2 (List.mem_of_getElem? h1) (List.mem_of_getElem? h2)

private theorem obj_equal {env : Env} (hk : env.Ok) (hh : env.HooksRespect) {c : Nat} {cd : ClassDef} {fs gs : List (Str × Val)}
    (hcd : env.classes[c]? = some cd) (hp : cd.kind ≠ .plain) (he : PyEqual env false (.obj c fs) (.obj c gs))
    (hf : HasTy env (.obj c fs) (.cls c)) (hg : HasTy env (.obj c gs) (.cls c))
    (hn : ∀ (i : Nat) v w, fs[i]? = some v → gs[i]? = some w → PyEqual env false v.2 w.2)
    (ih : ∀ (i : Nat) v w, fs[i]? = some v → gs[i]? = some w → EqualOutcome (objectToJson env v.2) (objectToJson env w.2)) :
    EqualOutcome (objectToJson env (.obj c fs)) (objectToJson env (.obj c gs)) := by
  cases hs : serCreate env (.cls c) with
  | error e => exact .inr ⟨e, e, by simp only [objectToJson, dumps, typeOf, hs], by simp only [objectToJson, dumps, typeOf, hs]⟩
  | ok _ =>
    rw [gen_dyn_ok (v := .obj c fs) (by simpa [typeOf] using hs), gen_dyn_ok (v := .obj c gs) (by simpa [typeOf] using hs)]
    show EqualOutcome (genCls env (.obj c fs) (.obj (genObj env fs)) c) (genCls env (.obj c gs) (.obj (genObj env gs)) c)
    simp only [genCls, hcd]
    cases ht : cd.toJson with
    | some f => exact hh cd (List.mem_of_getElem? hcd) f ht _ _ he
    | none =>
      have names : ∀ {fs : List (Str × Val)}, HasTy env (.obj c fs) (.cls c) → fs.map Prod.fst = cd.fields.map FieldDef.name ∧
          ∀ (i : Nat) f w, cd.hints[i]? = some f → fs[i]? = some w → HasTy env w.2 f.ty := by
        intro fs h
        cases h with
        | cls h1 h2 h3 => rw [hcd] at h1; cases h1; exact ⟨h2, h3⟩
        | untyped h1 h2 _ => rw [hcd] at h1; cases h1; exact absurd h2 hp
      have look : ∀ {fs : List (Str × Val)}, fs.map Prod.fst = cd.fields.map FieldDef.name → ∀ (i : Nat) fd,
          cd.fields[i]? = some fd → ∃ v, fs[i]? = some (fd.name, v) ∧ lookupKey fd.name (genObj env fs) = some (v, gen env v) := by
        intro fs h i fd hi
        have h2 : (fs.map Prod.fst)[i]? = some fd.name := by rw [h, List.getElem?_map, hi]; rfl
        rw [List.getElem?_map] at h2
        cases h3 : fs[i]? with
        | none => rw [h3] at h2; cases h2
        | some p =>
          rw [h3] at h2
          obtain ⟨n, v⟩ := p
          simp only [Option.map_some, Option.some.injEq] at h2
          subst h2
          refine ⟨v, rfl, lookupKey_of_mem ?_ ?_⟩
          · rw [genObj_eq, List.map_map]
            have : ((fun p : Str × Val × (Ty → Res Json) => p.1) ∘ fun kv : Str × Val => (kv.1, kv.2, gen env kv.2)) = Prod.fst := rfl
            rw [this, h]
            exact hk.fields cd (List.mem_of_getElem? hcd)
          · rw [genObj_eq]
            exact List.mem_map.2 ⟨_, List.mem_of_getElem? h3, rfl⟩
      have alike : ∀ ty : FieldDef → Ty, (∀ (i : Nat) fd v w, cd.fields[i]? = some fd → fs[i]? = some (fd.name, v) →
          gs[i]? = some (fd.name, w) → gen env v (ty fd) = objectToJson env v ∧ gen env w (ty fd) = objectToJson env w) →
          FieldsAlike (genObj env fs) (genObj env gs) ty cd.fields := by
        intro ty hty fd hfd
        obtain ⟨i, hi⟩ := List.mem_iff_getElem?.1 hfd
        obtain ⟨v, hv, hlv⟩ := look (names hf).1 i fd hi
        obtain ⟨w, hw, hlw⟩ := look (names hg).1 i fd hi
        refine ⟨v, w, _, _, hlv, hlw, (hn i _ _ hv hw).isNone, ?_⟩
        rw [(hty i fd v w hi hv hw).1, (hty i fd v w hi hv hw).2]
        exact ih i _ _ hv hw
      have props : cd.kind ≠ .namedTuple false →
          EqualOutcome (genProps cd.kind (genObj env fs) [] cd.fields) (genProps cd.kind (genObj env gs) [] cd.fields) := by
        intro hk'
        have hhint : cd.hints = cd.fields := by
          unfold ClassDef.hints
          split
          · rename_i h; exact absurd h hk'
          · rfl
        have hser : cd.serFields = cd.fields := by simp only [ClassDef.serFields, ht, hhint]
        refine genProps_equal _ _ _ .nil (alike _ fun i fd v w hi hv hw => ?_)
        have hc : serCreate env fd.ty = .ok () := serCreate_field hcd hs (hser ▸ List.mem_of_getElem? hi)
        have a := C14_static_dynamic env fd.ty v hc ((names hf).2 i fd _ (hhint ▸ hi) hv)
        have b := C14_static_dynamic env fd.ty w hc ((names hg).2 i fd _ (hhint ▸ hi) hw)
        simp only [dumps, hc] at a b
        exact ⟨a, b⟩
      cases hkd : cd.kind with
      | plain => exact absurd hkd hp
      | dataclass b => simp only; exact hkd ▸ props (by rw [hkd]; simp)
      | namedTuple b =>
        cases b with
        | true => simp only; exact hkd ▸ props (by rw [hkd]; simp)
        | false => exact genUntypedTuple_equal _ _ _ .nil (alike _ fun i fd v w _ _ _ => ⟨gen_dyn env v, gen_dyn env w⟩)

/-- Objects that are equal, other than across UTC offsets, orders of iteration of sets and kinds of tuples, are written as
equal JSON: if one is written so is the other, and the results are equal. -/
theorem C76_written_partial (env : Env) (hk : env.Ok) (hh : env.HooksRespect) (v w : Val) (hv : Tidy env v) (hw : Tidy env w)
    (h : PyEqual env false v w) : EqualOutcome (objectToJson env v) (objectToJson env w) := by
  induction h with
  | same => exact .rfl'
  | @scalar v w a b h1 h2 h3 =>
    have key : ∀ {v : Val} {a : Scalar}, v.scalar = some a → objectToJson env v = .ok a.toJson := by
      intro v a h
      cases v <;> simp [Val.scalar] at h <;> subst h <;> rfl
    rw [key h1, key h2]
    have back : ∀ a : Scalar, a.toJson.scalar = some a := fun a => by cases a <;> rfl
    exact .inl ⟨_, _, rfl, rfl, .scalar (back a) (back b) h3⟩
  | datetime h | time h | sets h | nameds h | namedTuple h | tupleNamed h => cases h
  | @list vs ws hl _ ih =>
    rw [dyn_list, dyn_list]
    cases hv with
    | leaf h => exact absurd rfl (h _)
    | list hv =>
    cases hw with
    | leaf h => exact absurd rfl (h _)
    | list hw => exact arrOf_equal (all2_of_index hl fun i v w h1 h2 m1 m2 => ih i v w h1 h2 (hv v m1) (hw w m2))
  | @tuple vs ws hl _ ih =>
    rw [dyn_tuple, dyn_tuple]
    cases hv with
    | leaf _ _ h => exact absurd rfl (h _)
    | tuple hv =>
    cases hw with
    | leaf _ _ h => exact absurd rfl (h _)
    | tuple hw => exact arrOf_equal (all2_of_index hl fun i v w h1 h2 m1 m2 => ih i v w h1 h2 (hv v m1) (hw w m2))
  | @set vs ws hl _ ih =>
    rw [dyn_set, dyn_set]
    cases hv with
    | leaf _ h => exact absurd rfl (h _)
    | set hv =>
    cases hw with
    | leaf _ h => exact absurd rfl (h _)
    | set hw => exact arrOf_equal (all2_of_index hl fun i v w h1 h2 m1 m2 => ih i v w h1 h2 (hv v m1) (hw w m2))
  | @dict kvs kws hp _ ih =>
    rw [dyn_dict, dyn_dict]
    cases hv with
    | leaf _ _ _ h => exact absurd rfl (h _)
    | dict hn ha hv =>
    cases hw with
    | leaf _ _ _ h => exact absurd rfl (h _)
    | dict _ ha' hw =>
      have c1 := untypedKey_choice ha
      have c2 := untypedKey_choice ha'
      have same : untypedKey env (kws.map fun kv => (kv.1, gen env kv.2)) = untypedKey env (kvs.map fun kv => (kv.1, gen env kv.2)) := by
        rcases c1 with ⟨e1, h1⟩ | ⟨e1, e, m, h1⟩ <;> rcases c2 with ⟨e2, h2⟩ | ⟨e2, e', m', h2⟩
        · rw [e1, e2]
        · exact absurd rfl (h1 _ (hp.mem_iff.2 h2) e' m')
        · exact absurd rfl (h2 _ (hp.mem_iff.1 h1) e m)
        · rw [e1, e2]
      rw [same]
      exact genPairs_equal hp hn (keysAlike_conv hk ha c1) fun k v w h1 h2 => ih k v w h1 h2 (hv _ h1) (hw _ h2)
  | @dataclass c fr fs gs hc hl hn ih =>
    cases hcd : env.classes[c]? with
    | none => simp [Env.kind, hcd] at hc
    | some cd =>
    simp only [Env.kind, hcd, Option.map_some, Option.some.injEq] at hc
    cases hv with
    | leaf _ _ _ _ h => exact absurd rfl (h _ _)
    | obj hf hv =>
    cases hw with
    | leaf _ _ _ _ h => exact absurd rfl (h _ _)
    | obj hg hw =>
      exact obj_equal hk hh hcd (by rw [hc]; simp) (.dataclass (frozen := fr) (by simp [Env.kind, hcd, hc]) hl hn) hf hg hn
        fun i v w h1 h2 => ih i v w h1 h2 (hv _ (List.mem_of_getElem? h1)) (hw _ (List.mem_of_getElem? h2))
  | @named c fr fs gs hc hl hn ih =>
    cases hcd : env.classes[c]? with
    | none => simp [Env.kind, hcd] at hc
    | some cd =>
    simp only [Env.kind, hcd, Option.map_some, Option.some.injEq] at hc
    cases hv with
    | leaf _ _ _ _ h => exact absurd rfl (h _ _)
    | obj hf hv =>
    cases hw with
    | leaf _ _ _ _ h => exact absurd rfl (h _ _)
    | obj hg hw =>
      exact obj_equal hk hh hcd (by rw [hc]; simp) (.named (typed := fr) (by simp [Env.kind, hcd, hc]) hl hn) hf hg hn
        fun i v w h1 h2 => ih i v w h1 h2 (hv _ (List.mem_of_getElem? h1)) (hw _ (List.mem_of_getElem? h2))

/-- The same for the serializer of a declared type. -/
theorem C76_typed_partial (env : Env) (hk : env.Ok) (hh : env.HooksRespect) (t : Ty) (v w : Val) (hv : HasTy env v t)
    (hw : HasTy env w t) (tv : Tidy env v) (tw : Tidy env w) (h : PyEqual env false v w) :
    EqualOutcome (dumps env t v) (dumps env t w) := by
  cases hc : serCreate env t with
  | error e => exact .inr ⟨e, e, by simp only [dumps, hc], by simp only [dumps, hc]⟩
  | ok _ =>
    rw [C14_static_dynamic env t v hc hv, C14_static_dynamic env t w hc hw]
    exact C76_written_partial env hk hh v w tv tw h

/-! ### Which objects are tidy, which are equal -/

/-- Types whose values have no untyped parts. -/
inductive Declared (env : Env) (good : Nat → Prop) : Ty → Prop
  | plain {t} : t ∈ [Ty.none, .bool, .int, .float, .str, .bytes, .datetime, .date, .time, .timedelta, .uuid, .ipv4, .ipv6] →
      Declared env good t
  | literal {ls} : Declared env good (.literal ls)
  | enum {e} : Declared env good (.enum e)
  | list {t} : Declared env good t → Declared env good (.list t)
  | set {t} : Declared env good t → Declared env good (.set t)
  | tuple {ts} : (∀ t ∈ ts, Declared env good t) → Declared env good (.tuple ts)
  | dict {k t} : Declared env good t → Declared env good (.dict k t)
  | union {ts} : (∀ t ∈ ts, Declared env good t) → Declared env good (.union ts)
  | annotated {t ms} : Declared env good t → Declared env good (.annotated t ms)
  | cls {c} : good c → Declared env good (.cls c)

/-- Values of declared types are tidy. -/
theorem C76_tidy (env : Env) (good : Nat → Prop)
    (hg : ∀ c cd, good c → env.classes[c]? = some cd → (cd.kind = .plain → cd.fields ≠ []) ∧ cd.hints = cd.fields ∧
      ∀ f ∈ cd.fields, Declared env good f.ty) (t : Ty) (v : Val) (h : HasTy env v t) (hd : Declared env good t) : Tidy env v := by
  induction h with
  | bareList | bareSet | bareTuple | bareDict => cases hd with | plain h => simp at h
  | list _ ih =>
    cases hd with
    | plain h => simp at h
    | list hd => exact .list fun v hv => ih v hv hd
  | set _ _ _ ih =>
    cases hd with
    | plain h => simp at h
    | set hd => exact .set fun v hv => ih v hv hd
  | @tuple vs ts hl _ ih =>
    cases hd with
    | plain h => simp at h
    | tuple hd =>
      refine .tuple fun v hv => ?_
      obtain ⟨i, hi⟩ := List.mem_iff_getElem?.1 hv
      have hlt : i < vs.length := (List.getElem?_eq_some_iff.1 hi).1
      have ht := List.getElem?_eq_getElem (hl ▸ hlt : i < ts.length)
      exact ih i v _ hi ht (hd _ (List.mem_of_getElem? ht))
  | @dict kvs k t hn hk _ ih =>
    cases hd with
    | plain h => simp at h
    | dict hd =>
      refine .dict hn ?_ fun kv hkv => ih kv hkv hd
      cases k with
      | str =>
        refine .inl fun k hk' => ?_
        obtain ⟨kv, hkv, rfl⟩ := List.mem_map.1 hk'
        have := hk kv hkv
        obtain ⟨k, v⟩ := kv
        cases k <;> simp [KeyHasTy] at this ⊢
      | enum e =>
        cases kvs with
        | nil => exact .inl (by simp)
        | cons kv r =>
          have h0 := hk kv (by simp)
          obtain ⟨k0, v0⟩ := kv
          cases k0 with
          | str | int => exact h0.elim
          | enum e0 m0 =>
            obtain ⟨rfl, ed, hed, _⟩ := h0
            refine .inr (.inr ⟨e0, ed, hed, fun k hk' => ?_⟩)
            obtain ⟨kv, hkv, rfl⟩ := List.mem_map.1 hk'
            have := hk kv hkv
            obtain ⟨k, v⟩ := kv
            cases k with
            | str | int => exact this.elim
            | enum e1 m1 =>
              obtain ⟨rfl, ed', hed', hm⟩ := this
              rw [hed] at hed'
              cases hed'
              exact ⟨m1, rfl, hm⟩
      | int | other =>
        refine .inl fun k hk' => ?_
        obtain ⟨kv, hkv, rfl⟩ := List.mem_map.1 hk'
        have := hk kv hkv
        obtain ⟨k, v⟩ := kv
        cases k <;> exact this.elim
  | union hm _ ih =>
    cases hd with
    | plain h => simp at h
    | union hd => exact ih (hd _ hm)
  | annotated _ ih =>
    cases hd with
    | plain h => simp at h
    | annotated hd => exact ih hd
  | @literal v ls l _ hv => subst hv; apply Tidy.leaf <;> (intros; cases l <;> simp [Lit.toVal])
  | @cls c cd fs h1 h2 h3 ih =>
    cases hd with
    | plain h => simp at h
    | cls hd =>
      obtain ⟨hp, hh, hf⟩ := hg c cd hd h1
      refine .obj (.cls h1 h2 h3) fun kv hkv => ?_
      obtain ⟨i, hi⟩ := List.mem_iff_getElem?.1 hkv
      have hlt : i < cd.fields.length := by
        have := (List.getElem?_eq_some_iff.1 hi).1
        have e := congrArg List.length h2
        simp only [List.length_map] at e
        omega
      have ht := List.getElem?_eq_getElem hlt
      exact ih i _ kv (by rw [hh]; exact ht) hi (hf _ (List.mem_of_getElem? ht))
  | @untyped c cd fs h1 h2 h3 =>
    cases hd with
    | plain h => simp at h
    | cls hd => exact absurd h3 ((hg c cd hd h1).1 h2)
  | _ => exact .leaf (by simp) (by simp) (by simp) (by simp) (by simp)

mutual
/-- What `set` treats as equal is equal in the sense of this property. -/
theorem C76_eq (env : Env) : ∀ v w : Val, valEq env v w = true → PyEqual env true v w
  | .none, w, h => by
    cases w <;> simp [valEq, Val.scalar, Scalar.pyEq, Scalar.asInt] at h
    exact .same
  | .bool _, w, h => by
    simp only [valEq] at h
    split at h
    · exact .scalar ‹_› ‹_› h
    · cases h
  | .int _, w, h => by
    simp only [valEq] at h
    split at h
    · exact .scalar ‹_› ‹_› h
    · cases h
  | .float _, w, h => by
    simp only [valEq] at h
    split at h
    · exact .scalar ‹_› ‹_› h
    · cases h
  | .str _, w, h => by
    simp only [valEq] at h
    split at h
    · exact .scalar ‹_› ‹_› h
    · cases h
  | .bytes _, w, h => by cases w <;> simp [valEq] at h; subst h; exact .same
  | .datetime _, w, h => by cases w <;> simp [valEq] at h; exact .datetime rfl h
  | .date _, w, h => by cases w <;> simp [valEq] at h; subst h; exact .same
  | .time _, w, h => by cases w <;> simp [valEq] at h; exact .time rfl h
  | .timedelta _, w, h => by cases w <;> simp [valEq] at h; subst h; exact .same
  | .uuid _, w, h => by cases w <;> simp [valEq] at h; subst h; exact .same
  | .ipv4 _, w, h => by cases w <;> simp [valEq] at h; subst h; exact .same
  | .ipv6 _ _, w, h => by cases w <;> simp [valEq] at h; obtain ⟨rfl, rfl⟩ := h; exact .same
  | .enum _ _, w, h => by cases w <;> simp [valEq] at h; obtain ⟨rfl, rfl⟩ := h; exact .same
  | .list _, w, h => by simp [valEq, Val.scalar] at h
  | .set _, w, h => by simp [valEq, Val.scalar] at h
  | .dict _, w, h => by simp [valEq, Val.scalar] at h
  | .tuple vs, w, h => by
    cases w <;> simp only [valEq] at h <;> try (cases h; done)
    · rename_i ws
      have := C76_eqL env vs ws h
      exact .tuple this.length fun i v w h1 h2 => by
        obtain ⟨z, hz, hr⟩ := this.get i v h1
        rw [h2] at hz; cases hz; exact hr
    · rename_i d gs
      split at h
      · rename_i b hd
        have := C76_eqL env vs _ h
        refine .tupleNamed rfl hd (by simpa using this.length) fun i v w h1 h2 => ?_
        obtain ⟨z, hz, hr⟩ := this.get i v h1
        rw [List.getElem?_map, h2] at hz; cases hz; exact hr
      · cases h
  | .obj c fs, w, h => by
    simp only [valEq] at h
    split at h
    · rename_i b ws hc
      have := C76_eqF env fs ws h
      exact .namedTuple rfl hc this.length fun i v w h1 h2 => by
        obtain ⟨z, hz, hr⟩ := this.get i v h1
        rw [h2] at hz; cases hz; exact hr
    · rename_i b d gs hc
      split at h
      · rename_i b' hd
        have := C76_eqF env fs _ h
        refine .nameds rfl hc hd (by simpa using this.length) fun i v w h1 h2 => ?_
        obtain ⟨z, hz, hr⟩ := this.get i v h1
        rw [List.getElem?_map, h2] at hz; cases hz; exact hr
      · cases h
    · rename_i b d gs hc
      simp only [Bool.and_eq_true, decide_eq_true_eq] at h
      obtain ⟨rfl, h⟩ := h
      have := C76_eqF env fs _ h
      refine .dataclass hc (by simpa using this.length) fun i v w h1 h2 => ?_
      obtain ⟨z, hz, hr⟩ := this.get i v h1
      rw [List.getElem?_map, h2] at hz; cases hz; exact hr
    · cases h
theorem C76_eqL (env : Env) : ∀ vs ws : List Val, valEqL env vs ws = true → All2 (PyEqual env true) vs ws
  | [], [], _ => .nil
  | [], _ :: _, h => by simp [valEqL] at h
  | _ :: _, [], h => by simp [valEqL] at h
  | v :: vs, w :: ws, h => by
    simp only [valEqL, Bool.and_eq_true] at h
    exact .cons (C76_eq env v w h.1) (C76_eqL env vs ws h.2)
theorem C76_eqF (env : Env) : ∀ (vs : List (Str × Val)) (ws : List Val), valEqF env vs ws = true →
    All2 (fun v w => PyEqual env true v.2 w) vs ws
  | [], [], _ => .nil
  | [], _ :: _, h => by simp [valEqF] at h
  | _ :: _, [], h => by simp [valEqF] at h
  | (_, v) :: vs, w :: ws, h => by
    simp only [valEqF, Bool.and_eq_true] at h
    exact .cons (C76_eq env v w h.1) (C76_eqF env vs ws h.2)
end

/-! ### Equal objects that are written differently -/

namespace C76

/-- `class Point(NamedTuple): x: int; y: int`. -/
def point : ClassDef :=
  { module := c!"m", name := c!"Point", kind := .namedTuple true, fields := [{ name := c!"x", ty := .int }, { name := c!"y", ty := .int }] }

/-- `class Shape: name: str; area: float; tags: dict[Colour, list[int]]; at: Optional[Point]`. -/
def shape : ClassDef :=
  { module := c!"m", name := c!"Shape", kind := .dataclass false, fields :=
    [{ name := c!"name", ty := .str }, { name := c!"area", ty := .float }, { name := c!"tags", ty := .dict (.enum 0) (.list .int) },
     { name := c!"at_", ty := .union [.cls 0, .none] }] }

def colour : EnumDef :=
  { module := c!"m", name := c!"Colour", members := [(c!"RED", .str c!"r"), (c!"BLUE", .str c!"b")] }

def env : Env := ⟨[colour], [point, shape], id⟩

theorem env_ok : env.Ok :=
  ⟨by decide +kernel, by simp [env, colour, EnumDef.Ok, Scalar.pyEq], by simp [env, point, shape], fun _ => .refl _⟩

theorem respects : env.HooksRespect := by
  intro cd hcd f hf
  simp only [env, List.mem_cons, List.not_mem_nil, or_false] at hcd
  rcases hcd with rfl | rfl <;> cases hf

theorem not_equal {env : Env} {v w : Val} {j k : Json} (h1 : objectToJson env v = .ok j) (h2 : objectToJson env w = .ok k)
    (h : ¬ JsonEqual j k) : ¬ EqualOutcome (objectToJson env v) (objectToJson env w) := by
  rintro (⟨j', k', h1', h2', h'⟩ | ⟨e, e', h1', _⟩)
  · rw [h1] at h1'
    rw [h2] at h2'
    cases h1'
    cases h2'
    exact h h'
  · rw [h1] at h1'
    cases h1'

theorem str_ne {s t : Str} (h : s ≠ t) : ¬ JsonEqual (.str s) (.str t) := by
  intro h'
  cases h' with
  | same => exact h rfl
  | scalar h1 h2 h3 =>
    cases h1
    cases h2
    simp [Scalar.pyEq] at h3
    exact h h3

/-- Noon in UTC and one o'clock one hour to the east. -/
def noon : PyDateTime := ⟨⟨2024, 1, 1⟩, ⟨12, 0, 0, 0, some 0⟩⟩
def one : PyDateTime := ⟨⟨2024, 1, 1⟩, ⟨13, 0, 0, 0, some 3600000000⟩⟩

theorem noon_ok : noon.time.Valid :=
  ⟨by decide, by decide, by decide, by decide, fun o h => by simp only [noon, Option.some.injEq] at h; subst h; decide⟩
theorem one_ok : one.time.Valid :=
  ⟨by decide, by decide, by decide, by decide, fun o h => by simp only [one, Option.some.injEq] at h; subst h; decide⟩

end C76

open C76 in
/-- Equal date-times in different time zones are written differently. -/
theorem C76_datetime_fails : ∃ (env : Env) (v w : Val), env.Ok ∧ env.HooksRespect ∧ HasTy env v .datetime ∧ HasTy env w .datetime ∧
    Tidy env v ∧ Tidy env w ∧ PyEqual env true v w ∧ ¬ EqualOutcome (objectToJson env v) (objectToJson env w) :=
  ⟨env, .datetime noon, .datetime one, env_ok, respects, .datetime ⟨⟨by decide, by decide⟩, noon_ok⟩, .datetime ⟨⟨by decide, by decide⟩, one_ok⟩,
    .leaf (by simp) (by simp) (by simp) (by simp) (by simp), .leaf (by simp) (by simp) (by simp) (by simp) (by simp),
    .datetime rfl (by decide +kernel),
    not_equal (j := .str c!"2024-01-01T12:00:00Z") (k := .str c!"2024-01-01T13:00:00+01:00") (by with_unfolding_all rfl)
      (by with_unfolding_all rfl) (str_ne (by decide))⟩

open C76 in
/-- Equal times with different UTC offsets are written differently. -/
theorem C76_time_fails : ∃ (env : Env) (v w : Val), env.Ok ∧ env.HooksRespect ∧ HasTy env v .time ∧ HasTy env w .time ∧
    Tidy env v ∧ Tidy env w ∧ PyEqual env true v w ∧ ¬ EqualOutcome (objectToJson env v) (objectToJson env w) :=
  ⟨env, .time noon.time, .time one.time, env_ok, respects, .time noon_ok, .time one_ok,
    .leaf (by simp) (by simp) (by simp) (by simp) (by simp), .leaf (by simp) (by simp) (by simp) (by simp) (by simp),
    .time rfl (by decide +kernel),
    not_equal (j := .str c!"12:00:00+00:00") (k := .str c!"13:00:00+01:00") (by with_unfolding_all rfl)
      (by with_unfolding_all rfl) (str_ne (by decide))⟩

open C76 in
/-- `{0, 8}` and `{8, 0}` are equal but iterated in different orders, and are written as different arrays. -/
theorem C76_set_fails : ∃ (env : Env) (v w : Val), env.Ok ∧ env.HooksRespect ∧ HasTy env v (.set .int) ∧ HasTy env w (.set .int) ∧
    Tidy env v ∧ Tidy env w ∧ PyEqual env true v w ∧ ¬ EqualOutcome (objectToJson env v) (objectToJson env w) := by
  have leaf : ∀ i : Int, Tidy env (.int i) := fun i => .leaf (by simp) (by simp) (by simp) (by simp) (by simp)
  refine ⟨env, .set [.int 0, .int 8], .set [.int 8, .int 0], env_ok, respects, .set ?_ ?_ ?_, .set ?_ ?_ ?_, .set ?_, .set ?_,
    .sets (us := [.int 0, .int 8]) rfl (.swap _ _ _) rfl ?_,
    not_equal (j := .arr [.int 0, .int 8]) (k := .arr [.int 8, .int 0]) rfl rfl ?_⟩
  · intro v hv; simp only [List.mem_cons, List.not_mem_nil, or_false] at hv; rcases hv with rfl | rfl <;> exact .int
  · intro v hv; simp only [List.mem_cons, List.not_mem_nil, or_false] at hv; rcases hv with rfl | rfl <;> rfl
  · exact .cons (by intro a ha; rcases List.mem_singleton.1 ha with rfl; rfl) (.cons (by simp) .nil)
  · intro v hv; simp only [List.mem_cons, List.not_mem_nil, or_false] at hv; rcases hv with rfl | rfl <;> exact .int
  · intro v hv; simp only [List.mem_cons, List.not_mem_nil, or_false] at hv; rcases hv with rfl | rfl <;> rfl
  · exact .cons (by intro a ha; rcases List.mem_singleton.1 ha with rfl; rfl) (.cons (by simp) .nil)
  · intro v hv; simp only [List.mem_cons, List.not_mem_nil, or_false] at hv; rcases hv with rfl | rfl <;> exact leaf _
  · intro v hv; simp only [List.mem_cons, List.not_mem_nil, or_false] at hv; rcases hv with rfl | rfl <;> exact leaf _
  · intro i v w h1 h2
    rw [h1] at h2
    cases h2
    exact .same
  · intro h
    cases h with
    | scalar h => simp [Json.scalar] at h
    | arr _ h =>
      cases h 0 _ _ rfl rfl with
      | scalar h1 h2 h3 =>
        cases h1
        cases h2
        simp [Scalar.pyEq, Scalar.asInt] at h3

open C76 in
/-- A named tuple equals the tuple of its members; one is written as an object, the other as an array. -/
theorem C76_tuple_fails : ∃ (env : Env) (v w : Val), env.Ok ∧ env.HooksRespect ∧
    HasTy env v (.union [.cls 0, .tuple [.int, .int]]) ∧ HasTy env w (.union [.cls 0, .tuple [.int, .int]]) ∧
    Tidy env v ∧ Tidy env w ∧ PyEqual env true v w ∧ ¬ EqualOutcome (objectToJson env v) (objectToJson env w) := by
  have leaf : ∀ i : Int, Tidy env (.int i) := fun i => .leaf (by simp) (by simp) (by simp) (by simp) (by simp)
  have hp : HasTy env (.obj 0 [(c!"x", .int 1), (c!"y", .int 2)]) (.cls 0) := by
    refine .cls (cd := point) rfl rfl fun i f w h1 h2 => ?_
    match i with
    | 0 => cases h1; cases h2; exact .int
    | 1 => cases h1; cases h2; exact .int
    | i + 2 => cases h2
  refine ⟨env, .obj 0 [(c!"x", .int 1), (c!"y", .int 2)], .tuple [.int 1, .int 2], env_ok, respects, .union (t := .cls 0) (by simp) hp,
    .union (t := .tuple [.int, .int]) (by simp) (.tuple rfl ?_), .obj hp ?_, .tuple ?_, .namedTuple (typed := true) rfl rfl rfl ?_,
    not_equal (j := .obj [(c!"x", .int 1), (c!"y", .int 2)]) (k := .arr [.int 1, .int 2]) rfl rfl ?_⟩
  · intro i v t h1 h2
    match i with
    | 0 => cases h1; cases h2; exact .int
    | 1 => cases h1; cases h2; exact .int
    | i + 2 => cases h2
  · intro v hv; simp only [List.mem_cons, List.not_mem_nil, or_false] at hv; rcases hv with rfl | rfl <;> exact leaf _
  · intro v hv; simp only [List.mem_cons, List.not_mem_nil, or_false] at hv; rcases hv with rfl | rfl <;> exact leaf _
  · intro i v w h1 h2
    match i with
    | 0 => cases h1; cases h2; exact .same
    | 1 => cases h1; cases h2; exact .same
    | i + 2 => cases h2
  · intro h
    cases h with
    | scalar h => simp [Json.scalar] at h

open C76 in
/-- `UntypedDictSerializer` converts all keys as the first one requires: `{Colour.RED: 1, "b": 2}` raises `AttributeError`, the
equal dictionary with the other order is written. -/
theorem C76_mixed_fails : ∃ (env : Env) (v w : Val), env.Ok ∧ env.HooksRespect ∧ PyEqual env false v w ∧
    objectToJson env v = .error .attribute ∧ objectToJson env w = .ok (.obj [(c!"b", .int 2), (c!"Colour.RED", .int 1)]) := by
  refine ⟨env, .dict [(.enum 0 0, .int 1), (.str c!"b", .int 2)], .dict [(.str c!"b", .int 2), (.enum 0 0, .int 1)], env_ok, respects,
    .dict (.swap _ _ _) ?_, rfl, rfl⟩
  intro k v w h1 h2
  simp only [List.mem_cons, List.not_mem_nil, or_false, Prod.mk.injEq] at h1 h2
  rcases h1 with ⟨rfl, rfl⟩ | ⟨rfl, rfl⟩ <;> rcases h2 with ⟨h, rfl⟩ | ⟨h, rfl⟩ <;> first | exact .same | cases h

open C76 in
/-- Keys that become equal strings overwrite each other: `{1: "a", "1": "b"}` and `{"1": "b", 1: "a"}` are equal, and are written
as `{"1": "b"}` and `{"1": "a"}`. -/
theorem C76_clash_fails : ∃ (env : Env) (v w : Val), env.Ok ∧ env.HooksRespect ∧ PyEqual env false v w ∧
    ¬ EqualOutcome (objectToJson env v) (objectToJson env w) := by
  refine ⟨env, .dict [(.int 1, .str c!"a"), (.str c!"1", .str c!"b")], .dict [(.str c!"1", .str c!"b"), (.int 1, .str c!"a")], env_ok,
    respects, .dict (.swap _ _ _) ?_, not_equal (j := .obj [(c!"1", .str c!"b")]) (k := .obj [(c!"1", .str c!"a")]) rfl rfl ?_⟩
  · intro k v w h1 h2
    simp only [List.mem_cons, List.not_mem_nil, or_false, Prod.mk.injEq] at h1 h2
    rcases h1 with ⟨rfl, rfl⟩ | ⟨rfl, rfl⟩ <;> rcases h2 with ⟨h, rfl⟩ | ⟨h, rfl⟩ <;> first | exact .same | cases h
  · intro h
    cases h with
    | scalar h => simp [Json.scalar] at h
    | obj _ h => exact str_ne (by decide) (h c!"1" _ _ rfl rfl)

/-! ### The hypotheses are met -/

namespace C76

/-- `Shape("s", 1.0, {RED: [1], BLUE: [2]}, Point(1, 2))` and the same with the tags in the other order. -/
def shape1 (f : PyFloat) : Val :=
  .obj 1 [(c!"name", .str c!"s"), (c!"area", .float f), (c!"tags", .dict [(.enum 0 0, .list [.int 1]), (.enum 0 1, .list [.int 2])]),
    (c!"at_", .obj 0 [(c!"x", .int 1), (c!"y", .int 2)])]
def shape2 (f : PyFloat) : Val :=
  .obj 1 [(c!"name", .str c!"s"), (c!"area", .float f), (c!"tags", .dict [(.enum 0 1, .list [.int 2]), (.enum 0 0, .list [.int 1])]),
    (c!"at_", .obj 0 [(c!"x", .int 1), (c!"y", .int 2)])]

theorem key_ok (m : Nat) (h : m < 2) : KeyHasTy env (.enum 0 m) (.enum 0) := ⟨rfl, colour, rfl, h⟩

theorem hasTy_shape (f : PyFloat) (kvs : List (Key × Val))
    (h : kvs = [(.enum 0 0, .list [.int 1]), (.enum 0 1, .list [.int 2])] ∨ kvs = [(.enum 0 1, .list [.int 2]), (.enum 0 0, .list [.int 1])]) :
    HasTy env (.obj 1 [(c!"name", .str c!"s"), (c!"area", .float f), (c!"tags", .dict kvs),
      (c!"at_", .obj 0 [(c!"x", .int 1), (c!"y", .int 2)])]) (.cls 1) := by
  have ints : ∀ i : Int, HasTy env (.list [.int i]) (.list .int) := fun i =>
    .list fun v hv => by rcases List.mem_singleton.1 hv with rfl; exact .int
  refine .cls (cd := shape) rfl rfl fun i fd w h1 h2 => ?_
  match i with
  | 0 => cases h1; cases h2; exact .str
  | 1 => cases h1; cases h2; exact .float
  | 2 =>
    cases h1
    cases h2
    refine .dict ?_ ?_ ?_
    · rcases h with rfl | rfl <;> decide
    · intro kv hkv
      rcases h with rfl | rfl <;> simp only [List.mem_cons, List.not_mem_nil, or_false] at hkv <;> rcases hkv with rfl | rfl <;>
        exact key_ok _ (by decide)
    · intro kv hkv
      rcases h with rfl | rfl <;> simp only [List.mem_cons, List.not_mem_nil, or_false] at hkv <;> rcases hkv with rfl | rfl <;>
        exact ints _
  | 3 =>
    cases h1
    cases h2
    refine .union (t := .cls 0) (by simp) (.cls (cd := point) rfl rfl fun i f w h1 h2 => ?_)
    match i with
    | 0 => cases h1; cases h2; exact .int
    | 1 => cases h1; cases h2; exact .int
    | i + 2 => cases h2
  | i + 4 => cases h2

theorem tidy_shape (v : Val) (h : HasTy env v (.cls 1)) : Tidy env v := by
  refine C76_tidy env (fun _ => True) (fun c cd _ hcd => ?_) (.cls 1) v h (.cls trivial)
  match c with
  | 0 =>
    cases hcd
    refine ⟨by simp [point], rfl, fun f hf => ?_⟩
    simp only [point, List.mem_cons, List.not_mem_nil, or_false] at hf
    rcases hf with rfl | rfl <;> exact .plain (by simp)
  | 1 =>
    cases hcd
    refine ⟨by simp [shape], rfl, fun f hf => ?_⟩
    simp only [shape, List.mem_cons, List.not_mem_nil, or_false] at hf
    rcases hf with rfl | rfl | rfl | rfl
    · exact .plain (by simp)
    · exact .plain (by simp)
    · exact .dict (.list (.plain (by simp)))
    · refine .union fun t ht => ?_
      simp only [List.mem_cons, List.not_mem_nil, or_false] at ht
      rcases ht with rfl | rfl
      · exact .cls trivial
      · exact .plain (by simp)
  | c + 2 => cases hcd

/-- Shapes whose areas are `0.0` and `-0.0`, with tags in a different order, are equal. -/
theorem shapes_equal : PyEqual env false (shape1 (.fin false 0 0)) (shape2 (.fin true 0 0)) := by
  refine .dataclass (frozen := false) rfl rfl fun i v w h1 h2 => ?_
  match i with
  | 0 => cases h1; cases h2; exact .same
  | 1 => cases h1; cases h2; exact .scalar rfl rfl (by decide +kernel)
  | 2 =>
    cases h1
    cases h2
    refine .dict (.swap _ _ _) fun k v w h1 h2 => ?_
    simp only [List.mem_cons, List.not_mem_nil, or_false, Prod.mk.injEq] at h1 h2
    rcases h1 with ⟨rfl, rfl⟩ | ⟨rfl, rfl⟩ <;> rcases h2 with ⟨h, rfl⟩ | ⟨h, rfl⟩ <;> first | exact .same | (exfalso; revert h; decide)
  | 3 => cases h1; cases h2; exact .same
  | i + 4 => cases h2

end C76

open C76 in
example : EqualOutcome (objectToJson env (shape1 (.fin false 0 0))) (objectToJson env (shape2 (.fin true 0 0))) :=
  C76_written_partial env env_ok respects _ _ (tidy_shape _ (hasTy_shape _ _ (.inl rfl))) (tidy_shape _ (hasTy_shape _ _ (.inr rfl)))
    shapes_equal

open C76 in
example : (objectToJson env (shape1 (.fin false 0 0))).toOption.isSome = true := by with_unfolding_all rfl

open C76 in
example : EqualOutcome (dumps env (.cls 1) (shape1 (.fin false 0 0))) (dumps env (.cls 1) (shape2 (.fin true 0 0))) :=
  C76_typed_partial env env_ok respects _ _ _ (hasTy_shape _ _ (.inl rfl)) (hasTy_shape _ _ (.inr rfl))
    (tidy_shape _ (hasTy_shape _ _ (.inl rfl))) (tidy_shape _ (hasTy_shape _ _ (.inr rfl))) shapes_equal

open C76 in
example : PyEqual env true (.tuple [.bool true, .datetime noon]) (.tuple [.int 1, .datetime one]) :=
  C76_eq env _ _ (by decide +kernel)

end Verif
