import Verif.Spec.SameDoc
import Verif.Props.C11_RoundTrip
import Verif.Props.C12_TypeSafety
import Verif.Lemmas.SchemaNode
/-!
# C60: writing what was read gives the document back
-/
namespace Verif

/-- Being written as the same document. -/
def WritesBack (env : Env) (add drop : Bool) (j : Json) (v : Val) : Prop := ∃ j', objectToJson env v = .ok j' ∧ SameDoc add drop j j'

theorem writesBack_all {env : Env} {add drop : Bool} {xs : List Json} {vs : List Val} (h : All2 (WritesBack env add drop) xs vs) :
    ∃ ys, mapRes (objectToJson env) vs = .ok ys ∧ All2 (SameDoc add drop) xs ys := by
  induction h with
  | nil => exact ⟨[], rfl, .nil⟩
  | cons h _ ih =>
    obtain ⟨y, h1, h2⟩ := h
    obtain ⟨ys, h3, h4⟩ := ih
    exact ⟨y :: ys, by simp [mapRes, h1, h3], .cons h2 h4⟩

theorem same_arr {add drop : Bool} {xs ys : List Json} (h : All2 (SameDoc add drop) xs ys) : SameDoc add drop (.arr xs) (.arr ys) := by
  refine .arr h.length fun i x y hx hy => ?_
  obtain ⟨y', hy', h'⟩ := h.get i x hx
  rw [hy] at hy'; cases hy'; exact h'

theorem same_dict {add drop : Bool} {xs ys : List (Str × Json)} (h : All2 (fun x y => y.1 = x.1 ∧ SameDoc add drop x.2 y.2) xs ys) :
    SameDoc add drop (.obj xs) (.obj ys) := by
  refine .dict ?_ fun i x y hx hy => ?_
  · induction h with
    | nil => rfl
    | cons h _ ih => simp [h.1, ih]
  · obtain ⟨y', hy', h'⟩ := h.get i x hx
    rw [hy] at hy'; cases hy'; exact h'.2


theorem writesBack_class {env : Env} (hk : env.Ok) {G : Nat → Prop} {add skip : Bool} {c : Nat} {cd : ClassDef}
    (hd : DocumentClass env G add c cd) {kvs : List (Str × Json)} {vs : List (Str × Val)}
    (hn : vs.map Prod.fst = cd.fields.map FieldDef.name)
    (hty : ∀ (i : Nat) f w, cd.fields[i]? = some f → vs[i]? = some w → HasTy env w.2 f.ty)
    (hr : All2 (fun f w => w.1 = f.name ∧ readField env skip cd.kind f kvs = .ok w.2) cd.fields vs)
    (hkn : skip = true ∨ OnlyKnown cd kvs)
    (ih : ∀ f ∈ cd.fields, ∀ k x w, Present kvs k x → loads env skip (fieldTy cd.kind f) x = .ok w →
      WritesBack env add skip x w ∧ w ≠ .none) :
    ∃ ps, objectToJson env (.obj c vs) = .ok (.obj ps) ∧ WritesFields env cd.kind cd.fields vs ps ∧ SameRecord add skip kvs ps := by
  have key : ∀ (i : Nat) f w, cd.fields[i]? = some f → vs[i]? = some w →
      (∃ x, Present kvs (fieldProp cd.kind f) x ∧ WritesBack env add skip x w.2 ∧ w.2 ≠ .none) ∨
      ((∀ x, ¬ Present kvs (fieldProp cd.kind f) x) ∧ (w.2 = .none ∨ add = true ∧ ∃ j, objectToJson env w.2 = .ok j)) := by
    intro i f w hf hw
    obtain ⟨w', hw', _, h2⟩ := hr.get i f hf
    rw [hw] at hw'; cases hw'
    have hfm := List.mem_of_getElem? hf
    unfold readField at h2
    cases hl : lookupKey (fieldProp cd.kind f) kvs with
    | none =>
      rw [hl] at h2
      refine .inr ⟨fun x hx => (by have := hx.1; rw [hl] at this; cases this), ?_⟩
      cases ha : absentValue cd.kind f with
      | none => rw [ha] at h2; cases h2
      | some u => rw [ha] at h2; cases h2; exact hd.absent f hfm _ ha
    | some x =>
      by_cases hx : x = .null
      · subst hx
        rw [hl] at h2
        refine .inr ⟨fun x hx => (by have := hx.1; rw [hl] at this; cases this; exact hx.2 rfl), ?_⟩
        cases ha : absentValue cd.kind f with
        | none => simp only [ha] at h2; cases h2
        | some u => simp only [ha] at h2; cases h2; exact hd.absent f hfm _ ha
      · have h3 : loads env skip (fieldTy cd.kind f) x = .ok w.2 := by
          rw [hl] at h2
          cases x <;> first | exact absurd rfl hx | exact h2
        exact .inl ⟨x, ⟨hl, hx⟩, ih f hfm _ x w.2 ⟨hl, hx⟩ h3⟩
  have hgen : ∀ (i : Nat) f w, cd.fields[i]? = some f → vs[i]? = some w → gen env w.2 f.ty = objectToJson env w.2 :=
    fun i f w hf hw => gen_field hd.cls hd.toJson hd.kind hd.ser (List.mem_of_getElem? hf) (hty i f w hf hw)
  obtain ⟨ps, hw⟩ : ∃ ps, WritesFields env cd.kind cd.fields vs ps := by
    refine writesFields_total hn fun i f w hf hw hne => ?_
    rw [hgen i f w hf hw]
    rcases key i f w hf hw with ⟨x, _, ⟨y, h, _⟩, _⟩ | ⟨_, h | ⟨_, h⟩⟩
    · exact ⟨y, h⟩
    · exact absurd h hne
    · exact h
  refine ⟨ps, (objectToJson_standard hk hd.cls hd.toJson hd.kind hd.fields hd.props hn).2 ⟨hd.ser, ps, rfl, hw⟩, hw, ?_⟩
  have named : ∀ (i : Nat) f, cd.fields[i]? = some f → ∃ w, vs[i]? = some (f.name, w) := by
    intro i f hf
    obtain ⟨w, hw, h1, _⟩ := hr.get i f hf
    exact ⟨w.2, by rw [hw, ← h1]⟩
  refine ⟨hd.props.sublist hw.props, ?_, ?_, ?_⟩
  · intro k x y hx hy
    obtain ⟨f, hf, rfl⟩ := List.mem_map.1 (hw.props.subset (List.mem_map.2 ⟨_, lookupKey_some_mem hy, rfl⟩))
    obtain ⟨i, hi⟩ := List.getElem?_of_mem hf
    obtain ⟨w, hvi⟩ := named i f hi
    rcases hw.lookup hd.props hi hvi with ⟨_, h2⟩ | ⟨_, y', h1, h2⟩
    · rw [h2] at hy; cases hy
    · rw [h2] at hy; cases hy
      rw [hgen i f _ hi hvi] at h1
      rw [← hd.same f hf] at hx
      rcases key i f _ hi hvi with ⟨x', hx', ⟨y', h3, h4⟩, _⟩ | ⟨h3, _⟩
      · have := hx.1; rw [hx'.1] at this; cases this
        simp only at h3
        rw [h1] at h3; cases h3; exact h4
      · exact absurd hx (h3 x)
  · rcases hkn with h | h
    · exact .inl h
    · refine .inr fun k x hx => ?_
      obtain ⟨f, hf, hfk⟩ := h _ (lookupKey_some_mem hx.1)
      rw [hints_eq_fields hd.kind] at hf
      obtain ⟨i, hi⟩ := List.getElem?_of_mem hf
      obtain ⟨w, hvi⟩ := named i f hi
      simp only at hfk
      subst hfk
      rcases key i f _ hi hvi with ⟨x', hx', _, h4⟩ | ⟨h3, _⟩
      · rcases hw.lookup hd.props hi hvi with ⟨h2, _⟩ | ⟨_, y', _, h2⟩
        · exact absurd h2 h4
        · exact ⟨y', by rw [hd.same f hf]; exact h2⟩
      · exact absurd hx (h3 x)
  · cases add with
    | true => exact .inl rfl
    | false =>
      refine .inr fun k y hy => ?_
      obtain ⟨f, hf, rfl⟩ := List.mem_map.1 (hw.props.subset (List.mem_map.2 ⟨_, lookupKey_some_mem hy, rfl⟩))
      obtain ⟨i, hi⟩ := List.getElem?_of_mem hf
      obtain ⟨w, hvi⟩ := named i f hi
      rcases hw.lookup hd.props hi hvi with ⟨_, h2⟩ | ⟨hne, _⟩
      · rw [h2] at hy; cases hy
      · rcases key i f _ hi hvi with ⟨x', hx', _⟩ | ⟨_, h | ⟨h, _⟩⟩
        · exact ⟨x', by rw [← hd.same f hf]; exact hx'⟩
        · exact absurd h hne
        · cases h

theorem write_back {env : Env} (hk : env.Ok) (ht : env.Typed) {G : Nat → Prop} {add skip : Bool}
    (hG : ∀ c, G c → ∃ cd, DocumentClass env G add c cd) : ∀ (j : Json) (t : Ty), DocTy env G t → j.Wf → ∀ v, loads env skip t j = .ok v →
      WritesBack env add skip j v ∧ (j ≠ .null → v ≠ .none) := by
  refine json_ty_induction ?_
  intro j t ihj iht hd hj v h
  have hsup := loads_ok_supported h
  have hty := C12_type_safe env hk ht skip t j v h
  cases hd with
  | none => cases j <;> first | (cases h; exact ⟨⟨.null, rfl, .scalar rfl rfl (.inl rfl)⟩, fun h => absurd rfl h⟩) | cases h
  | bool => cases j <;> first | (cases h; exact ⟨⟨_, rfl, .scalar rfl rfl (.inl rfl)⟩, by simp⟩) | cases h
  | str => cases j <;> first | (cases h; exact ⟨⟨_, rfl, .scalar rfl rfl (.inl rfl)⟩, by simp⟩) | cases h
  | int =>
    cases j <;> first | (cases h; exact ⟨⟨_, rfl, .scalar rfl rfl (.inl rfl)⟩, by simp⟩) | cases h | skip
    rename_i b
    exact ⟨⟨_, rfl, .scalar rfl rfl (.inr (.inl (by cases b <;> rfl)))⟩, by simp⟩
  | float =>
    have h' : parseFloat j = .ok v := by rw [loads_of_compile (d := .float) rfl, parse_eq] at h; exact h
    cases j <;> simp only [parseFloat] at h' <;> first | cases h' | skip
    · rename_i b
      split at h' <;> cases h'
      rename_i f hf
      exact ⟨⟨.float f, rfl, .scalar rfl rfl (.inr (.inr ⟨_, f, rfl, rfl, hf⟩))⟩, by simp⟩
    · rename_i i
      split at h' <;> cases h'
      rename_i f hf
      exact ⟨⟨.float f, rfl, .scalar rfl rfl (.inr (.inr ⟨_, f, rfl, rfl, hf⟩))⟩, by simp⟩
    · exact ⟨⟨_, rfl, .scalar rfl rfl (.inl rfl)⟩, by simp⟩
  | @literal ls hi he =>
    have hs : SameType ls := by
      by_cases hs : SameType ls
      · exact hs
      · have := (C24_mixed env ls (fun e m hm => absurd rfl (he _ hm e m))).2.2 hs skip j
        rw [h] at this; cases this
    obtain ⟨l, hl, h1, rfl⟩ := (C24_accepts_iff_partial env hk skip ls hs (fun e m hm => absurd rfl (he _ hm e m)) j
      (fun i b hm => absurd rfl (hi _ hm i)) v).1 h
    cases l with
    | int i => exact absurd rfl (hi _ hl i)
    | enum e m => exact absurd rfl (he _ hl e m)
    | none => simp only [LitIs] at h1; subst h1; exact ⟨⟨.null, rfl, .scalar rfl rfl (.inl rfl)⟩, fun h => absurd rfl h⟩
    | bool b => simp only [LitIs] at h1; subst h1; exact ⟨⟨_, rfl, .scalar rfl rfl (.inl rfl)⟩, by simp [Lit.toVal]⟩
    | str s => simp only [LitIs] at h1; subst h1; exact ⟨⟨_, rfl, .scalar rfl rfl (.inl rfl)⟩, by simp [Lit.toVal]⟩
  | @enum e ed hed hto =>
    rw [loads_enum hk skip hed] at h
    unfold enumLookup at h
    rw [hed] at h
    simp only at h
    cases hs : j.scalar with
    | none => rw [hs] at h; cases h
    | some s =>
      rw [hs] at h
      simp only at h
      split at h
      · rename_i i hi
        cases h
        obtain ⟨m, hm, hp⟩ := findIdx?_some hi
        refine ⟨⟨m.2.toJson, ?_, .scalar hs (b := m.2) (by generalize m.2 = x; cases x <;> rfl) (.inr (.inl hp))⟩, by simp⟩
        have hnan : m.2 ≠ .float .nan := by
          intro hx; rw [hx] at hp; cases s <;> simp [Scalar.pyEq, Scalar.asInt, floatEqInt, floatEq] at hp
        obtain ⟨j', h1, _⟩ := C25_roundtrip_partial env hk skip e ed hed hto i m.1 m.2 hm hnan
        rw [h1]
        have := dumps_enum h1
        unfold genEnum enumValue at this
        simp only [hed, hto, hm] at this
        cases this; rfl
      · split at h <;> cases h
  | @list t hd =>
    obtain ⟨xs, vs, rfl, rfl, ha⟩ := (C15_list env skip t (supported_list hsup) j v).1 h
    have hw : ∀ x ∈ xs, x.Wf := by cases hj with | arr h => exact h
    obtain ⟨ys, h1, h2⟩ := writesBack_all (ha.imp_mem fun x hx w _ hl => (ihj x t (sizeOf_arr hx) hd (hw x hx) w hl).1)
    exact ⟨⟨.arr ys, by rw [dyn_list, h1]; rfl, same_arr h2⟩, by simp⟩
  | @tuple ts hd =>
    obtain ⟨xs, vs, rfl, rfl, h1, h2, h3⟩ := (C15_tuple env skip ts (supported_tuple hsup) j v).1 h
    have hw : ∀ x ∈ xs, x.Wf := by cases hj with | arr h => exact h
    have ha : All2 (WritesBack env add skip) xs vs := by
      refine All2.of_get (by omega) fun i x w hx hv => ?_
      have hi : i < ts.length := by have := (List.getElem?_eq_some_iff.1 hx).1; omega
      have hti := List.getElem?_eq_getElem hi
      exact (ihj x _ (sizeOf_arr (List.mem_of_getElem? hx)) (hd _ (List.mem_of_getElem? hti)) (hw x (List.mem_of_getElem? hx)) w
        (h3 i x _ w hx hti hv)).1
    obtain ⟨ys, h1, h2⟩ := writesBack_all ha
    exact ⟨⟨.arr ys, by rw [dyn_tuple, h1]; rfl, same_arr h2⟩, by simp⟩
  | @dict t hd =>
    obtain ⟨kvs, rfl⟩ := loads_dict_obj h
    obtain ⟨hn, hw⟩ : (kvs.map (·.1)).Nodup ∧ ∀ kv ∈ kvs, kv.2.Wf := by cases hj with | obj h1 h2 => exact ⟨h1, h2⟩
    obtain ⟨vs, rfl, ha⟩ := loads_dict_json hn h
    obtain ⟨ys, hys⟩ : ∃ ys : List (Str × Json), All2 (fun v y => v.1 = Key.str y.1 ∧ objectToJson env v.2 = .ok y.2) vs ys ∧
        All2 (fun x y => y.1 = x.1 ∧ SameDoc add skip x.2 y.2) kvs ys := by
      have hb := ha.imp_mem (S := fun x v => v.1 = Key.str x.1 ∧ WritesBack env add skip x.2 v.2)
        fun x hx w _ hl => ⟨hl.1, (ihj x.2 t (sizeOf_obj hx) hd (hw x hx) w.2 hl.2).1⟩
      clear ha hty h hn hw hj ihj iht hsup
      induction hb with
      | nil => exact ⟨[], .nil, .nil⟩
      | @cons x v xs vs hb _ ih =>
        obtain ⟨ys, h1, h2⟩ := ih
        obtain ⟨hb1, y, hb2, hb3⟩ := hb
        exact ⟨(x.1, y) :: ys, .cons ⟨hb1, hb2⟩ h1, .cons ⟨rfl, hb3⟩ h2⟩
    cases hty with
    | dict hnd hkeys _ =>
      refine ⟨⟨.obj ys, (dict_written hk (k := .str) trivial hnd hkeys).2 ⟨ys, rfl, hys.1.imp fun v y hvy => ⟨?_, hvy.2⟩⟩,
        same_dict hys.2⟩, by simp⟩
      rw [hvy.1]; rfl
  | @annotated t ms hd =>
    rw [loads_annotated] at h
    exact iht t (by simp; omega) hd hj v h
  | @union ts hd =>
    obtain ⟨t, htm, h1⟩ := union_member_of_ok hk h
    exact iht t (sizeOf_mem_union htm) (hd t htm) hj v h1
  | @cls c hc =>
    obtain ⟨cd, hd⟩ := hG c hc
    obtain ⟨cd', hc', hcu | hr⟩ := readable_of_ok hk h
    · rw [hd.cls] at hc'; cases hc'; rw [hd.custom] at hcu; cases hcu
    · rw [hd.cls] at hc'; cases hc'
      obtain ⟨kvs, vs, rfl, rfl, ha, ho⟩ := (loads_cls_ok_iff hk skip hr j v).1 h
      obtain ⟨hn, hw⟩ : (kvs.map (·.1)).Nodup ∧ ∀ kv ∈ kvs, kv.2.Wf := by cases hj with | obj h1 h2 => exact ⟨h1, h2⟩
      rw [hints_eq_fields hd.kind] at ha
      obtain ⟨fs, he, hn', hfty⟩ := hasTy_cls_inv hd.cls hd.kind hd.fields hty
      cases he
      obtain ⟨ps, h1, _, h2⟩ := writesBack_class hk hd hn' hfty ha ho fun f hf k x w hx hl => by
        have hm := lookupKey_some_mem hx.1
        have := ihj x _ (sizeOf_obj hm) (hd.ty f hf) (hw _ hm) w hl
        exact ⟨this.1, this.2 hx.2⟩
      exact ⟨⟨_, h1, h2.obj⟩, by simp⟩

/-- Whatever can be read as a type of documents is written back: writing the value succeeds and gives a document that says the
same.  Members of objects may be missing only if unknown properties were skipped, and may be new only if classes have default
values. -/
theorem C60_write_back (env : Env) (hk : env.Ok) (ht : env.Typed) (G : Nat → Prop) (add skip : Bool)
    (hG : ∀ c, G c → ∃ cd, DocumentClass env G add c cd) (t : Ty) (hd : DocTy env G t) (j : Json) (hj : j.Wf) (v : Val)
    (h : loads env skip t j = .ok v) : ∃ j', objectToJson env v = .ok j' ∧ SameDoc add skip j j' :=
  (write_back hk ht hG j t hd hj v h).1

/-! ### What is not written back -/

/-- A set is written without repetitions. -/
theorem C60_set_fails (env : Env) (skip add drop : Bool) :
    loads env skip (.set .int) (.arr [.int 1, .int 1]) = .ok (.set [.int 1]) ∧ objectToJson env (.set [.int 1]) = .ok (.arr [.int 1]) ∧
      ¬ SameDoc add drop (.arr [.int 1, .int 1]) (.arr [.int 1]) := by
  refine ⟨rfl, rfl, fun h => ?_⟩
  cases h with
  | scalar h => cases h
  | arr h => simp at h

/-- A time is written as another text than the one that was read. -/
theorem C60_datetime_fails (env : Env) (skip : Bool) :
    ∃ v, loads env skip .datetime (.str c!"2024-02-29 00:00:00+00:00") = .ok v ∧
      objectToJson env v = .ok (.str c!"2024-02-29T00:00:00Z") :=
  ⟨_, by with_unfolding_all rfl, by with_unfolding_all rfl⟩

/-- An integer that is read as `float` may be written as another number. -/
theorem C60_float_rounds (env : Env) (skip : Bool) :
    ∃ f, loads env skip .float (.int 9007199254740993) = .ok (.float f) ∧ intToFloat 9007199254740992 = .ok f ∧
      Scalar.pyEq (.int 9007199254740993) (.float f) = false := by
  have h : intToFloat 9007199254740993 = .ok (.fin false 1 53) := by decide +kernel
  refine ⟨.fin false 1 53, ?_, by decide +kernel, by decide +kernel⟩
  rw [loads_of_compile (d := .float) rfl, parse_eq]
  show parseFloat _ = _
  simp only [parseFloat, h]

/-- A field of a named tuple is read under its own name, but written under its alias. -/
theorem C60_namedtuple_alias :
    ∃ env : Env, env.Ok ∧ loads env false (.cls 0) (.obj [(c!"x", .int 1)]) = .ok (.obj 0 [(c!"x", .int 1)]) ∧
      objectToJson env (.obj 0 [(c!"x", .int 1)]) = .ok (.obj [(c!"y", .int 1)]) :=
  ⟨⟨[], [{ module := c!"m", name := c!"P", kind := .namedTuple true, fields :=
    [{ name := c!"x", ty := .annotated .int [.alias c!"y"] }] }], id⟩,
    ⟨by simp, by simp, by simp, fun _ => .refl _⟩, rfl, rfl⟩

/-! ### The hypotheses are met -/

/-- A recursive data class:
```
class Node:  name: Annotated[str, Alias("$name")];  next: Optional[Node];  color: Optional[Color]
             points: list[tuple[float, float]] = []
class Color(Enum):  RED = "red";  TWO = 2
``` -/
private def exEnv : Env :=
  ⟨[{ module := c!"m", name := c!"Color", members := [(c!"RED", .str c!"red"), (c!"TWO", .int 2)] }],
   [{ module := c!"m", name := c!"Node", kind := .dataclass false, fields :=
    [{ name := c!"name", ty := .annotated .str [.alias c!"$name"] },
     { name := c!"next", ty := .union [.cls 0, .none], fwd := true },
     { name := c!"color", ty := .union [.enum 0, .none] },
     { name := c!"points", ty := .list (.tuple [.float, .float]), dflt := .factory (.list []) }] }], id⟩

private theorem exOk : exEnv.Ok := by
  refine ⟨by decide, ?_, by decide, fun _ => .refl _⟩
  intro ed h
  simp only [exEnv, List.mem_singleton] at h
  subst h
  unfold EnumDef.Ok
  decide

private theorem exTyped : exEnv.Typed := by
  constructor
  · intro cd hcd f hf v hv
    simp only [exEnv, List.mem_singleton] at hcd
    subst hcd
    simp only [List.mem_cons, List.not_mem_nil, or_false] at hf
    rcases hf with rfl | rfl | rfl | rfl <;> simp at hv
    subst hv
    exact .list (by simp)
  · intro c cd f j v hc hf
    match c with
    | 0 => cases hc; cases hf
    | _ + 1 => cases hc

private theorem exDoc : ∀ c, c = 0 → ∃ cd, DocumentClass exEnv (· = 0) true c cd := by
  rintro c rfl
  refine ⟨_, rfl, rfl, rfl, by simp, by simp, rfl, by decide, by decide, ?_, ?_⟩
  · intro f hf
    simp only [List.mem_cons, List.not_mem_nil, or_false] at hf
    rcases hf with rfl | rfl | rfl | rfl
    · exact .annotated .str
    · exact .cls rfl
    · exact .enum rfl rfl
    · refine .list (.tuple ?_)
      intro t ht
      simp only [List.mem_cons, List.not_mem_nil, or_false] at ht
      rcases ht with rfl | rfl <;> exact .float
  · intro f hf v hv
    simp only [List.mem_cons, List.not_mem_nil, or_false] at hf
    rcases hf with rfl | rfl | rfl | rfl <;> cases hv
    · exact .inl rfl
    · exact .inl rfl
    · exact .inr ⟨rfl, _, rfl⟩

/-- A document in another order, with `null`, `True` for 1 and `2.0` for 2. -/
private def exDocument : Json :=
  .obj [(c!"next", .obj [(c!"color", .float (.fin false 1 1)), (c!"$name", .str c!"b")]), (c!"color", .null), (c!"$name", .str c!"a"),
    (c!"points", .arr [.arr [.int 3, .bool true]])]

example : exEnv.Ok ∧ exEnv.Typed ∧ (∀ c, c = 0 → ∃ cd, DocumentClass exEnv (· = 0) true c cd) ∧ DocTy exEnv (· = 0) (.cls 0) :=
  ⟨exOk, exTyped, exDoc, .cls rfl⟩

example : ∃ v, loads exEnv false (.cls 0) exDocument = .ok v ∧ objectToJson exEnv v = .ok
    (.obj [(c!"$name", .str c!"a"), (c!"next", .obj [(c!"$name", .str c!"b"), (c!"color", .int 2), (c!"points", .arr [])]),
      (c!"points", .arr [.arr [.float (.fin false 3 0), .float (.fin false 1 0)]])]) :=
  ⟨_, by with_unfolding_all rfl, by with_unfolding_all rfl⟩

/-- `SameDoc` distinguishes documents. -/
example : ¬ SameDoc false false (.obj [(c!"a", .str c!"x")]) (.obj []) ∧ ¬ SameDoc true true (.str c!"a") (.str c!"b") ∧
    ¬ SameDoc true true (.obj [(c!"a", .int 1)]) (.obj [(c!"a", .int 2)]) := by
  have hi : ∀ a b : Int, a ≠ b → ∀ add drop, ¬ SameDoc add drop (.int a) (.int b) := by
    intro a b hab add drop h
    cases h with
    | scalar h1 h2 h =>
      cases h1; cases h2
      rcases h with h | h | ⟨_, _, _, h, _⟩
      · cases h; exact hab rfl
      · simp [Scalar.pyEq, Scalar.asInt, hab] at h
      · cases h
  refine ⟨fun h => ?_, fun h => ?_, fun h => ?_⟩
  · cases h with
    | scalar h => cases h
    | dict h => cases h
    | record _ _ h =>
      obtain ⟨y, hy⟩ := (h.resolve_left (by simp)) c!"a" _ ⟨rfl, by simp⟩
      cases hy
  · cases h with
    | scalar h1 h2 h =>
      cases h1; cases h2
      rcases h with h | h | ⟨_, _, h, _⟩
      · cases h
      · simp [Scalar.pyEq] at h
      · cases h
  · cases h with
    | scalar h => cases h
    | dict _ h => exact hi 1 2 (by decide) _ _ (h 0 (c!"a", .int 1) (c!"a", .int 2) rfl rfl)
    | record _ h => exact hi 1 2 (by decide) _ _ (h c!"a" _ _ ⟨rfl, by simp⟩ rfl)

end Verif
