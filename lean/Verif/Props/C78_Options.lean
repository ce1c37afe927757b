import Verif.Lemmas.Options
import Verif.Lemmas.ClassRead
import Verif.Props.C77_Reader
import Verif.Props.C28_C29_Cache
/-!
# C78: which option is in force

Deserializers are kept with the option (`skip_unassigned`) of the call that made them, so that C28 is violated.  This file says exactly
which option is applied to which class.
-/
namespace Verif

private theorem creation (env : Env) (hk : env.Ok) (hc : env.Complete) (skip : Bool) (t : Ty) (ht : ¬ Dangles env t) (h : HasReader env t)
    (H : Heap) (hH : Completed env (fun _ => False) H) :
    ∃ d H', getDeser env skip t H = (.ok d, H') ∧ compile env t = .ok d ∧ d.Refs H'.Dom ∧ Completed env (fun _ => False) H' ∧
      ∀ c, Reaches env t c → HasEntry env H' c := by
  obtain ⟨d, hd⟩ := C77_suffices env hk hc skip t ht h H
  have h0 : Created env (fun _ => False) env.classes.length (¬ Fault env t ∧ t.Within (fun _ => False)) H (getDeser env skip t H) (Gotten env t) :=
    getWith_created hk hc.literal (buildCls_creates hk hc (fun _ h => h.elim) (fun _ h => h.elim) skip _) t H ht
  rcases hr : getDeser env skip t H with ⟨r, H'⟩
  rw [hr] at hd h0
  simp only at hd
  subst hd
  obtain ⟨h1, h2, h3, h4⟩ := h0.done hH d rfl
  refine ⟨d, H', rfl, h2, h3, h1, fun c hr => ?_⟩
  induction hr with
  | here hm => exact h4 _ hm
  | field _ hcd hcus hf hm ih =>
    obtain ⟨cd', hcd', hd'⟩ := ih
    rw [hcd] at hcd'; cases hcd'
    exact (h1 _ _ hcd hd' hcus id _ hf).2 _ (mentions_fieldTy' hm)

open Classical in
private theorem option_from (env : Env) (hk : env.Ok) (hc : env.Complete) (calls : List Call)
    (hcalls : ∀ c ∈ calls, ¬ Dangles env c.ty ∧ HasReader env c.ty) (skip : Bool) (t : Ty) (ht : ¬ Dangles env t) (h : HasReader env t) (j : Json)
    (D : Nat → Prop) (opt : Nat → Bool) (H : Heap) (hH : Completed env (fun _ => False) H) (ho : HoldsOpt env D opt H) :
    (jsonToObject env skip t j (history env calls H)).1 = loadsBy env (fun c => if D c then opt c else inForce env calls skip c) t j := by
  induction calls generalizing D opt H with
  | nil =>
    obtain ⟨d, H', h1, h2, h3, h4, h5⟩ := creation env hk hc skip t ht h H hH
    simp only [history, jsonToObject, h1, loadsBy, h2, inForce]
    exact (ho.step h1 h5).parse hk h4 h3 j
  | cons call calls ih =>
    obtain ⟨g1, g2⟩ := hcalls call (by simp)
    obtain ⟨d, H', h1, h2, h3, h4, h5⟩ := creation env hk hc call.skip call.ty g1 g2 H hH
    have he : (jsonToObject env call.skip call.ty call.data H).2 = H' := by simp only [jsonToObject, h1]
    simp only [history, he]
    rw [ih (fun c hc => hcalls c (by simp [hc])) _ _ H' h4 (ho.step h1 h5)]
    congr 1
    funext c
    simp only [inForce]
    by_cases hD : D c
    · simp [hD]
    · by_cases hR : Reaches env call.ty c <;> simp [hD, hR]

/-- C78: after any calls for types that have deserializers, reading applies to each class the option of the first call whose type leads
to the class, and its own option to classes that no earlier call led to. -/
theorem C78_option (env : Env) (hk : env.Ok) (hc : env.Complete) (calls : List Call)
    (hcalls : ∀ c ∈ calls, ¬ Dangles env c.ty ∧ HasReader env c.ty) (skip : Bool) (t : Ty) (ht : ¬ Dangles env t) (h : HasReader env t)
    (j : Json) : (jsonToObject env skip t j (history env calls Heap.empty)).1 = loadsBy env (inForce env calls skip) t j := by
  rw [option_from env hk hc calls hcalls skip t ht h j (fun _ => False) (fun _ => false) Heap.empty completed_empty (holdsOpt_empty _)]
  congr 1
  funext c
  simp

/-- C78: only the options of classes that the type leads to matter. -/
theorem C78_local (env : Env) (hk : env.Ok) (hc : env.Complete) (t : Ty) (ht : ¬ Dangles env t) (h : HasReader env t) (opt opt' : Nat → Bool)
    (ho : ∀ c, Reaches env t c → opt c = opt' c) (j : Json) : loadsBy env opt t j = loadsBy env opt' t j := by
  have hall : ∀ c, Reaches env t c → ∃ cd, env.classes[c]? = some cd := by
    obtain ⟨d, H', _, _, _, _, h5⟩ := creation env hk hc false t ht h Heap.empty completed_empty
    exact fun c hr => (h5 c hr).imp fun _ h => h.1
  have hb : ∀ c, Reaches env t c → Buildable env c := by
    intro c hr
    obtain ⟨cd, hcd⟩ := hall c hr
    refine ⟨cd, hcd, fun hcus f hf => (supported_iff_faultless hk fun hd => ?_).2 (h.2 c hr cd hcd hcus f hf)⟩
    exact hc.known cd (List.mem_of_getElem? hcd) f hf (dangles_fieldTy hd)
  obtain ⟨H', h1, h2, h3⟩ := getWith_step hk (fun c hc => (reaches_good hb c hc).imp fun _ h => h.1) (buildCls_ok hk false (reaches_good hb) _) t
    Heap.empty (reaches_within env t) (missing_le env _) (clean_empty env false _)
  unfold loadsBy
  cases hcomp : compile env t with
  | error e => rfl
  | ok d =>
    simp only
    refine parse_agree (S := H'.DomG env (Reaches env t)) ⟨fun k hd => ?_, fun k hd c s fds he fd hfd => ?_⟩ j d (h3 d hcomp)
    · cases hd.1 with
      | cls hG hcd => rw [heapBy_cls hk opt hcd, heapBy_cls hk opt' hcd, ho _ hG]
      | enum hed => rw [heapBy_enum hk opt hed, heapBy_enum hk opt' hed]
    · obtain ⟨e, he'⟩ := Option.ne_none_iff_exists'.1 hd.2
      rcases h2.inv.entries k hd.1 e he' with h4 | ⟨h4, _⟩
      · cases hd.1 with
        | @cls c' cd hG hcd =>
          rw [heapBy_cls hk opt hcd] at he
          rw [fullHeap_cls hk false hcd] at h4
          unfold classEntry at he h4
          cases hcus : cd.custom with
          | true => simp [hcus] at he
          | false =>
            simp only [hcus, Bool.false_eq_true, if_false, Option.some.injEq, Entry.cls.injEq] at he h4
            obtain ⟨rfl, _, hf⟩ := he
            refine h2.inv.closed _ hd.1 id c' false fds ?_ fd hfd
            rw [he', ← h4, hf]
        | enum hed => rw [heapBy_enum hk opt hed] at he; cases he
      · exact absurd h4 id

/-- C78: the option of the first call for a type is in force for all later calls for this type, whatever their options. -/
theorem C78_first (env : Env) (hk : env.Ok) (hc : env.Complete) (first : Call) (calls : List Call)
    (hcalls : ∀ c ∈ first :: calls, ¬ Dangles env c.ty ∧ HasReader env c.ty) (skip : Bool) (j : Json) :
    (jsonToObject env skip first.ty j (history env (first :: calls) Heap.empty)).1 = loads env first.skip first.ty j := by
  obtain ⟨h1, h2⟩ := hcalls first (by simp)
  rw [C78_option env hk hc (first :: calls) hcalls skip first.ty h1 h2 j, ← loadsBy_const]
  exact C78_local env hk hc first.ty h1 h2 _ _ (fun c hr => by simp [inForce, hr]) j

/-- Reading an object of a class, with options for the classes. -/
private theorem loadsBy_cls {env : Env} (hk : env.Ok) (opt : Nat → Bool) {c : Nat} {cd : ClassDef} (hcd : env.classes[c]? = some cd)
    (hcus : cd.custom = false) {fds : List FieldD} (hf : compileFields env cd = .ok fds) (kvs : List (Str × Json)) :
    loadsBy env opt (.cls c) (.obj kvs) =
      match parseFields (kvs.map fun p => (p.1, p.2, parse env (heapBy env opt) p.2)) fds with
      | .error e => .error e
      | .ok vs => if opt c || kvs.all (fun p => fds.any (fun fd => fd.prop = p.1)) then createObj env c vs else .error .jsonKey := by
  simp only [loadsBy, compile_cls hcd, parse, parseD, parseRef, heapBy_cls hk opt hcd, classEntry, hcus, Bool.false_eq_true, if_false, hf,
    parseCls, parseObj_eq, List.all_map, Function.comp_def]
  rfl

/-- C78: properties that do not belong to the class are ignored if the option in force for the class is `skip_unassigned`, and cause an
error otherwise; the option of the call itself has nothing to do with it. -/
theorem C78_unknown (env : Env) (hk : env.Ok) (hc : env.Complete) (calls : List Call)
    (hcalls : ∀ c ∈ calls, ¬ Dangles env c.ty ∧ HasReader env c.ty) (skip : Bool) (c : Nat) (cd : ClassDef) (hcd : env.classes[c]? = some cd)
    (hcus : cd.custom = false) (h : HasReader env (.cls c)) (kvs known : List (Str × Json))
    (hkn : known = kvs.filter (fun kv => cd.hints.any (fun f => fieldProp cd.kind f = kv.1))) (hne : known ≠ kvs) :
    if inForce env calls skip c then
      (jsonToObject env skip (.cls c) (.obj kvs) (history env calls Heap.empty)).1 =
        (jsonToObject env skip (.cls c) (.obj known) (history env calls Heap.empty)).1
    else ∃ e, (jsonToObject env skip (.cls c) (.obj kvs) (history env calls Heap.empty)).1 = .error e := by
  have hd : ¬ Dangles env (.cls c) := fun h => by cases h with | cls h => rw [hcd] at h; cases h
  have hsup : ∀ f ∈ cd.hints, Supported env (fieldTy cd.kind f) := fun f hf =>
    (supported_iff_faultless hk fun hx => hc.known cd (List.mem_of_getElem? hcd) f hf (dangles_fieldTy hx)).2
      (h.2 c (.here .cls) cd hcd hcus f hf)
  obtain ⟨fds, hf, hall⟩ := compileFields_of hsup
  have hprop : ∀ p : Str, (fds.any fun fd => fd.prop = p) = (cd.hints.any fun f => fieldProp cd.kind f = p) := by
    intro p
    rw [Bool.eq_iff_iff, List.any_eq_true, List.any_eq_true]
    constructor
    · rintro ⟨fd, hfd, he⟩
      obtain ⟨f, hf, d, _, rfl⟩ := hall.mem_right hfd
      exact ⟨f, hf, he⟩
    · rintro ⟨f, hf, he⟩
      obtain ⟨fd, hfd, d, _, rfl⟩ := hall.mem_left hf
      exact ⟨_, hfd, he⟩
  have hopt := C78_option env hk hc calls hcalls skip (.cls c) hd h
  rw [hopt, hopt, loadsBy_cls hk _ hcd hcus hf, loadsBy_cls hk _ hcd hcus hf]
  by_cases hi : inForce env calls skip c = true
  · simp only [hi, if_true, Bool.true_or]
    have : parseFields (kvs.map fun p => (p.1, p.2, parse env (heapBy env (inForce env calls skip)) p.2)) fds =
        parseFields (known.map fun p => (p.1, p.2, parse env (heapBy env (inForce env calls skip)) p.2)) fds := by
      refine mapRes_congr fun fd hfd => ?_
      have hl : lookupKey fd.prop kvs = lookupKey fd.prop known := by
        subst hkn
        clear hne
        induction kvs with
        | nil => rfl
        | cons kv kvs ih =>
          obtain ⟨k, x⟩ := kv
          by_cases he : k = fd.prop
          · subst he
            have : (cd.hints.any fun g => decide (fieldProp cd.kind g = fd.prop)) = true := by
              rw [← hprop]; exact List.any_eq_true.2 ⟨fd, hfd, by simp⟩
            rw [List.filter_cons_of_pos (by simpa using this)]
            simp [lookupKey]
          · simp only [List.filter_cons]
            split
            · simp only [lookupKey, he, if_false]; exact ih
            · simp only [lookupKey, he, if_false]; exact ih
      have hm : ∀ l : List (Str × Json), lookupKey fd.prop (l.map fun p => (p.1, p.2, parse env (heapBy env (inForce env calls skip)) p.2)) =
          (lookupKey fd.prop l).map fun x => (x, parse env (heapBy env (inForce env calls skip)) x) := fun l =>
        lookupKey_map (fun x => (x, parse env (heapBy env (inForce env calls skip)) x)) fd.prop l
      unfold parseField
      simp only [hm, hl]
    rw [this]
  · simp only [hi, Bool.false_or]
    cases parseFields (kvs.map fun p => (p.1, p.2, parse env (heapBy env (inForce env calls skip)) p.2)) fds with
    | error e => exact ⟨e, rfl⟩
    | ok vs =>
      refine ⟨.jsonKey, ?_⟩
      simp only
      rw [if_neg]
      intro hk2
      refine hne (hkn.trans (List.filter_eq_self.2 fun p hp => ?_))
      rw [← hprop]
      exact List.all_eq_true.1 hk2 p hp

/-! ### The hypotheses are met -/

/-- `class Inner: x: int = 0` and `class Outer: inner: Inner; others: list["Outer"]` -/
def nestEnv : Env :=
  ⟨[], [{ module := c!"m", name := c!"Inner", kind := .dataclass false,
          fields := [{ name := c!"x", ty := .int, dflt := .value (.int 0) }] },
        { module := c!"m", name := c!"Outer", kind := .dataclass false,
          fields := [{ name := c!"inner", ty := .cls 0 }, { name := c!"others", ty := .list (.cls 1), fwd := true }] }], id⟩

theorem nestEnv_ok : nestEnv.Ok := ⟨by decide +kernel, by simp [nestEnv], by simp [nestEnv], fun _ => .refl _⟩

private theorem nest_known {c : Nat} (h : Dangles nestEnv (.cls c)) : 2 ≤ c := by
  cases h with
  | cls h => exact List.getElem?_eq_none_iff.1 h

theorem nestEnv_complete : nestEnv.Complete := by
  constructor
  · intro cd hcd f hf h
    simp only [nestEnv, List.mem_cons, List.not_mem_nil, or_false] at hcd
    rcases hcd with rfl | rfl <;> simp only [ClassDef.hints, List.mem_cons, List.not_mem_nil, or_false] at hf
    · subst hf; cases h
    · rcases hf with rfl | rfl <;> simp only at h
      · exact absurd (nest_known h) (by decide)
      · cases h with | list h => exact absurd (nest_known h) (by decide)
  · intro cd hcd f hf
    simp only [nestEnv, List.mem_cons, List.not_mem_nil, or_false] at hcd
    rcases hcd with rfl | rfl <;> simp only [ClassDef.hints, List.mem_cons, List.not_mem_nil, or_false] at hf
    · subst hf; simp [Ty.litArgs, Ty.unwrapAnn]
    · rcases hf with rfl | rfl <;> simp [Ty.litArgs, Ty.unwrapAnn]

private theorem nest_reader (c : Nat) (hc : c < 2) : ¬ Dangles nestEnv (.cls c) ∧ HasReader nestEnv (.cls c) := by
  have h : ¬ Dangles nestEnv (.cls c) := fun h => absurd (nest_known h) (by omega)
  refine ⟨h, (C77_exists nestEnv nestEnv_ok nestEnv_complete [] (by simp) false (.cls c) h).1 ?_⟩
  match c, hc with
  | 0, _ => exact ⟨_, rfl⟩
  | 1, _ => exact ⟨_, rfl⟩

/-- After the inner class has been read with `skip_unassigned`, reading the outer class without it ignores unknown properties of the inner
objects, and refuses those of the outer ones. -/
theorem C78_mixed : ∀ j, (jsonToObject nestEnv false (.cls 1) j (history nestEnv [⟨true, .cls 0, .null⟩] Heap.empty)).1 =
    loadsBy nestEnv (fun c => decide (c = 0)) (.cls 1) j := by
  intro j
  rw [C78_option nestEnv nestEnv_ok nestEnv_complete _ (by simpa using nest_reader 0 (by omega)) false _ (nest_reader 1 (by omega)).1
    (nest_reader 1 (by omega)).2 j]
  congr 1
  funext c
  have hr : Reaches nestEnv (.cls 0) c ↔ c = 0 := by
    constructor
    · intro h
      induction h with
      | here hm => cases hm; rfl
      | field _ hcd _ hf hm ih =>
        subst ih
        cases hcd
        simp only [ClassDef.hints, List.mem_cons, List.not_mem_nil, or_false] at hf
        subst hf; cases hm
    · rintro rfl; exact .here .cls
  simp only [inForce]
  by_cases h : c = 0
  · rw [if_pos (hr.2 h)]; simp [h]
  · rw [if_neg (fun g => h (hr.1 g))]; simp [h]

example : (jsonToObject nestEnv false (.cls 1) (.obj [(c!"inner", .obj [(c!"y", .int 1)]), (c!"others", .arr [])])
    (history nestEnv [⟨true, .cls 0, .null⟩] Heap.empty)).1 = .ok (.obj 1 [(c!"inner", .obj 0 [(c!"x", .int 0)]), (c!"others", .list [])]) := rfl

example : (jsonToObject nestEnv false (.cls 1) (.obj [(c!"inner", .obj []), (c!"others", .arr []), (c!"y", .int 1)])
    (history nestEnv [⟨true, .cls 0, .null⟩] Heap.empty)).1 = .error .jsonKey := rfl

example : inForce nestEnv [⟨true, .cls 0, .null⟩] false 0 = true := by simp [inForce, Reaches.here Mentions.cls]

/-- The hypotheses of `C78_unknown`. -/
example : (jsonToObject nestEnv false (.cls 0) (.obj [(c!"y", .int 1), (c!"x", .int 2)]) (history nestEnv [⟨true, .cls 0, .null⟩] Heap.empty)).1 =
    (jsonToObject nestEnv false (.cls 0) (.obj [(c!"x", .int 2)]) (history nestEnv [⟨true, .cls 0, .null⟩] Heap.empty)).1 := by
  have := C78_unknown nestEnv nestEnv_ok nestEnv_complete [⟨true, .cls 0, .null⟩] (by simpa using nest_reader 0 (by omega)) false 0 _ rfl rfl
    (nest_reader 0 (by omega)).2 [(c!"y", .int 1), (c!"x", .int 2)] [(c!"x", .int 2)] rfl (by simp)
  rwa [if_pos (by simp [inForce, Reaches.here Mentions.cls])] at this

/-- The first call for the class refuses unknown properties; so does one with `skip_unassigned` later. -/
example (j : Json) : (jsonToObject nestEnv true (.cls 1) j (history nestEnv [⟨false, .cls 1, .null⟩, ⟨true, .cls 0, .int 1⟩] Heap.empty)).1 =
    loads nestEnv false (.cls 1) j :=
  C78_first nestEnv nestEnv_ok nestEnv_complete ⟨false, .cls 1, .null⟩ _
    (by intro c hc; simp only [List.mem_cons, List.not_mem_nil, or_false] at hc
        rcases hc with rfl | rfl
        · exact nest_reader 1 (by omega)
        · exact nest_reader 0 (by omega)) true j

end Verif
