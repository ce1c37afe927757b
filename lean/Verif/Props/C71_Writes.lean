import Verif.Lemmas.Writes
import Verif.Props.C13_PlainJson
import Verif.Lemmas.RoundTrip
/-!
# C71: which objects can be written
-/
namespace Verif

/-- C71: an object is written, as a type, exactly if there is a serializer for the type and each of the visited parts of the object
can be written.  Missing: what the model leaves out, as objects that do not fit the type, and keys of dictionaries that are members of
enumerations with values other than strings. -/
theorem C71_writes_partial (env : Env) (t : Ty) (v : Val) (hm : dumps env t v ≠ .error .outOfModel) :
    (∃ j, dumps env t v = .ok j) ↔ serCreate env t = .ok () ∧ CanWrite env t v := by
  unfold dumps at hm ⊢
  cases hc : serCreate env t with
  | error e => simp
  | ok _ =>
    simp only [hc] at hm ⊢
    constructor
    · rintro ⟨j, hj⟩
      refine ⟨trivial, fun u w e hp hf => ?_⟩
      obtain ⟨j', hj'⟩ := part_written hp hj
      exact fails_not_written hf j' hj'
    · rintro ⟨-, h⟩
      cases hg : gen env v t with
      | ok j => exact ⟨j, rfl⟩
      | error e =>
        rw [hg] at hm
        obtain ⟨u, w, h1, h2⟩ := gen_error _ (Nat.lt_succ_self _) (fun he => hm (he ▸ rfl)) t hg
        exact absurd h2 (h u w e h1)

/-- C71: an exception of the serializer is that of a visited part. -/
theorem C71_raises (env : Env) (t : Ty) (v : Val) (e : Err) (hm : e ≠ .outOfModel) (hc : serCreate env t = .ok ())
    (h : dumps env t v = .error e) : ∃ u w, WritePart env t v u w ∧ WriteFails env u w e := by
  rw [dumps, hc] at h
  exact gen_error _ (Nat.lt_succ_self _) hm t h

/-- C71: for objects whose attributes are as their classes declare, it does not depend on the declared types which objects can
be written.  Missing: as above. -/
theorem C71_writable_partial (env : Env) (hk : env.Ok) (v : Val) (hs : Sound env v) (hm : objectToJson env v ≠ .error .outOfModel) :
    (∃ j, objectToJson env v = .ok j) ↔ Writable env v := by
  have key : ∀ n v, sizeOf v < n → Sound env v → (∀ j, objectToJson env v = .ok j → Writable env v) ∧
      (Writable env v → ∀ e, objectToJson env v = .error e → e = .outOfModel) := by
    intro n
    induction n with
    | zero => intro v hn; omega
    | succ n ih =>
      intro v hsz hs
      have harr : ∀ vs, Elements v vs → objectToJson env v = arrOf (mapRes (objectToJson env) vs) → (∀ x ∈ vs, sizeOf x < n ∧ Sound env x) →
          (∀ j, objectToJson env v = .ok j → Writable env v) ∧ (Writable env v → ∀ e, objectToJson env v = .error e → e = .outOfModel) := by
        intro vs hv heq hvs
        rw [heq]
        constructor
        · intro j h
          unfold arrOf at h
          split at h
          · rename_i js hjs
            rw [mapRes_ok_iff] at hjs
            refine .items hv fun x hx => ?_
            obtain ⟨y, _, hy⟩ := hjs.mem_left hx
            exact (ih x (hvs x hx).1 (hvs x hx).2).1 y hy
          · cases h
        · intro hw e h
          obtain ⟨x, hx, hxe⟩ := arr_error h
          refine (ih x (hvs x hx).1 (hvs x hx).2).2 ?_ e hxe
          cases hw with
          | simple h => exact absurd hv (h.1 vs)
          | items hv' h => cases hv <;> cases hv' <;> exact h x hx
          | dict | method | object => cases hv
      cases hs with
      | list hvs => exact harr _ .list (dyn_list env _) fun v hv => ⟨by have := Val.sizeOf_mem_list hv; omega, hvs v hv⟩
      | set hvs => exact harr _ .set (dyn_set env _) fun v hv => ⟨by have := Val.sizeOf_mem_set hv; omega, hvs v hv⟩
      | tuple hvs => exact harr _ .tuple (dyn_tuple env _) fun v hv => ⟨by have := Val.sizeOf_mem_tuple hv; omega, hvs v hv⟩
      | @dict kvs hvs =>
        rw [dyn_dict]
        have hin : ∀ kv ∈ kvs, sizeOf kv.2 < n := fun kv hkv => by have := Val.sizeOf_mem_dict hkv; omega
        constructor
        · intro j h
          have hall := genPairs_all h
          refine .dict (fun kv hkv => ?_) ?_
          · obtain ⟨-, j', hj'⟩ := hall _ (List.mem_map.2 ⟨kv, hkv, rfl⟩)
            simp only [gen_dyn] at hj'
            exact (ih _ (hin kv hkv) (hvs kv hkv)).1 j' hj'
          · rintro e m x r rfl kv hkv
            obtain ⟨⟨k, hk⟩, -⟩ := hall (kv.1, gen env kv.2) (List.mem_map.2 ⟨kv, List.mem_cons_of_mem _ hkv, rfl⟩)
            simp only [List.map_cons, untypedKey, keyValue] at hk
            split at hk
            · rename_i e' m' he; exact ⟨e', m', he⟩
            · cases hk
        · intro hw e h
          cases hw with
          | simple h => exact absurd rfl (h.2.1 kvs)
          | items h => cases h
          | dict hw hkeys =>
            apply Classical.byContradiction
            intro hne
            rcases genPairs_error h with ⟨p, hp, hpe⟩ | ⟨p, hp, hpe⟩
            · obtain ⟨kv, hkv, rfl⟩ := List.mem_map.1 hp
              cases kvs with
              | nil => cases hkv
              | cons kv0 kvs =>
                obtain ⟨k0, x0⟩ := kv0
                cases k0 with
                | enum en m =>
                  simp only [List.map_cons, untypedKey] at hpe
                  obtain ⟨-, hnk⟩ := keyValue_error hne hpe
                  rcases List.mem_cons.1 hkv with rfl | hkv
                  · exact hnk en m rfl
                  · obtain ⟨e', m', he⟩ := hkeys en m x0 kvs rfl kv hkv
                    exact hnk e' m' he
                | str s => simp only [List.map_cons, untypedKey] at hpe; exact absurd hpe (keyStr_error hne)
                | int i => simp only [List.map_cons, untypedKey] at hpe; exact absurd hpe (keyStr_error hne)
            · obtain ⟨kv, hkv, rfl⟩ := List.mem_map.1 hp
              simp only [gen_dyn] at hpe
              exact hne ((ih _ (hin kv hkv) (hvs kv hkv)).2 (hw kv hkv) e hpe)
      | @obj c fs hty hvs =>
        have hin : ∀ kv ∈ fs, sizeOf kv.2 < n := fun kv hkv => by have := Val.sizeOf_mem_obj (c := c) hkv; omega
        have hobj : objectToJson env (.obj c fs) =
            match serCreate env (.cls c) with | .error e => .error e | .ok _ => genCls env (.obj c fs) (.obj (genObj env fs)) c := rfl
        rw [hobj]
        cases hser : serCreate env (.cls c) with
        | error e =>
          refine ⟨fun j h => (by cases h), fun hw => ?_⟩
          cases hw with
          | simple h => exact absurd rfl (h.2.2 c fs)
          | items h => cases h
          | method h | object h => rw [hser] at h; cases h
        | ok _ =>
          simp only
          unfold genCls
          cases hcd : env.classes[c]? with
          | none => refine ⟨fun j h => (by cases h), fun _ e h => by cases h; rfl⟩
          | some cd =>
            simp only
            cases hf : cd.toJson with
            | some f =>
              simp only
              refine ⟨fun j h => .method hser hcd hf h, fun hw e h => ?_⟩
              cases hw with
              | simple h => exact absurd rfl (h.2.2 c fs)
              | items h => cases h
              | method _ h1 h2 h3 =>
                rw [hcd] at h1; cases h1; rw [hf] at h2; cases h2; rw [h3] at h; cases h
              | object _ h1 h2 => rw [hcd] at h1; cases h1; rw [hf] at h2; cases h2
            | none =>
              simp only
              have hwr : Writable env (.obj c fs) → ∀ kv ∈ fs, kv.2 ≠ .none → ¬ (cd.kind = .plain ∧ cd.fields = [] ∧ SpecialName kv.1) →
                  Writable env kv.2 := by
                intro hw
                cases hw with
                | simple h => exact absurd rfl (h.2.2 c fs)
                | items h => cases h
                | method _ h1 h2 h3 => rw [hcd] at h1; cases h1; rw [hf] at h2; cases h2
                | object _ h1 h2 h3 => rw [hcd] at h1; cases h1; exact h3
              -- members of classes that declare some
              have hnames : cd.fields ≠ [] → fs.map Prod.fst = cd.fields.map FieldDef.name := by
                intro hne
                cases hty with
                | untyped hcd' _ he => rw [hcd] at hcd'; cases hcd'; exact absurd he hne
                | cls hcd' h => rw [hcd] at hcd'; cases hcd'; exact h
              have hnd := hk.fields cd (List.mem_of_getElem? hcd)
              have hget : ∀ fd ∈ cd.fields, ∃ w, (fd.name, w) ∈ fs ∧ lookupKey fd.name fs = some w := by
                intro fd hfd
                obtain ⟨i, hi⟩ := List.getElem?_of_mem hfd
                obtain ⟨w, hw, hl⟩ := attr_of_name (hnames fun h => by rw [h] at hfd; cases hfd) hnd hi
                exact ⟨w, List.mem_of_getElem? hw, hl⟩
              have hof : cd.fields ≠ [] → ∀ kv ∈ fs, ∃ fd ∈ cd.fields, fd.name = kv.1 ∧ lookupKey fd.name fs = some kv.2 := by
                intro hne kv hkv
                have h1 : kv.1 ∈ cd.fields.map FieldDef.name := hnames hne ▸ List.mem_map.2 ⟨kv, hkv, rfl⟩
                obtain ⟨fd, hfd, h2⟩ := List.mem_map.1 h1
                exact ⟨fd, hfd, h2, h2 ▸ lookupKey_of_mem (by rw [hnames hne]; exact hnd) hkv⟩
              have hprops : cd.kind ≠ .namedTuple false → cd.fields ≠ [] ∨ cd.kind ≠ .plain →
                  (∀ j, genProps cd.kind (genObj env fs) [] cd.fields = .ok j → Writable env (.obj c fs)) ∧
                  (Writable env (.obj c fs) → ∀ e, genProps cd.kind (genObj env fs) [] cd.fields = .error e → e = .outOfModel) := by
                intro hkind hne
                have hdyn : ∀ fd ∈ cd.fields, ∀ w, lookupKey fd.name fs = some w → gen env w fd.ty = objectToJson env w := by
                  intro fd hfd w hl
                  obtain ⟨i, hi⟩ := List.getElem?_of_mem hfd
                  cases hty with
                  | untyped hcd' _ he => rw [hcd] at hcd'; cases hcd'; rw [he] at hfd; cases hfd
                  | cls hcd' hnm hfty =>
                    rw [hcd] at hcd'; cases hcd'
                    obtain ⟨w', hw', hl'⟩ := attr_of_name hnm hnd hi
                    rw [hl] at hl'; cases hl'
                    have h2 : serCreate env fd.ty = .ok () :=
                      serCreate_field hcd hser (by unfold ClassDef.serFields; rw [hf, hints_eq_fields hkind]; exact hfd)
                    rw [← C14_static_dynamic env fd.ty _ h2 (hfty i fd _ (by rw [hints_eq_fields hkind]; exact hi) hw')]
                    simp only [dumps, h2]
                rw [genObj_eq]
                refine ⟨fun j h => .object hser hcd hf fun kv hkv hnone _ => ?_, fun hw e h => ?_⟩
                · by_cases hemp : cd.fields = []
                  · cases hty with
                    | untyped hcd' hp _ => rw [hcd] at hcd'; cases hcd'; rcases hne with h | h
                                           · exact absurd hemp h
                                           · exact absurd hp h
                    | cls hcd' hnm _ => rw [hcd] at hcd'; cases hcd'; rw [hemp, List.map_nil, List.map_eq_nil_iff] at hnm; rw [hnm] at hkv; cases hkv
                  · obtain ⟨fd, hfd, -, hl⟩ := hof hemp kv hkv
                    obtain ⟨w, g, h1, h2⟩ := genProps_all h fd hfd
                    rw [lookup_genObj, hl] at h1; cases h1
                    obtain ⟨y, hy⟩ := h2 (isNone_false.2 hnone)
                    rw [hdyn fd hfd _ hl] at hy
                    exact (ih _ (hin kv hkv) (hvs kv hkv)).1 y hy
                · rcases genProps_error h with ⟨-, fd, hfd, hl⟩ | ⟨fd, hfd, w, g, hl, hn, he⟩
                  · obtain ⟨w, -, hl'⟩ := hget fd hfd
                    rw [lookup_genObj, hl'] at hl; cases hl
                  · obtain ⟨w', hmem, hl'⟩ := hget fd hfd
                    rw [lookup_genObj, hl'] at hl; cases hl
                    rw [hdyn fd hfd _ hl'] at he
                    refine (ih _ (hin _ hmem) (hvs _ hmem)).2 (hwr hw _ hmem (isNone_false.1 hn) ?_) e he
                    rintro ⟨-, h, -⟩; rw [h] at hfd; cases hfd
              split
              · rename_i hkind
                rw [genObj_eq]
                refine ⟨fun j h => .object hser hcd hf fun kv hkv hnone _ => ?_, fun hw e h => ?_⟩
                · by_cases hemp : cd.fields = []
                  · cases hty with
                    | untyped hcd' hp _ => rw [hcd] at hcd'; cases hcd'; rw [hkind] at hp; cases hp
                    | cls hcd' hnm _ => rw [hcd] at hcd'; cases hcd'; rw [hemp, List.map_nil, List.map_eq_nil_iff] at hnm; rw [hnm] at hkv; cases hkv
                  · obtain ⟨fd, hfd, -, hl⟩ := hof hemp kv hkv
                    obtain ⟨w, g, h1, y, hy⟩ := genUntypedTuple_all h fd hfd
                    rw [lookup_genObj, hl] at h1; cases h1
                    simp only [gen_dyn] at hy
                    exact (ih _ (hin kv hkv) (hvs kv hkv)).1 y hy
                · rcases genUntypedTuple_error h with ⟨-, fd, hfd, hl⟩ | ⟨fd, hfd, w, g, hl, he⟩
                  · obtain ⟨w, -, hl'⟩ := hget fd hfd
                    rw [lookup_genObj, hl'] at hl; cases hl
                  · obtain ⟨w', hmem, hl'⟩ := hget fd hfd
                    rw [lookup_genObj, hl'] at hl; cases hl
                    simp only [gen_dyn] at he
                    by_cases hnone : w = .none
                    · rw [hnone] at he; cases he
                    · refine (ih _ (hin _ hmem) (hvs _ hmem)).2 (hwr hw _ hmem hnone ?_) e he
                      rintro ⟨h, -⟩; rw [hkind] at h; cases h
              · rename_i hkind
                split
                · rename_i hemp
                  rw [genObj_eq]
                  refine ⟨fun j h => .object hser hcd hf fun kv hkv hnone hsp => ?_, fun hw e h => ?_⟩
                  · obtain ⟨y, hy⟩ := genUntyped_all h (kv.1, kv.2, gen env kv.2) (mem_sortByName.2 (List.mem_map.2 ⟨kv, hkv, rfl⟩))
                      (by simpa using fun h => hsp ⟨hkind, List.isEmpty_iff.1 hemp, isReserved_iff.1 h⟩) (isNone_false.2 hnone)
                    simp only [gen_dyn] at hy
                    exact (ih _ (hin kv hkv) (hvs kv hkv)).1 y hy
                  · obtain ⟨p, hp, h1, h2, h3⟩ := genUntyped_error h
                    obtain ⟨kv, hkv, rfl⟩ := List.mem_map.1 (mem_sortByName.1 hp)
                    simp only [gen_dyn] at h3
                    refine (ih _ (hin kv hkv) (hvs kv hkv)).2 (hwr hw kv hkv (isNone_false.1 h2) ?_) e h3
                    rintro ⟨-, -, h⟩
                    rw [← isReserved_iff] at h; rw [h] at h1; cases h1
                · rename_i hemp
                  exact hprops (by rw [hkind]; simp) (Or.inl (by simpa using hemp))
              · rename_i h1 h2
                exact hprops (fun h => h1 h) (Or.inr fun h => h2 h)
      | leaf hl =>
        have hsimple : v.IsSimple := by
          refine ⟨fun vs h => ?_, fun kvs h => ?_, fun c fs h => ?_⟩
          · cases h <;> cases hl
          · subst h; cases hl
          · subst h; cases hl
        cases v with
        | list | set | tuple | dict | obj => cases hl
        | datetime d =>
          have h0 : objectToJson env (.datetime d) = genShape env (.datetime d) .none .datetime := rfl
          rw [h0]
          simp only [genShape, dtSerialize]
          cases ho : d.time.off with
          | none =>
            refine ⟨fun j h => (by cases h), fun hw => ?_⟩
            cases hw with
            | simple _ h => exact absurd ho (h d rfl)
            | items h => cases h
          | some o =>
            refine ⟨fun j _ => .simple hsimple (fun d' h => ?_) (fun n m ed f h => by cases h), fun _ e h => by cases h⟩
            cases h; rw [ho]; simp
        | enum en m =>
          have h0 : objectToJson env (.enum en m) = match serCreate env (.enum en) with
            | .error e => .error e | .ok _ => genEnum env (.enum en m) en := rfl
          rw [h0]
          simp only [serCreate, createWith]
          cases he : env.enums[en]? with
          | none => exact ⟨fun j h => (by cases h), fun _ e h => by cases h; rfl⟩
          | some ed =>
            simp only
            constructor
            · intro j h
              refine .simple hsimple (fun d h => by cases h) fun n' m' ed' f h1 h2 h3 => ?_
              cases h1
              rw [he] at h2; cases h2
              refine ⟨j, ?_⟩
              simpa only [genEnum, he, h3, if_true] using h
            · intro hw e h
              apply Classical.byContradiction
              intro hne
              obtain ⟨ed', f, m', h1, h2, h3, h4⟩ := enum_error hne h
              cases h3
              cases hw with
              | simple _ _ h =>
                obtain ⟨j, hj⟩ := h _ _ _ _ rfl h1 h2
                rw [hj] at h4; cases h4
              | items h => cases h
        | _ =>
          refine ⟨fun j _ => .simple hsimple (fun d h => by cases h) (fun n m ed f h => by cases h), fun _ e h => by cases h⟩
  obtain ⟨h1, h2⟩ := key _ v (Nat.lt_succ_self _) hs
  refine ⟨fun ⟨j, hj⟩ => h1 j hj, fun hw => ?_⟩
  cases h : objectToJson env v with
  | ok j => exact ⟨j, rfl⟩
  | error e => exact absurd (h2 hw e h ▸ h) hm

/-! ### What the code does otherwise -/

private def exEnv : Env :=
  ⟨[{ module := c!"m", name := c!"E", members := [(c!"A", .str c!"a")] }],
   [{ module := c!"m", name := c!"P", kind := .dataclass false, fields :=
      [{ name := c!"at", ty := .union [.none, .datetime] }, { name := c!"xs", ty := .list (.cls 1) }] },
    { module := c!"m", name := c!"Q", kind := .plain, fields := [] },
    { module := c!"m", name := c!"Node", kind := .dataclass false, fields := [{ name := c!"xs", ty := .list (.cls 2) }] }], id⟩

private theorem exEnv_ok : exEnv.Ok :=
  ⟨by simp [exEnv, EnumDef.key, ClassDef.key], by simp [exEnv, EnumDef.Ok], by simp [exEnv], fun _ => .refl _⟩

/-- One would expect that the order of the entries of a dictionary does not matter, but the conversion of all keys is chosen by the
first one: `{E.A: 1, "x": 2}` raises `AttributeError`, `{"x": 2, E.A: 1}` is written, with the name of the member in place of its
value. -/
theorem C71_key_order_fails : ∃ (env : Env) (a b : Key × Val), env.Ok ∧
    objectToJson env (.dict [a, b]) = .error .attribute ∧
    objectToJson env (.dict [b, a]) = .ok (.obj [(c!"x", .int 2), (c!"E.A", .int 1)]) :=
  ⟨exEnv, (.enum 0 0, .int 1), (.str c!"x", .int 2), exEnv_ok, rfl, rfl⟩

/-! ### The hypotheses are met -/

private def time (off : Option Int) : PyDateTime := ⟨⟨2024, 2, 29⟩, ⟨23, 59, 59, 0, off⟩⟩

/-- An object with a date-time and an object with arbitrary attributes, a special one that could not be written among them. -/
private def good (off : Option Int) : Val := .obj 0 [(c!"at", .datetime (time (some 0))),
  (c!"xs", .list [.obj 1 [(c!"__x__", .datetime (time none)), (c!"y", .list [.datetime (time off)])]])]

example : dumps exEnv (.cls 0) (good (some 0)) ≠ .error .outOfModel ∧ CanWrite exEnv (.cls 0) (good (some 0)) := by
  have h : ∃ j, dumps exEnv (.cls 0) (good (some 0)) = .ok j := ⟨_, by with_unfolding_all rfl⟩
  have hm : dumps exEnv (.cls 0) (good (some 0)) ≠ .error .outOfModel := by
    obtain ⟨j, h⟩ := h; rw [h]; intro h; cases h
  exact ⟨hm, ((C71_writes_partial _ _ _ hm).1 h).2⟩

/-- The date-time in the list that is an attribute without declared type is visited. -/
example : WritePart exEnv (.cls 0) (good none) .datetime (.datetime (time none)) ∧
    WriteFails exEnv .datetime (.datetime (time none)) .jsonValue ∧ dumps exEnv (.cls 0) (good none) = .error .jsonValue := by
  refine ⟨?_, .naive rfl, by with_unfolding_all rfl⟩
  refine .field rfl rfl (.inl ⟨false, rfl⟩) (f := { name := c!"xs", ty := .list (.cls 1) }) (by simp) rfl (by simp) ?_
  refine .list .list (List.mem_singleton.2 rfl) ?_
  refine .attr rfl rfl rfl rfl (n := c!"y") (x := .list [.datetime (time none)]) (by simp) ?_ (by simp) ?_
  · rintro (⟨m, _, h⟩ | h)
    · cases h
    · cases h
  · exact .union (.bare (by simp [typeOf]) .list (List.mem_singleton.2 rfl) (.union .here))

/-- A dictionary with keys of an enumeration, and an object of a class without serializer in a list without declared type. -/
example : Sound exEnv (.dict [(.enum 0 0, .list [.none, .datetime (time (some 0))])]) ∧
    Writable exEnv (.dict [(.enum 0 0, .list [.none, .datetime (time (some 0))])]) ∧
    ¬ Writable exEnv (.list [.obj 2 [(c!"xs", .list [])]]) := by
  have hs : Sound exEnv (.dict [(.enum 0 0, .list [.none, .datetime (time (some 0))])]) := by
    refine .dict fun kv hkv => ?_
    rcases List.mem_singleton.1 hkv with rfl
    refine .list fun v hv => .leaf ?_
    simp only [List.mem_cons, List.not_mem_nil, or_false] at hv
    rcases hv with rfl | rfl <;> rfl
  have h : ∃ j, objectToJson exEnv (.dict [(.enum 0 0, .list [.none, .datetime (time (some 0))])]) = .ok j :=
    ⟨_, by with_unfolding_all rfl⟩
  refine ⟨hs, (C71_writable_partial exEnv exEnv_ok _ hs ?_).1 h, fun hw => ?_⟩
  · obtain ⟨j, h⟩ := h; rw [h]; intro h; cases h
  · have hs' : Sound exEnv (.list [.obj 2 [(c!"xs", .list [])]]) := by
      refine .list fun v hv => ?_
      rcases List.mem_singleton.1 hv with rfl
      refine .obj (.cls (cd := { module := c!"m", name := c!"Node", kind := .dataclass false, fields := [{ name := c!"xs", ty := .list (.cls 2) }] }) rfl rfl fun i f w hf hw => ?_) fun kv hkv => ?_
      · match i with
        | 0 => cases hf; cases hw; exact .list (by simp)
        | _ + 1 => cases hf
      · rcases List.mem_singleton.1 hkv with rfl
        exact .list (by simp)
    have he : objectToJson exEnv (.list [.obj 2 [(c!"xs", .list [])]]) = .error .recursion := by with_unfolding_all rfl
    obtain ⟨j, hj⟩ := (C71_writable_partial exEnv exEnv_ok _ hs' (by rw [he]; simp)).2 hw
    rw [he] at hj; cases hj

end Verif
