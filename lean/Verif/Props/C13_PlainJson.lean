import Verif.Lemmas.GenInv
/-!
# C13: the output of the serializer is plain JSON without spurious nulls
-/
namespace Verif

/-! ### Distinct property names -/

/-- What `to_json` methods return is well formed (they are arbitrary code). -/
structure Env.HooksWf (env : Env) : Prop where
  cls : ∀ cd ∈ env.classes, ∀ f v j, cd.toJson = some f → f v = .ok j → j.Wf
  enum : ∀ ed ∈ env.enums, ∀ f m j, ed.toJson = some f → f m = .ok j → j.Wf

theorem Scalar.toJson_wf (s : Scalar) : s.toJson.Wf := by cases s <;> constructor

/-- Whatever the serializer returns, all its objects have distinct property names. -/
theorem C13_distinct (env : Env) (hh : env.HooksWf) (t : Ty) (v : Val) (j : Json) (h : dumps env t v = .ok j) : j.Wf :=
  GenInv.dumps (G := fun _ j => j.Wf)
    { null := fun _ => .null
      str := fun _ _ => .str
      scalar := fun _ s _ => s.toJson_wf
      arr := fun _ _ h => .arr h
      obj := fun _ _ h h' => .obj h h'
      member := fun _ _ s _ => s.toJson_wf
      enum := fun ed he f _ m j hf hj => hh.enum ed he f m j hf hj
      cls := fun cd hc f v j hf hj => hh.cls cd hc f v j hf hj
      listItem := fun _ _ _ _ h => h
      setItem := fun _ _ _ _ h => h
      tupleItem := fun _ _ _ _ h => h
      dictItem := fun _ _ _ _ h => h
      field := fun _ _ _ _ _ h => h } h

/-! ### No null properties -/

/-- Neither a container nor a class instance. -/
def Val.isLeaf : Val → Bool
  | .list _ | .set _ | .tuple _ | .dict _ | .obj _ _ => false
  | _ => true

/-- All class instances in a value, at any depth, have the attributes that their class declares. -/
inductive Sound (env : Env) : Val → Prop
  | leaf {v} : v.isLeaf = true → Sound env v
  | list {vs} : (∀ v ∈ vs, Sound env v) → Sound env (.list vs)
  | set {vs} : (∀ v ∈ vs, Sound env v) → Sound env (.set vs)
  | tuple {vs} : (∀ v ∈ vs, Sound env v) → Sound env (.tuple vs)
  | dict {kvs} : (∀ kv ∈ kvs, Sound env kv.2) → Sound env (.dict kvs)
  | obj {c fs} : HasTy env (.obj c fs) (.cls c) → (∀ kv ∈ fs, Sound env kv.2) → Sound env (.obj c fs)

/-- `j` is JSON for `v` in which no property of a class instance is null: items correspond to items, properties come from
entries of a dictionary or from attributes.  Members of containers may be null.  Nothing is said about the output of
`to_json` methods. -/
inductive NoNull (env : Env) : Val → Json → Prop
  | leaf {v j} : v.isLeaf = true → j.scalar.isSome = true → NoNull env v j
  | list {vs js} : All2 (NoNull env) vs js → NoNull env (.list vs) (.arr js)
  | set {vs js} : All2 (NoNull env) vs js → NoNull env (.set vs) (.arr js)
  | tuple {vs js} : All2 (NoNull env) vs js → NoNull env (.tuple vs) (.arr js)
  | dict {kvs ws ps} : (∀ w ∈ ws, ∃ k, (k, w) ∈ kvs) → All2 (NoNull env) ws (ps.map Prod.snd) → NoNull env (.dict kvs) (.obj ps)
  | obj {c fs ws ps} : (∀ p ∈ ps, p.2 ≠ .null) → (∀ w ∈ ws, ∃ k, (k, w) ∈ fs) → All2 (NoNull env) ws (ps.map Prod.snd) →
      NoNull env (.obj c fs) (.obj ps)
  | enumHook {e m j ed} : env.enums[e]? = some ed → ed.toJson.isSome = true → NoNull env (.enum e m) j
  | hook {c fs j cd} : env.classes[c]? = some cd → cd.toJson.isSome = true → NoNull env (.obj c fs) j

/-- Sources of null properties in the code: enumeration members with value `None`, `to_json` methods that return `None`,
and `UntypedNamedTupleSerializer`. -/
structure Env.NullSafe (env : Env) : Prop where
  member : ∀ ed ∈ env.enums, ∀ p ∈ ed.members, p.2 ≠ .none
  enum : ∀ ed ∈ env.enums, ∀ f m, ed.toJson = some f → f m ≠ .ok .null
  cls : ∀ cd ∈ env.classes, ∀ f v, cd.toJson = some f → f v ≠ .ok .null
  tuple : ∀ cd ∈ env.classes, cd.toJson = none → cd.kind ≠ .namedTuple false

theorem genEnum_not_null {env : Env} (hn : env.NullSafe) {v : Val} {e : Nat} : genEnum env v e ≠ .ok .null := by
  intro h
  unfold genEnum at h
  split at h
  · rename_i ed e' m he
    split at h
    · rename_i f hf
      split at h
      · exact hn.enum ed (List.mem_of_getElem? he) f m hf h
      · cases h
    · split at h
      · rename_i s hs
        unfold enumValue at hs
        split at hs
        · cases hs
        · rename_i ed' he'
          split at hs
          · cases hs
          · rename_i p hp
            cases hs
            have := hn.member ed' (List.mem_of_getElem? he') p (List.mem_of_getElem? hp)
            revert h this
            cases p.2 <;> simp [Scalar.toJson]
      · cases h
  · cases h

private theorem sources {R : Val → Json → Prop} {kvs : List (κ × Val)} : ∀ {ps : List (Str × Json)},
    (∀ p ∈ ps, ∃ kv ∈ kvs, R kv.2 p.2) → ∃ ws, (∀ w ∈ ws, ∃ k, (k, w) ∈ kvs) ∧ All2 R ws (ps.map Prod.snd)
  | [], _ => ⟨[], by simp, .nil⟩
  | p :: ps, h => by
    obtain ⟨kv, hkv, hr⟩ := h p (by simp)
    obtain ⟨ws, h1, h2⟩ := sources (ps := ps) fun q hq => h q (by simp [hq])
    refine ⟨kv.2 :: ws, fun w hw => ?_, .cons hr h2⟩
    rcases List.mem_cons.1 hw with rfl | hw
    · exact ⟨kv.1, hkv⟩
    · exact h1 w hw

theorem genPairs_obj {key : Key → Res Str} {t : Ty} : ∀ (fs : List (Key × (Ty → Res Json))) (acc : List (Str × Json)) (j : Json),
    genPairs key t acc fs = .ok j → ∃ ps, j = .obj ps ∧ ∀ p ∈ ps, p ∈ acc ∨ ∃ f ∈ fs, f.2 t = .ok p.2 := by
  intro fs
  induction fs with
  | nil => intro acc j h; simp only [genPairs] at h; cases h; exact ⟨acc, rfl, fun p hp => .inl hp⟩
  | cons f fs ih =>
    intro acc j h
    obtain ⟨k, f⟩ := f
    simp only [genPairs] at h
    split at h
    · cases h
    · split at h
      · cases h
      · rename_i x hx
        obtain ⟨ps, rfl, hps⟩ := ih _ j h
        refine ⟨ps, rfl, fun p hp => ?_⟩
        rcases hps p hp with h1 | ⟨g, hg, h1⟩
        · rcases upsert_mem h1 with rfl | h1
          · exact .inr ⟨_, List.mem_cons_self, hx⟩
          · exact .inl h1
        · exact .inr ⟨g, by simp [hg], h1⟩

theorem genProps_obj {kind : ClassKind} {fs : List (Str × Val × (Ty → Res Json))} :
    ∀ (fds : List FieldDef) (acc : List (Str × Json)) (j : Json), genProps kind fs acc fds = .ok j →
      ∃ ps, j = .obj ps ∧ ∀ p ∈ ps, p ∈ acc ∨ ∃ fd ∈ fds, ∃ w f, lookupKey fd.name fs = some (w, f) ∧ w ≠ .none ∧
        f fd.ty = .ok p.2 := by
  intro fds
  induction fds with
  | nil => intro acc j h; simp only [genProps] at h; cases h; exact ⟨acc, rfl, fun p hp => .inl hp⟩
  | cons fd fds ih =>
    intro acc j h
    simp only [genProps] at h
    split at h
    · cases h
    · rename_i w f hl
      split at h
      · obtain ⟨ps, rfl, hps⟩ := ih _ j h
        refine ⟨ps, rfl, fun p hp => ?_⟩
        rcases hps p hp with h1 | ⟨g, hg, h1⟩
        · exact .inl h1
        · exact .inr ⟨g, by simp [hg], h1⟩
      · rename_i hw
        split at h
        · cases h
        · rename_i x hx
          obtain ⟨ps, rfl, hps⟩ := ih _ j h
          refine ⟨ps, rfl, fun p hp => ?_⟩
          rcases hps p hp with h1 | ⟨g, hg, h1⟩
          · rcases upsert_mem h1 with rfl | h1
            · exact .inr ⟨fd, by simp, w, f, hl, by rintro rfl; simp [Val.isNone] at hw, hx⟩
            · exact .inl h1
          · exact .inr ⟨g, by simp [hg], h1⟩

theorem genUntyped_obj : ∀ (fs : List (Str × Val × (Ty → Res Json))) (acc : List (Str × Json)) (j : Json),
    genUntyped acc fs = .ok j →
      ∃ ps, j = .obj ps ∧ ∀ p ∈ ps, p ∈ acc ∨ ∃ f ∈ fs, f.2.1 ≠ .none ∧ f.2.2 dynTy = .ok p.2 := by
  intro fs
  induction fs with
  | nil => intro acc j h; simp only [genUntyped] at h; cases h; exact ⟨acc, rfl, fun p hp => .inl hp⟩
  | cons f fs ih =>
    intro acc j h
    obtain ⟨n, w, f⟩ := f
    simp only [genUntyped] at h
    split at h
    · obtain ⟨ps, rfl, hps⟩ := ih _ j h
      refine ⟨ps, rfl, fun p hp => ?_⟩
      rcases hps p hp with h1 | ⟨g, hg, h1⟩
      · exact .inl h1
      · exact .inr ⟨g, by simp [hg], h1⟩
    · rename_i hw
      split at h
      · cases h
      · rename_i x hx
        obtain ⟨ps, rfl, hps⟩ := ih _ j h
        refine ⟨ps, rfl, fun p hp => ?_⟩
        rcases hps p hp with h1 | ⟨g, hg, h1⟩
        · rcases upsert_mem h1 with rfl | h1
          · exact .inr ⟨_, List.mem_cons_self, by rintro h2; simp only at h2; subst h2; simp [Val.isNone] at hw, hx⟩
          · exact .inl h1
        · exact .inr ⟨g, by simp [hg], h1⟩

theorem genUntypedTuple_obj {fs : List (Str × Val × (Ty → Res Json))} :
    ∀ (fds : List FieldDef) (acc : List (Str × Json)) (j : Json), genUntypedTuple fs acc fds = .ok j → ∃ ps, j = .obj ps := by
  intro fds
  induction fds with
  | nil => intro acc j h; simp only [genUntypedTuple] at h; cases h; exact ⟨acc, rfl⟩
  | cons fd fds ih =>
    intro acc j h
    simp only [genUntypedTuple] at h
    split at h
    · cases h
    · split at h
      · cases h
      · exact ih _ j h

/-- Attribute values found by name are those at the position of the field. -/
theorem attr_of_name {fds : List FieldDef} {fs : List (Str × Val)} (hn : fs.map Prod.fst = fds.map FieldDef.name)
    (hd : (fds.map FieldDef.name).Nodup) {i : Nat} {fd : FieldDef} (hi : fds[i]? = some fd) :
    ∃ w, fs[i]? = some (fd.name, w) ∧ lookupKey fd.name fs = some w := by
  have h1 : (fs.map Prod.fst)[i]? = some fd.name := by rw [hn, List.getElem?_map, hi]; rfl
  rw [List.getElem?_map] at h1
  obtain ⟨⟨a, w⟩, h2, h3⟩ := Option.map_eq_some_iff.1 h1
  simp only at h3
  subst h3
  exact ⟨w, h2, lookupKey_of_mem (by simpa [hn] using hd) (List.mem_of_getElem? h2)⟩

/-- Dynamic serialization of anything but `None` does not give null. -/
theorem objectToJson_not_null {env : Env} (hn : env.NullSafe) {v : Val} (hv : v ≠ .none) : objectToJson env v ≠ .ok .null := by
  intro h
  have harr : ∀ r, arrOf r ≠ .ok .null := by intro r; cases r <;> simp [arrOf]
  cases v with
  | none => exact hv rfl
  | list vs => rw [dyn_list] at h; exact harr _ h
  | set vs => rw [dyn_set] at h; exact harr _ h
  | tuple vs => rw [dyn_tuple] at h; exact harr _ h
  | dict kvs => rw [dyn_dict] at h; obtain ⟨ps, h, _⟩ := genPairs_obj _ _ _ h; cases h
  | datetime d =>
    have h : genShape env (.datetime d) .none .datetime = .ok .null := h
    simp only [genShape] at h
    split at h <;> cases h
  | enum e m =>
    unfold objectToJson dumps at h
    split at h
    · cases h
    · exact genEnum_not_null hn h
  | obj c fs =>
    unfold objectToJson dumps at h
    split at h
    · cases h
    · have h : genCls env (.obj c fs) (.obj (genObj env fs)) c = .ok .null := h
      unfold genCls at h
      split at h
      · cases h
      · rename_i cd hcd
        split at h
        · rename_i f hf; exact hn.cls cd (List.mem_of_getElem? hcd) f _ hf h
        · rename_i hf
          simp only at h
          split at h
          · rename_i hk; exact hn.tuple cd (List.mem_of_getElem? hcd) hf hk
          · split at h
            · obtain ⟨_, h, _⟩ := genUntyped_obj _ _ _ h; cases h
            · obtain ⟨_, h, _⟩ := genProps_obj _ _ _ h; cases h
          · obtain ⟨_, h, _⟩ := genProps_obj _ _ _ h; cases h
  | _ => cases h

/-- `object_to_json` gives no null properties of class instances, for programs without the sources of nulls listed in
`NullSafe`. -/
theorem C13_no_null_partial (env : Env) (hk : env.Ok) (hn : env.NullSafe) (v : Val) (hv : Sound env v) (j : Json)
    (h : objectToJson env v = .ok j) : NoNull env v j := by
  have key : ∀ n v, sizeOf v < n → Sound env v → ∀ j, objectToJson env v = .ok j → NoNull env v j := by
    intro n
    induction n with
    | zero => intro v hn; omega
    | succ n ih =>
      intro v hsz hs j h
      have harr : ∀ vs, (∀ v ∈ vs, sizeOf v < n ∧ Sound env v) → arrOf (mapRes (objectToJson env) vs) = .ok j →
          ∃ js, j = .arr js ∧ All2 (NoNull env) vs js := by
        intro vs hvs h
        unfold arrOf at h
        split at h
        · rename_i js hjs
          cases h
          rw [mapRes_ok_iff] at hjs
          exact ⟨js, rfl, hjs.imp_mem fun v hv j _ hj => ih v (hvs v hv).1 (hvs v hv).2 j hj⟩
        · cases h
      cases hs with
      | list hvs =>
        rw [dyn_list] at h
        obtain ⟨js, rfl, ha⟩ := harr _ (fun v hv => ⟨by have := Val.sizeOf_mem_list hv; omega, hvs v hv⟩) h
        exact .list ha
      | set hvs =>
        rw [dyn_set] at h
        obtain ⟨js, rfl, ha⟩ := harr _ (fun v hv => ⟨by have := Val.sizeOf_mem_set hv; omega, hvs v hv⟩) h
        exact .set ha
      | tuple hvs =>
        rw [dyn_tuple] at h
        obtain ⟨js, rfl, ha⟩ := harr _ (fun v hv => ⟨by have := Val.sizeOf_mem_tuple hv; omega, hvs v hv⟩) h
        exact .tuple ha
      | @dict kvs hvs =>
        rw [dyn_dict] at h
        obtain ⟨ps, rfl, hps⟩ := genPairs_obj _ _ _ h
        suffices hsrc : ∀ p ∈ ps, ∃ kv ∈ kvs, NoNull env kv.2 p.2 by
          obtain ⟨ws, h1, h2⟩ := sources hsrc
          exact .dict h1 h2
        intro p hp
        rcases hps p hp with h1 | ⟨f, hf, h1⟩
        · cases h1
        · obtain ⟨kv, hkv, rfl⟩ := List.mem_map.1 hf
          simp only [gen_dyn] at h1
          exact ⟨kv, hkv, ih _ (by have := Val.sizeOf_mem_dict hkv; omega) (hvs kv hkv) _ h1⟩
      | @obj c fs hty hvs =>
        unfold objectToJson dumps at h
        split at h
        · cases h
        rename_i u hser
        have h : genCls env (.obj c fs) (.obj (genObj env fs)) c = .ok j := h
        unfold genCls at h
        split at h
        · cases h
        rename_i cd hcd
        split at h
        · rename_i f hf; exact .hook hcd (by simp [hf])
        rename_i hf
        have hself : ∀ kv ∈ fs, kv.2 ≠ .none → ∀ x, objectToJson env kv.2 = .ok x → x ≠ .null ∧ NoNull env kv.2 x := by
          intro kv hkv hw x hx
          refine ⟨by rintro rfl; exact objectToJson_not_null hn hw hx,
            ih _ (by have := Val.sizeOf_mem_obj (c := c) hkv; omega) (hvs kv hkv) x hx⟩
        have hfin : ∀ ps, j = .obj ps → (∀ p ∈ ps, ∃ kv ∈ fs, kv.2 ≠ .none ∧ objectToJson env kv.2 = .ok p.2) →
            NoNull env (.obj c fs) j := by
          rintro ps rfl hps
          have hsrc : ∀ p ∈ ps, ∃ kv ∈ fs, NoNull env kv.2 p.2 := fun p hp =>
            have ⟨kv, hkv, hw, hx⟩ := hps p hp
            ⟨kv, hkv, (hself kv hkv hw _ hx).2⟩
          obtain ⟨ws, h1, h2⟩ := sources hsrc
          refine .obj (fun p hp => ?_) h1 h2
          obtain ⟨kv, hkv, hw, hx⟩ := hps p hp
          exact (hself kv hkv hw _ hx).1
        have hprops : genProps cd.kind (genObj env fs) [] cd.fields = .ok j → cd.kind ≠ .namedTuple false →
            NoNull env (.obj c fs) j := by
          intro h hkind
          obtain ⟨ps, rfl, hps⟩ := genProps_obj _ _ _ h
          refine hfin ps rfl fun p hp => ?_
          rcases hps p hp with h1 | ⟨fd, hfd, w, f, hl, hw, hx⟩
          · cases h1
          obtain ⟨i, hi⟩ := List.getElem?_of_mem hfd
          cases hty with
          | untyped hcd' _ he => rw [hcd] at hcd'; cases hcd'; rw [he] at hfd; cases hfd
          | cls hcd' hnames hfty =>
            rw [hcd] at hcd'; cases hcd'
            have hhints : cd.hints = cd.fields := by
              unfold ClassDef.hints; split
              · rename_i hk'; exact absurd hk' hkind
              · rfl
            obtain ⟨w', hw', hl'⟩ := attr_of_name hnames (hk.fields cd (List.mem_of_getElem? hcd)) hi
            rw [genObj_eq, lookupKey_map (fun v => (v, gen env v)) fd.name fs, hl'] at hl
            cases hl
            refine ⟨_, List.mem_of_getElem? hw', hw, ?_⟩
            have h1 := hfty i fd _ (by rw [hhints]; exact hi) hw'
            have h2 : serCreate env fd.ty = .ok () :=
              serCreate_field hcd hser (by unfold ClassDef.serFields; rw [hf, hhints]; exact hfd)
            rw [← C14_static_dynamic env fd.ty _ h2 h1]
            simpa only [dumps, h2] using hx
        simp only at h
        split at h
        · rename_i hkind; exact absurd hkind (hn.tuple cd (List.mem_of_getElem? hcd) hf)
        · rename_i hkind
          split at h
          · obtain ⟨ps, rfl, hps⟩ := genUntyped_obj _ _ _ h
            refine hfin ps rfl fun p hp => ?_
            rcases hps p hp with h1 | ⟨f, hf, hw, hx⟩
            · cases h1
            rw [mem_sortByName, genObj_eq] at hf
            obtain ⟨kv, hkv, rfl⟩ := List.mem_map.1 hf
            exact ⟨kv, hkv, hw, by simpa only [gen_dyn] using hx⟩
          · exact hprops h (by simp [hkind])
        · rename_i h1 _; exact hprops h (fun h2 => h1 h2)
      | leaf hl =>
        cases v with
        | list | set | tuple | dict | obj => cases hl
        | datetime d =>
          have h : genShape env (.datetime d) .none .datetime = .ok j := h
          simp only [genShape] at h
          split at h <;> cases h
          exact .leaf rfl rfl
        | enum e m =>
          unfold objectToJson dumps at h
          split at h
          · cases h
          have h : genEnum env (.enum e m) e = .ok j := h
          unfold genEnum at h
          split at h
          · rename_i ed e' m' he _
            split at h
            · rename_i f hf; exact .enumHook he (by simp [hf])
            · split at h
              · rename_i s _; cases h; refine .leaf rfl ?_; cases s <;> rfl
              · cases h
          · cases h
        | _ => cases h; exact .leaf rfl rfl
  exact key _ v (Nat.lt_succ_self _) hv j h

theorem WritesFields.lookup {env : Env} {kind : ClassKind} {fds : List FieldDef} {fs : List (Str × Val)}
    {ps : List (Str × Json)} (h : WritesFields env kind fds fs ps) (hp : (fds.map (writeProp kind)).Nodup) {i : Nat}
    {fd : FieldDef} {w : Val} (hi : fds[i]? = some fd) (hw : fs[i]? = some (fd.name, w)) :
    (w = .none ∧ lookupKey (writeProp kind fd) ps = none) ∨
    (w ≠ .none ∧ ∃ x, gen env w fd.ty = .ok x ∧ lookupKey (writeProp kind fd) ps = some x) := by
  have hps : (ps.map Prod.fst).Nodup := hp.sublist h.props
  induction h generalizing i with
  | nil => simp at hi
  | @skip fd' fds fs ps h ih =>
    simp only [List.map_cons, List.nodup_cons] at hp
    cases i with
    | zero =>
      cases hi; cases hw
      refine .inl ⟨rfl, ?_⟩
      rw [lookupKey_none_iff']
      exact fun hm => hp.1 (h.props.subset hm)
    | succ i => exact ih hp.2 (by simpa using hi) (by simpa using hw) hps
  | @put fd' fds w' fs x ps hw' hx h ih =>
    simp only [List.map_cons, List.nodup_cons] at hp hps
    cases i with
    | zero => cases hi; cases hw; exact .inr ⟨hw', x, hx, by simp [lookupKey]⟩
    | succ i =>
      have hne : writeProp kind fd' ≠ writeProp kind fd := by
        intro he
        exact hp.1 (he ▸ List.mem_map.2 ⟨fd, List.mem_of_getElem? (by simpa using hi), rfl⟩)
      have := ih hp.2 (by simpa using hi) (by simpa using hw) hps.2
      simpa [lookupKey, hne] using this

/-- Every attribute of a class instance other than `None` is written under its property name, every attribute that is
`None` is left out, and there are no other properties, if the property names of the class are distinct. -/
theorem C13_complete (env : Env) (hk : env.Ok) (c : Nat) (cd : ClassDef) (fs : List (Str × Val)) (j : Json)
    (hc : env.classes[c]? = some cd) (hf : cd.toJson = none) (hkind : cd.kind ≠ .namedTuple false) (hne : cd.fields ≠ [])
    (hp : (cd.fields.map (writeProp cd.kind)).Nodup) (hty : HasTy env (.obj c fs) (.cls c))
    (h : objectToJson env (.obj c fs) = .ok j) :
    ∃ ps, j = .obj ps ∧
      (∀ fd ∈ cd.fields, ∀ w, lookupKey fd.name fs = some w →
        (w = .none ∧ lookupKey (writeProp cd.kind fd) ps = none) ∨
        (w ≠ .none ∧ ∃ x, objectToJson env w = .ok x ∧ lookupKey (writeProp cd.kind fd) ps = some x)) ∧
      ∀ p ∈ ps, ∃ fd ∈ cd.fields, writeProp cd.kind fd = p.1 := by
  have hhints : cd.hints = cd.fields := by
    unfold ClassDef.hints; split
    · rename_i hk'; exact absurd hk' hkind
    · rfl
  unfold objectToJson dumps at h
  split at h
  · cases h
  rename_i u hser
  have h : genCls env (.obj c fs) (.obj (genObj env fs)) c = .ok j := h
  have h : genProps cd.kind (genObj env fs) [] cd.fields = .ok j := by
    unfold genCls at h
    rw [hc] at h
    simp only [hf] at h
    split at h
    · rename_i h1; exact absurd h1 hkind
    · rw [if_neg (by simpa using hne)] at h; exact h
    · exact h
  cases hty with
  | untyped hcd' _ he => rw [hc] at hcd'; cases hcd'; exact absurd he hne
  | cls hcd' hnames hfty =>
    rw [hc] at hcd'; cases hcd'
    have hnd := hk.fields cd (List.mem_of_getElem? hc)
    obtain ⟨ps, rfl, hw⟩ := (genProps_iff hnames hnd hp j).1 h
    refine ⟨ps, rfl, fun fd hfd w hl => ?_, fun p hp => ?_⟩
    · obtain ⟨i, hi⟩ := List.getElem?_of_mem hfd
      obtain ⟨w', hw', hl'⟩ := attr_of_name hnames hnd hi
      rw [hl] at hl'; cases hl'
      rcases hw.lookup hp hi hw' with h1 | ⟨h1, x, h2, h3⟩
      · exact .inl h1
      · refine .inr ⟨h1, x, ?_, h3⟩
        have h4 : serCreate env fd.ty = .ok () :=
          serCreate_field hc hser (by unfold ClassDef.serFields; rw [hf, hhints]; exact hfd)
        rw [← C14_static_dynamic env fd.ty _ h4 (hfty i fd _ (by rw [hhints]; exact hi) hw')]
        simpa only [dumps, h4] using h2
    · obtain ⟨fd, hfd, he⟩ := List.mem_map.1 (hw.props.subset (List.mem_map.2 ⟨p, hp, rfl⟩))
      exact ⟨fd, hfd, he⟩

/-! ### What the code does otherwise -/

/-- A named tuple made by `collections.namedtuple` keeps attributes that are `None` as null properties. -/
theorem C13_untyped_tuple_null :
    ∃ (env : Env) (v : Val), env.Ok ∧ Sound env v ∧ objectToJson env v = .ok (.obj [(c!"x", .null)]) := by
  refine ⟨⟨[], [{ module := c!"m", name := c!"P", kind := .namedTuple false, fields := [{ name := c!"x", ty := .none }] }], id⟩,
    .obj 0 [(c!"x", .none)], ⟨by simp, by simp, by simp, fun _ => .refl _⟩, .obj (.cls rfl rfl ?_) ?_, rfl⟩
  · intro i f w hf; cases hf
  · intro kv hkv; rcases List.mem_singleton.1 hkv with rfl; exact .leaf rfl

/-- A data class attribute that is an enumeration member with value `None` gives a null property. -/
theorem C13_enum_null :
    ∃ (env : Env) (v : Val), env.Ok ∧ Sound env v ∧ objectToJson env v = .ok (.obj [(c!"x", .null)]) := by
  refine ⟨⟨[{ module := c!"m", name := c!"E", members := [(c!"NOTHING", .none)] }],
    [{ module := c!"m", name := c!"A", kind := .dataclass false, fields := [{ name := c!"x", ty := .enum 0 }] }], id⟩,
    .obj 0 [(c!"x", .enum 0 0)], ⟨by simp [EnumDef.key, ClassDef.key], by simp [EnumDef.Ok], by simp, fun _ => .refl _⟩,
    .obj (.cls rfl rfl ?_) ?_, rfl⟩
  · intro i f w hf hw
    match i with
    | 0 => cases hf; cases hw; exact .enum rfl (by decide)
    | _ + 1 => cases hf
  · intro kv hkv; rcases List.mem_singleton.1 hkv with rfl; exact .leaf rfl

/-- Two fields with the same alias: one of the values is lost. -/
theorem C13_collision_loses :
    ∃ (env : Env) (v : Val), env.Ok ∧ Sound env v ∧ v = .obj 0 [(c!"a", .int 1), (c!"b", .int 2)] ∧
      objectToJson env v = .ok (.obj [(c!"x", .int 2)]) := by
  refine ⟨⟨[], [{ module := c!"m", name := c!"A", kind := .dataclass false, fields :=
    [{ name := c!"a", ty := .annotated .int [.alias c!"x"] }, { name := c!"b", ty := .annotated .int [.alias c!"x"] }] }], id⟩,
    .obj 0 [(c!"a", .int 1), (c!"b", .int 2)], ⟨by simp, by simp, by simp, fun _ => .refl _⟩,
    .obj (.cls rfl rfl ?_) ?_, rfl, rfl⟩
  · intro i f w hf hw
    match i with
    | 0 => cases hf; cases hw; exact .annotated .int
    | 1 => cases hf; cases hw; exact .annotated .int
    | _ + 2 => cases hf
  · intro kv hkv
    simp only [List.mem_cons, List.not_mem_nil, or_false] at hkv
    rcases hkv with rfl | rfl <;> exact .leaf rfl

/-! ### The hypotheses are met -/

private def exEnv : Env :=
  ⟨[], [{ module := c!"m", name := c!"A", kind := .dataclass false, fields :=
    [{ name := c!"class_", ty := .union [.str, .none], dflt := .value .none },
     { name := c!"next", ty := .union [.cls 0, .none], dflt := .value .none },
     { name := c!"items", ty := .list (.union [.int, .none]) }] }], id⟩
private def exVal (next : Val) : Val :=
  .obj 0 [(c!"class_", .str c!"c"), (c!"next", next), (c!"items", .list [.none, .int 1])]
private theorem exTyped (next : Val) (h : HasTy exEnv next (.union [.cls 0, .none])) : HasTy exEnv (exVal next) (.cls 0) := by
  refine .cls rfl rfl ?_
  intro i f w hf hw
  match i with
  | 0 => cases hf; cases hw; exact .union (t := .str) (by simp) .str
  | 1 => cases hf; cases hw; exact h
  | 2 =>
    cases hf; cases hw
    refine .list fun v hv => ?_
    simp only [List.mem_cons, List.not_mem_nil, or_false] at hv
    rcases hv with rfl | rfl
    · exact .union (t := .none) (by simp) .none
    · exact .union (t := .int) (by simp) .int
  | _ + 3 => cases hf
private theorem exSound (next : Val) (h : HasTy exEnv next (.union [.cls 0, .none])) (hs : Sound exEnv next) :
    Sound exEnv (exVal next) := by
  refine .obj (exTyped next h) fun kv hkv => ?_
  simp only [List.mem_cons, List.not_mem_nil, or_false] at hkv
  rcases hkv with rfl | rfl | rfl
  · exact .leaf rfl
  · exact hs
  · refine .list fun v hv => ?_
    simp only [List.mem_cons, List.not_mem_nil, or_false] at hv
    rcases hv with rfl | rfl <;> exact .leaf rfl
private theorem exNone : HasTy exEnv .none (.union [.cls 0, .none]) := .union (t := .none) (by simp) .none
example : Sound exEnv (exVal (exVal .none)) :=
  exSound _ (.union (t := .cls 0) (by simp) (exTyped _ exNone)) (exSound _ exNone (.leaf rfl))
example : exEnv.Ok := ⟨by simp [exEnv], by simp [exEnv], by simp [exEnv], fun _ => .refl _⟩
example : exEnv.NullSafe := ⟨by simp [exEnv], by simp [exEnv], by simp [exEnv], by simp [exEnv]⟩
example : exEnv.HooksWf := ⟨by simp [exEnv], by simp [exEnv]⟩
example : objectToJson exEnv (exVal (exVal .none)) =
    .ok (.obj [(c!"class", .str c!"c"), (c!"next", .obj [(c!"class", .str c!"c"), (c!"items", .arr [.null, .int 1])]),
      (c!"items", .arr [.null, .int 1])]) := rfl

end Verif
