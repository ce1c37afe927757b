import Verif.Lemmas.SchemaNode
import Verif.Props.C60_WriteBack
/-!
# The data classes of schema nodes can be read and written
-/
namespace Verif

/-- Types that occur in the data classes of schema nodes. -/
inductive NodeTy : Ty → Prop
  | bool : NodeTy .bool
  | int : NodeTy .int
  | float : NodeTy .float
  | str : NodeTy .str
  | lit {s} : NodeTy (.literal [.str s])
  | list {t} : NodeTy t → NodeTy (.list t)
  | dict {t} : NodeTy t → NodeTy (.dict .str t)
  | annotated {t ms} : NodeTy t → NodeTy (.annotated t ms)
  | any : NodeTy anyNodeTy
  | cls {c} : c < 9 → NodeTy (.cls c)

/-- Decides whether a type occurs in the data classes of schema nodes. -/
def isNodeTy : Ty → Bool
  | .bool | .int | .float | .str => true
  | .literal [.str _] => true
  | .list t => isNodeTy t
  | .dict .str t => isNodeTy t
  | .annotated t _ => isNodeTy t
  | .union [.cls 0, .cls 1, .cls 2, .cls 3, .cls 4, .cls 5, .cls 6, .cls 7] => true
  | .cls c => c < 9
  | _ => false

theorem isNodeTy_sound : ∀ {t : Ty}, isNodeTy t = true → NodeTy t := by
  intro t
  fun_induction isNodeTy t with
  | case1 => intro _; exact .bool
  | case2 => intro _; exact .int
  | case3 => intro _; exact .float
  | case4 => intro _; exact .str
  | case5 => intro _; exact .lit
  | case6 t ih => intro h; exact .list (ih h)
  | case7 t ih => intro h; exact .dict (ih h)
  | case8 t _ ih => intro h; exact .annotated (ih h)
  | case9 => intro _; exact .any
  | case10 c => intro h; exact .cls (by simpa using h)
  | case11 => intro h; cases h

/-- What all data classes of schema nodes have in common. -/
structure NodeClassDef (cd : ClassDef) : Prop where
  toJson : cd.toJson = none
  custom : cd.custom = false
  kind : cd.kind = .dataclass false
  props : (cd.fields.map (writeProp cd.kind)).Nodup
  same : ∀ f ∈ cd.fields, fieldProp cd.kind f = writeProp cd.kind f
  ty : ∀ f ∈ cd.fields, NodeTy (fieldTy cd.kind f)
  opt : ∀ f ∈ cd.fields, NodeTy f.ty ∨ ∃ t, f.ty = optTy t ∧ NodeTy t
  absent : ∀ f ∈ cd.fields, ∀ v, absentValue cd.kind f = some v → v = .none
  none : ∀ f ∈ cd.fields, HasTy schemaEnv .none f.ty → absentValue cd.kind f = some .none

/-- Decides what all data classes of schema nodes have in common. -/
def isNodeField (cd : ClassDef) (f : FieldDef) : Bool :=
  fieldProp cd.kind f = writeProp cd.kind f && isNodeTy (fieldTy cd.kind f) &&
    (isNodeTy f.ty || match f.ty with | .union [t, .none] => isNodeTy t | _ => false) &&
    match f.dflt with | .missing => true | _ => false

theorem nodeTy_not_none {t : Ty} (h : NodeTy t) : ¬ HasTy schemaEnv .none t := by
  intro hv
  induction h with
  | annotated _ ih => cases hv with | annotated hv => exact ih hv
  | any => cases hv with
    | union hm hv =>
      simp only [List.mem_cons, List.not_mem_nil, or_false] at hm
      rcases hm with rfl | rfl | rfl | rfl | rfl | rfl | rfl | rfl <;> cases hv
  | lit => cases hv with | literal hm hv => simp at hm; subst hm; cases hv
  | _ => cases hv

theorem nodeClassDef {c : Nat} {cd : ClassDef} (hc : schemaEnv.classes[c]? = some cd) : NodeClassDef cd := by
  have hm := List.mem_of_getElem? hc
  have h1 : ∀ cd ∈ schemaEnv.classes, cd.toJson.isNone = true := by decide +kernel
  have h2 : ∀ cd ∈ schemaEnv.classes, cd.custom = false := by decide +kernel
  have h3 : ∀ cd ∈ schemaEnv.classes, cd.kind = .dataclass false := by decide +kernel
  have h4 : ∀ cd ∈ schemaEnv.classes, (cd.fields.map (writeProp cd.kind)).Nodup := by decide +kernel
  have h5 : ∀ cd ∈ schemaEnv.classes, ∀ f ∈ cd.fields, isNodeField cd f = true := by decide +kernel
  have h5 := h5 cd hm
  simp only [isNodeField, Bool.and_eq_true, Bool.or_eq_true, decide_eq_true_eq] at h5
  have hopt : ∀ f ∈ cd.fields, NodeTy f.ty ∨ ∃ t, f.ty = optTy t ∧ NodeTy t := by
    intro f hf
    rcases (h5 f hf).1.2 with h | h
    · exact .inl (isNodeTy_sound h)
    · right
      split at h
      · rename_i t he; exact ⟨t, he, isNodeTy_sound h⟩
      · cases h
  have hd : ∀ f ∈ cd.fields, f.dflt = .missing := by
    intro f hf
    have := (h5 f hf).2
    cases hfd : f.dflt <;> rw [hfd] at this <;> first | rfl | cases this
  refine ⟨?_, h2 cd hm, h3 cd hm, h4 cd hm, fun f hf => (h5 f hf).1.1.1, fun f hf => isNodeTy_sound (h5 f hf).1.1.2, hopt, ?_, ?_⟩
  · have := h1 cd hm
    cases h : cd.toJson <;> rw [h] at this <;> first | rfl | cases this
  · intro f hf v hv
    unfold absentValue at hv
    rw [h3 cd hm, hd f hf] at hv
    simp only at hv
    split at hv <;> cases hv; rfl
  · intro f hf hn
    unfold absentValue
    rw [h3 cd hm, hd f hf]
    simp only
    rcases hopt f hf with h | ⟨t, he, _⟩
    · exact absurd hn (nodeTy_not_none h)
    · rw [he]; simp [optTy, Ty.isOptional, Ty.unionArgs, Ty.unwrapAnn, Ty.isNone]

theorem nodeClass_ser {c : Nat} (h : c < 9) : serCreate schemaEnv (.cls c) = .ok () := by
  have : ∀ c < 9, ((serCreate schemaEnv (.cls c)).isOk : Bool) = true := by decide +kernel
  have := this c h
  cases hs : serCreate schemaEnv (.cls c) with
  | ok u => rfl
  | error e => rw [hs] at this; cases this

theorem nodeClass_get {c : Nat} (h : c < 9) : ∃ cd, schemaEnv.classes[c]? = some cd := by
  have : c < schemaEnv.classes.length := h
  exact ⟨_, List.getElem?_eq_getElem this⟩

theorem schemaEnv_typed : schemaEnv.Typed := by
  constructor
  · intro cd hcd f hf v hv
    obtain ⟨c, hc⟩ := List.getElem?_of_mem hcd
    have h := nodeClassDef hc
    have : absentValue cd.kind f = some v := by
      unfold absentValue
      rw [h.kind]
      rcases hv with hv | hv <;> rw [hv]
    have := h.absent f hf v this
    subst this
    have h5 : ∀ cd ∈ schemaEnv.classes, ∀ f ∈ cd.fields, isNodeField cd f = true := by decide +kernel
    have h5 := h5 cd hcd f hf
    simp only [isNodeField, Bool.and_eq_true] at h5
    have := h5.2
    rcases hv with hv | hv <;> rw [hv] at this <;> cases this
  · intro c cd f j v hc hf _
    have h6 : ∀ cd ∈ schemaEnv.classes, cd.fromJson.isNone = true := by decide +kernel
    have := h6 cd (List.mem_of_getElem? hc)
    rw [hf] at this; cases this

theorem nodeTy_doc {t : Ty} (h : NodeTy t) : DocTy schemaEnv (· < 9) t := by
  induction h with
  | bool => exact .bool
  | int => exact .int
  | float => exact .float
  | str => exact .str
  | lit => exact .literal (by simp) (by simp)
  | list _ ih => exact .list ih
  | dict _ ih => exact .dict ih
  | annotated _ ih => exact .annotated ih
  | cls h => exact .cls h
  | any =>
    refine .union fun t ht => ?_
    simp only [List.mem_cons, List.not_mem_nil, or_false] at ht
    rcases ht with rfl | rfl | rfl | rfl | rfl | rfl | rfl | rfl <;> exact .cls (by decide)

theorem nodeClass_doc : ∀ c, c < 9 → ∃ cd, DocumentClass schemaEnv (· < 9) false c cd := by
  intro c hc
  obtain ⟨cd, hcd⟩ := nodeClass_get hc
  have h := nodeClassDef hcd
  exact ⟨cd, hcd, h.toJson, h.custom, by rw [h.kind]; simp, by rw [h.kind]; simp, nodeClass_ser hc, h.props, h.same,
    fun f hf => nodeTy_doc (h.ty f hf), fun f hf v hv => .inl (h.absent f hf v hv)⟩

/-! ### Round trip -/

theorem nodeTy_encodable {v : Val} {t : Ty} (hv : HasTy schemaEnv v t) : NodeTy t ∨ (∃ u, t = optTy u ∧ NodeTy u) ∨ t = .none → Encodable v := by
  have leaf : ∀ {v : Val}, v.isLeaf = true → (∀ d, v ≠ .datetime d) → (∀ d, v ≠ .timedelta d) → (∀ d, v ≠ .time d) → Encodable v :=
    fun h1 h2 h3 h4 => .leaf h1 (fun d h => absurd h (h2 d)) (fun d h => absurd h (h3 d)) (fun d h => absurd h (h4 d))
  induction hv with
  | none => intro _; exact leaf rfl (by simp) (by simp) (by simp)
  | bool => intro _; exact leaf rfl (by simp) (by simp) (by simp)
  | int => intro _; exact leaf rfl (by simp) (by simp) (by simp)
  | float => intro _; exact leaf rfl (by simp) (by simp) (by simp)
  | str => intro _; exact leaf rfl (by simp) (by simp) (by simp)
  | @list vs t _ ih =>
    rintro (h | ⟨u, h, _⟩ | h)
    · cases h with | list h => exact .list fun v hv => ih v hv (.inl h)
    · cases h
    · cases h
  | @dict kvs k t _ _ _ ih =>
    rintro (h | ⟨u, h, _⟩ | h)
    · cases h with | dict h => exact .dict fun v hv => ih v hv (.inl h)
    · cases h
    · cases h
  | @union v ts t hm _ ih =>
    rintro (h | ⟨u, h, hu⟩ | h)
    · cases h with
      | any =>
        simp only [List.mem_cons, List.not_mem_nil, or_false] at hm
        rcases hm with rfl | rfl | rfl | rfl | rfl | rfl | rfl | rfl <;> exact ih (.inl (.cls (by decide)))
    · cases h
      simp only [List.mem_cons, List.not_mem_nil, or_false] at hm
      rcases hm with rfl | rfl
      · exact ih (.inl hu)
      · exact ih (.inr (.inr rfl))
    · cases h
  | annotated _ ih =>
    rintro (h | ⟨u, h, _⟩ | h)
    · cases h with | annotated h => exact ih (.inl h)
    · cases h
    · cases h
  | @literal v ls l hm hv =>
    rintro (h | ⟨u, h, _⟩ | h)
    · cases h with
      | lit => simp only [List.mem_singleton] at hm; subst hm; subst hv; exact leaf rfl (by simp [Lit.toVal]) (by simp [Lit.toVal]) (by simp [Lit.toVal])
    · cases h
    · cases h
  | @cls c cd fs hc hn _ ih =>
    intro _
    have h := nodeClassDef hc
    refine .obj fun kv hkv => ?_
    obtain ⟨i, hi⟩ := List.getElem?_of_mem hkv
    have hlen : i < cd.fields.length := by
      have h1 := (List.getElem?_eq_some_iff.1 hi).1
      have h2 := congrArg List.length hn
      simp at h2; omega
    have hfi := List.getElem?_eq_getElem hlen
    have hh : cd.hints = cd.fields := hints_eq_fields (by rw [h.kind]; simp)
    refine ih i cd.fields[i] kv (by rw [hh]; exact hfi) hi ?_
    rcases h.opt _ (List.mem_of_getElem? hfi) with h | h
    · exact .inl h
    · exact .inr (.inl h)
  | @untyped c cd fs hc hk =>
    rw [(nodeClassDef hc).kind] at hk; cases hk
  | _ =>
    rintro (h | ⟨u, h, _⟩ | h) <;> cases h

/-- The title and the description of a node are optional texts. -/
theorem nodeFields_text : ∀ g ∈ nodeFields, OptionalText (.dataclass false) g := by
  intro g hg
  simp only [nodeFields, List.mem_cons, List.not_mem_nil, or_false] at hg
  rcases hg with rfl | rfl <;> exact ⟨rfl, rfl⟩

/-- A class with a required property that the other class does not have. -/
theorem node_apart {c d : Nat} {cd dd : ClassDef} {f : FieldDef} {post : List FieldDef} (hc : schemaEnv.classes[c]? = some cd)
    (hd : schemaEnv.classes[d]? = some dd) (hh : cd.fields = nodeFields ++ f :: post) (hr : absentValue (.dataclass false) f = none)
    (hp : fieldProp (.dataclass false) f ∉ dd.fields.map (writeProp (.dataclass false))) : Apart schemaEnv (.cls c) (.cls d) := by
  have h1 := nodeClassDef hc
  have h2 := nodeClassDef hd
  have hk : cd.hints = cd.fields := hints_eq_fields (by rw [h1.kind]; simp)
  refine .cls (schemaEnv_readable c cd hc) hd h2.toJson (by rw [h2.kind]; simp) (by rw [h2.kind]; simp) h2.props (hk.trans hh)
    (by rw [h1.kind]; exact hr) (by rw [h1.kind, h2.kind]; exact hp) fun g hg => .inr ?_
  rw [h1.kind]
  exact nodeFields_text g hg

/-- Classes with different types. -/
theorem node_apart_type {c d : Nat} {cd dd : ClassDef} {S T : Str} {ps qs : List FieldDef} (hc : schemaEnv.classes[c]? = some cd)
    (hd : schemaEnv.classes[d]? = some dd) (h1' : cd.fields = typeFields S ++ ps) (h2' : dd.fields = typeFields T ++ qs) (hST : T ≠ S) :
    Apart schemaEnv (.cls c) (.cls d) := by
  have h1 := nodeClassDef hc
  have h2 := nodeClassDef hd
  have hk : cd.hints = cd.fields := hints_eq_fields (by rw [h1.kind]; simp)
  refine .clsTag (f := { name := c!"type", ty := .literal [.str S] }) (g := { name := c!"type", ty := .literal [.str T] })
    (pre := nodeFields) (ls := [.str S]) (ls' := [.str T]) (schemaEnv_readable c cd hc) hd h2.toJson (by rw [h2.kind]; simp) (by rw [h2.kind]; simp) h2.props
    (schemaEnv_ok.fields dd (List.mem_of_getElem? hd)) (hk.trans (h1'.trans (List.append_assoc _ _ _)))
    (by rw [h2']; simp [typeFields]) ?_ ?_ rfl (by simp) (by simp) (by simp) (by simpa using hST) fun g hg => .inr ?_
  · rw [h1.kind, h2.kind]; rfl
  · rw [h1.kind]; rfl
  · rw [h1.kind]; exact nodeFields_text g hg

/-- The attribute `type` of the classes 1 to 6. -/
def nodeTypeName : Nat → Str
  | 1 => c!"boolean"
  | 2 => c!"integer"
  | 3 => c!"number"
  | 4 => c!"string"
  | 5 => c!"array"
  | _ => c!"object"

theorem node_typed {c : Nat} (h1 : 1 ≤ c) (h2 : c ≤ 6) :
    ∃ cd ps, schemaEnv.classes[c]? = some cd ∧ cd.fields = typeFields (nodeTypeName c) ++ ps := by
  match c, h1, h2 with
  | 1, _, _ => exact ⟨_, _, rfl, rfl⟩
  | 2, _, _ => exact ⟨_, _, rfl, rfl⟩
  | 3, _, _ => exact ⟨_, _, rfl, rfl⟩
  | 4, _, _ => exact ⟨_, _, rfl, rfl⟩
  | 5, _, _ => exact ⟨_, _, rfl, rfl⟩
  | 6, _, _ => exact ⟨_, _, rfl, rfl⟩

theorem node_pairs {i k : Nat} (hik : i < k) (hk : k ≤ 7) : Apart schemaEnv (.cls i) (.cls k) := by
  obtain ⟨kd, hkd⟩ := nodeClass_get (show k < 9 by omega)
  by_cases hi : i = 0
  · subst hi
    refine node_apart rfl hkd rfl rfl ?_
    have : ∀ k ∈ [1, 2, 3, 4, 5, 6, 7], ∀ kd, schemaEnv.classes[k]? = some kd → c!"$ref" ∉ kd.fields.map (writeProp (.dataclass false)) := by
      intro k hk kd hkd
      simp only [List.mem_cons, List.not_mem_nil, or_false] at hk
      rcases hk with rfl | rfl | rfl | rfl | rfl | rfl | rfl <;> cases hkd <;> decide +kernel
    exact this k (by simp; omega) kd hkd
  · obtain ⟨id, ps, hid, hip⟩ := node_typed (c := i) (by omega) (by omega)
    by_cases hk7 : k = 7
    · subst hk7
      cases hkd
      refine node_apart (f := { name := c!"type", ty := .literal [.str (nodeTypeName i)] }) hid rfl
        (hip.trans (List.append_assoc _ _ _)) rfl ?_
      show c!"type" ∉ _
      decide +kernel
    · obtain ⟨kd, qs, hkd, hkp⟩ := node_typed (c := k) (by omega) (by omega)
      refine node_apart_type hid hkd hip hkp ?_
      have : ∀ i < 7, ∀ k < 7, 1 ≤ i → i < k → nodeTypeName k ≠ nodeTypeName i := by decide +kernel
      exact this i (by omega) k (by omega) (by omega) hik

theorem anyNode_get {i : Nat} {t : Ty} (h : [Ty.cls 0, .cls 1, .cls 2, .cls 3, .cls 4, .cls 5, .cls 6, .cls 7][i]? = some t) :
    i ≤ 7 ∧ t = .cls i := by
  match i with
  | 0 | 1 | 2 | 3 | 4 | 5 | 6 | 7 => cases h; exact ⟨by omega, rfl⟩
  | _ + 8 => simp at h

theorem nodeTy_invertible {t : Ty} (h : NodeTy t) : Invertible schemaEnv (· < 9) t := by
  induction h with
  | bool => exact .scalar (by simp [scalarTys])
  | int => exact .scalar (by simp [scalarTys])
  | float => exact .scalar (by simp [scalarTys])
  | str => exact .scalar (by simp [scalarTys])
  | lit => exact .literal ⟨.str, by simp, by simp [Lit.ty]⟩ (by simp)
  | list _ ih => exact .list ih
  | dict _ ih => exact .dictStr ih
  | annotated _ ih => exact .annotated ih
  | cls h => exact .cls h
  | any =>
    refine .union schemaEnv_untagged (fun t ht => ?_) fun i k t u hik ht hu => ?_
    · simp only [List.mem_cons, List.not_mem_nil, or_false] at ht
      rcases ht with rfl | rfl | rfl | rfl | rfl | rfl | rfl | rfl <;> exact .cls (by decide)
    · obtain ⟨_, rfl⟩ := anyNode_get ht
      obtain ⟨h, rfl⟩ := anyNode_get hu
      exact node_pairs hik h

theorem nodeClass_invertible : ∀ c, c < 9 → ClassInvertible schemaEnv (· < 9) c := by
  intro c hc
  obtain ⟨cd, hcd⟩ := nodeClass_get hc
  have h := nodeClassDef hcd
  exact .standard cd hcd h.toJson h.custom (by rw [h.kind]; simp) (by rw [h.kind]; simp) (nodeClass_ser hc) h.props h.same
    (fun f hf => nodeTy_invertible (h.ty f hf)) h.none

/-- Nodes can be written and read again. -/
theorem node_roundtrip {v : Val} {t : Ty} (ht : NodeTy t) (hv : HasTy schemaEnv v t) :
    ∃ j, objectToJson schemaEnv v = .ok j ∧ loads schemaEnv false t j = .ok v :=
  C11_roundtrip_partial schemaEnv schemaEnv_ok (· < 9) nodeClass_invertible t (nodeTy_invertible ht) v hv
    (nodeTy_encodable hv (.inl ht)) false

end Verif
