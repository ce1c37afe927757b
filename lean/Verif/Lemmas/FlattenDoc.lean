import Verif.Model.FlattenDoc
import Verif.Spec.FlattenDoc
import Verif.Props.C37_Flatten
import Verif.Lemmas.NodeTypes
/-!
# Flattening of schema nodes as objects and as trees
-/
namespace Verif

/-! ### Trees that say the same -/

/-- Corresponding members of two lists of named trees. -/
abbrev SameEntry (n m : Str × SNode) : Prop := n.1 = m.1 ∧ SameNode n.2 m.2

theorem sameEntries_iff {l l' : List (Str × SNode)} : All2 SameEntry l l' ↔
    l.map Prod.fst = l'.map Prod.fst ∧ ∀ (i : Nat) n m, l[i]? = some n → l'[i]? = some m → SameNode n.2 m.2 := by
  constructor
  · intro h
    refine ⟨?_, fun i n m hn hm => ?_⟩
    · induction h with
      | nil => rfl
      | cons h _ ih => simp [h.1, ih]
    · obtain ⟨m', hm', h1⟩ := h.get i n hn
      rw [hm] at hm'; cases hm'; exact h1.2
  · rintro ⟨h1, h2⟩
    refine All2.of_get (by simpa using congrArg List.length h1) fun i n m hn hm => ⟨?_, h2 i n m hn hm⟩
    have := congrArg (·[i]?) h1
    simpa [hn, hm] using this

theorem sameNode_some {l l' : List (Str × SNode)} {a : Option Bool} {r : Option (List Str)} {x y : List (Str × Json)}
    (h : All2 SameEntry l l') (hr : SameRecord false false x y) : SameNode (.object (some l) a r (.obj x)) (.object (some l') a r (.obj y)) :=
  .some (sameEntries_iff.1 h).1 (sameEntries_iff.1 h).2 hr

/-- Members that may be absent. -/
def SameMembers : Option (List (Str × SNode)) → Option (List (Str × SNode)) → Prop
  | Option.none, Option.none => True
  | some l, some l' => All2 SameEntry l l'
  | _, _ => False

theorem sameNode_object {p p' : Option (List (Str × SNode))} {a : Option Bool} {r : Option (List Str)} {x y : List (Str × Json)}
    (h : SameMembers p p') (hr : SameRecord false false x y) : SameNode (.object p a r (.obj x)) (.object p' a r (.obj y)) := by
  cases p <;> cases p' <;> first | exact h.elim | skip
  · exact .none hr
  · exact sameNode_some h hr

theorem sameEntries_upsert {l l' : List (Str × SNode)} (h : All2 SameEntry l l') {k : Str} {s t : SNode} (hs : SameNode s t) :
    All2 SameEntry (upsert k s l) (upsert k t l') := by
  induction h with
  | nil => exact .cons ⟨rfl, hs⟩ .nil
  | @cons n m l l' h h' ih =>
    obtain ⟨n1, n2⟩ := n
    obtain ⟨m1, m2⟩ := m
    obtain ⟨rfl, h⟩ := h
    simp only [upsert]
    split
    · exact .cons ⟨rfl, hs⟩ h'
    · exact .cons ⟨rfl, h⟩ ih

theorem sameEntries_update {l l' : List (Str × SNode)} (h : All2 SameEntry l l') : ∀ {d d' : List (Str × SNode)}, All2 SameEntry d d' →
    All2 SameEntry (updateProps d l) (updateProps d' l') := by
  induction h with
  | nil => exact fun h => h
  | @cons n m l l' h _ ih =>
    obtain ⟨n1, n2⟩ := n
    obtain ⟨m1, m2⟩ := m
    obtain ⟨rfl, h⟩ := h
    exact fun hd => ih (sameEntries_upsert hd h)

theorem sameMembers_orNone {l l' : List (Str × SNode)} (h : All2 SameEntry l l') : SameMembers (orNone l) (orNone l') := by
  cases h with
  | nil => trivial
  | cons h1 h2 => exact .cons h1 h2

theorem SameNode.required {s t : SNode} (h : SameNode s t) : s.required = t.required := by
  cases h <;> rfl

theorem SameNode.props {s t : SNode} (h : SameNode s t) : SameMembers s.props t.props := by
  cases h with
  | leaf => trivial
  | none => trivial
  | some h1 h2 => exact sameEntries_iff.2 ⟨h1, h2⟩

theorem map_qualify {o : FlatOpts} {name : Str} {l l' : List (Str × SNode)} (h : All2 SameEntry l l') :
    All2 SameEntry (l.map fun p => (qualify o name p.1, p.2)) (l'.map fun p => (qualify o name p.1, p.2)) := by
  induction h with
  | nil => exact .nil
  | cons h1 _ ih => exact .cons ⟨by simp only [h1.1], h1.2⟩ ih

theorem sameStep {o : FlatOpts} {src : List Str} {name : Str} {s t s' t' : SNode} (h : SameNode s t) (h' : SameNode s' t')
    {d d' : List (Str × SNode)} {r : List Str} (hd : All2 SameEntry d d') :
    All2 SameEntry (flatStep o src name s s' (d, r)).1 (flatStep o src name t t' (d', r)).1 ∧
      (flatStep o src name s s' (d, r)).2 = (flatStep o src name t t' (d', r)).2 := by
  have key : ∀ {s t : SNode}, SameNode s t → All2 SameEntry (addProps o name s d) (addProps o name t d') ∧
      addReqs o name s r = addReqs o name t r := by
    intro s t h
    have hp := h.props
    unfold addProps addReqs
    rw [h.required]
    refine ⟨?_, rfl⟩
    cases hs : s.props <;> cases ht : t.props <;> rw [hs, ht] at hp <;> first | exact hp.elim | skip
    · exact hd
    · refine sameEntries_update ?_ hd
      exact map_qualify hp
  have hc : SameNode (if o.recursive then s' else s) (if o.recursive then t' else t) := by split <;> assumption
  cases h with
  | leaf h => exact ⟨sameEntries_upsert hd (.leaf h), rfl⟩
  | none => exact key hc
  | some => exact key hc

mutual
/-- Flattening trees that say the same gives trees that say the same. -/
theorem flatten_same (o : FlatOpts) : ∀ (s t : SNode), SameNode s t → SameNode (flatten o s) (flatten o t)
  | .leaf j, t, h => by cases h with | leaf h => exact .leaf h
  | .object none a r x, t, h => by cases h with | none h => exact .none h
  | .object (some l) a r x, t, h => by
    cases h with
    | @some _ l' _ _ x y h1 h2 h3 =>
      have := flattenProps_same o (r.getD []) l l' (sameEntries_iff.2 ⟨h1, h2⟩) [] [] [] .nil
      simp only [flatten]
      rw [this.2]
      exact sameNode_object (sameMembers_orNone this.1) h3
theorem flattenProps_same (o : FlatOpts) (src : List Str) : ∀ (l l' : List (Str × SNode)), All2 SameEntry l l' → ∀ (d d' : List (Str × SNode))
    (r : List Str), All2 SameEntry d d' → All2 SameEntry (flattenProps o src l (d, r)).1 (flattenProps o src l' (d', r)).1 ∧
      (flattenProps o src l (d, r)).2 = (flattenProps o src l' (d', r)).2
  | [], _, h, d, d', r, hd => by cases h; exact ⟨hd, rfl⟩
  | (n, c) :: l, _, h, d, d', r, hd => by
    cases h with
    | @cons _ m _ l' h1 h2 =>
      obtain ⟨m, c'⟩ := m
      obtain ⟨rfl, h1⟩ := h1
      have ih1 := flatten_same o c c' h1
      have hs := sameStep (o := o) (src := src) (name := n) h1 ih1 (r := r) hd
      have ih2 := flattenProps_same o src l l' h2 _ (flatStep o src n c' (flatten o c') (d', r)).1
        (flatStep o src n c (flatten o c) (d, r)).2 hs.1
      simp only [flattenProps]
      have e : flatStep o src n c' (flatten o c') (d', r) =
          ((flatStep o src n c' (flatten o c') (d', r)).1, (flatStep o src n c (flatten o c) (d, r)).2) := by rw [hs.2]
      rw [e]
      exact ih2
end

/-! ### What is written for a node -/

/-- The document that is written. -/
def writtenDoc (v : Val) : Json :=
  match objectToJson schemaEnv v with
  | .ok y => y
  | .error _ => .null

/-- The tree of a node. -/
def valNode (v : Val) : SNode := docNode (writtenDoc v)

theorem node_written {v : Val} {t : Ty} (ht : NodeTy t) (hv : HasTy schemaEnv v t) : objectToJson schemaEnv v = .ok (writtenDoc v) := by
  obtain ⟨j, h, _⟩ := node_roundtrip ht hv
  unfold writtenDoc
  rw [h]

/-- The members that are written for the attributes. -/
def recordOf : List FieldDef → List (Str × Val) → List (Str × Json)
  | _ :: fs, (_, .none) :: vs => recordOf fs vs
  | f :: fs, (_, v) :: vs => (writeProp (.dataclass false) f, writtenDoc v) :: recordOf fs vs
  | _, _ => []

theorem recordOf_none (f : FieldDef) (fs : List FieldDef) (n : Str) (vs : List (Str × Val)) :
    recordOf (f :: fs) ((n, .none) :: vs) = recordOf fs vs := rfl

theorem recordOf_some (f : FieldDef) (fs : List FieldDef) (n : Str) {v : Val} (hv : v ≠ .none) (vs : List (Str × Val)) :
    recordOf (f :: fs) ((n, v) :: vs) = (writeProp (.dataclass false) f, writtenDoc v) :: recordOf fs vs := by
  cases v <;> first | rfl | exact absurd rfl hv

theorem recordOf_writes {fds : List FieldDef} {vs : List (Str × Val)} {ps : List (Str × Json)}
    (h : WritesFields schemaEnv (.dataclass false) fds vs ps)
    (hg : ∀ (i : Nat) f w, fds[i]? = some f → vs[i]? = some w → gen schemaEnv w.2 f.ty = objectToJson schemaEnv w.2) : ps = recordOf fds vs := by
  induction h with
  | nil => rfl
  | skip _ ih => rw [recordOf_none]; exact ih fun i f w hf hw => hg (i + 1) f w hf hw
  | @put fd fds w fs x ps hne hx _ ih =>
    rw [recordOf_some _ _ _ hne, ← ih fun i f w hf hw => hg (i + 1) f w hf hw]
    have := hg 0 fd (fd.name, w) rfl rfl
    rw [this] at hx
    simp only [writtenDoc, hx]

theorem written_node {c : Nat} (hc : c < 9) {v : Val} (hv : HasTy schemaEnv v (.cls c)) :
    ∃ cd vs, schemaEnv.classes[c]? = some cd ∧ v = .obj c vs ∧ vs.map Prod.fst = cd.fields.map FieldDef.name ∧
      (∀ (i : Nat) f w, cd.fields[i]? = some f → vs[i]? = some w → HasTy schemaEnv w.2 f.ty) ∧ writtenDoc v = .obj (recordOf cd.fields vs) := by
  obtain ⟨cd, hcd⟩ := nodeClass_get hc
  have h := nodeClassDef hcd
  obtain ⟨vs, rfl, hn, hty⟩ := hasTy_cls_inv hcd (by rw [h.kind]; simp) (by rw [h.kind]; simp) hv
  refine ⟨cd, vs, hcd, rfl, hn, hty, ?_⟩
  have hw := node_written (.cls hc) hv
  obtain ⟨hs, ps, hps, hf⟩ := (objectToJson_standard schemaEnv_ok hcd h.toJson (by rw [h.kind]; simp) (by rw [h.kind]; simp) h.props hn).1 hw
  rw [hps]
  rw [h.kind] at hf
  rw [recordOf_writes hf fun i f w hf' hw' => gen_field hcd h.toJson (by rw [h.kind]; simp) hs (List.mem_of_getElem? hf') (hty i f w hf' hw')]

/-- What is written for an attribute. -/
def attrJson : Val → Option Json
  | .none => none
  | v => some (writtenDoc v)

theorem attrJson_some {v : Val} (hv : v ≠ .none) : attrJson v = some (writtenDoc v) := by
  cases v <;> first | rfl | exact absurd rfl hv

theorem recordOf_keys : ∀ {fds : List FieldDef} {vs : List (Str × Val)},
    ((recordOf fds vs).map Prod.fst).Sublist (fds.map (writeProp (.dataclass false)))
  | [], _ => by simp [recordOf]
  | f :: fs, [] => by simp [recordOf]
  | f :: fs, (n, v) :: vs => by
    have ih := recordOf_keys (fds := fs) (vs := vs)
    by_cases hv : v = .none
    · subst hv; rw [recordOf_none]; exact ih.cons _
    · rw [recordOf_some _ _ _ hv]; exact ih.cons_cons _

theorem lookup_recordOf : ∀ {fds : List FieldDef} {vs : List (Str × Val)} {f : FieldDef}, vs.map Prod.fst = fds.map FieldDef.name →
    (fds.map FieldDef.name).Nodup → (fds.map (writeProp (.dataclass false))).Nodup → f ∈ fds →
    lookupKey (writeProp (.dataclass false) f) (recordOf fds vs) = attrJson (attrOf f.name vs)
  | [], _, _, _, _, _, hf => absurd hf (by simp)
  | _ :: _, [], _, hn, _, _, _ => by simp at hn
  | g :: fs, (n, v) :: vs, f, hn, hd, hp, hf => by
    simp only [List.map_cons, List.cons.injEq] at hn
    obtain ⟨rfl, hn⟩ := hn
    simp only [List.map_cons, List.nodup_cons] at hd hp
    by_cases hfg : f = g
    · subst hfg
      have e : attrOf f.name ((f.name, v) :: vs) = v := by simp [attrOf, lookupKey]
      rw [e]
      by_cases hv : v = .none
      · subst hv
        rw [recordOf_none]
        exact lookupKey_none_iff'.2 fun h => hp.1 (recordOf_keys.subset h)
      · rw [recordOf_some _ _ _ hv, attrJson_some hv]
        simp [lookupKey]
    · have hf' : f ∈ fs := by simpa [hfg] using hf
      have ih := lookup_recordOf (f := f) hn hd.2 hp.2 hf'
      have h1 : g.name ≠ f.name := fun h => hd.1 (h ▸ List.mem_map.2 ⟨f, hf', rfl⟩)
      have h2 : writeProp (.dataclass false) g ≠ writeProp (.dataclass false) f := fun h => hp.1 (h ▸ List.mem_map.2 ⟨f, hf', rfl⟩)
      have e : attrOf f.name ((g.name, v) :: vs) = attrOf f.name vs := by simp [attrOf, lookupKey, h1]
      rw [e, ← ih]
      by_cases hv : v = .none
      · subst hv; rw [recordOf_none]
      · rw [recordOf_some _ _ _ hv]; simp [lookupKey, h2]

theorem docProps_eq (kvs : List (Str × Json)) : docProps kvs = (lookupKey c!"properties" kvs).elim none docDict := by
  induction kvs with
  | nil => rfl
  | cons kv kvs ih =>
    obtain ⟨k, x⟩ := kv
    simp only [docProps, lookupKey]
    split
    · simp
    · exact ih

theorem docNodes_eq (kvs : List (Str × Json)) : docNodes kvs = kvs.map fun p => (p.1, docNode p.2) := by
  induction kvs with
  | nil => rfl
  | cons kv kvs ih => obtain ⟨k, x⟩ := kv; simp [docNodes, ih]

/-- Members of a dictionary of nodes as trees. -/
def entryNodes (kvs : List (Key × Val)) : List (Str × SNode) := kvs.map fun p => (keyName p.1, valNode p.2)

/-- An attribute that is a dictionary of nodes, as trees. -/
def dictNodes : Val → Option (List (Str × SNode))
  | .dict kvs => some (entryNodes kvs)
  | _ => none

theorem attr_hasTy {fds : List FieldDef} {vs : List (Str × Val)} (hn : vs.map Prod.fst = fds.map FieldDef.name)
    (hd : (fds.map FieldDef.name).Nodup)
    (hty : ∀ (i : Nat) f w, fds[i]? = some f → vs[i]? = some w → HasTy schemaEnv w.2 f.ty) {f : FieldDef} (hf : f ∈ fds) :
    HasTy schemaEnv (attrOf f.name vs) f.ty := by
  obtain ⟨i, hi⟩ := List.getElem?_of_mem hf
  obtain ⟨w, h1, h2⟩ := attr_of_name hn hd hi
  have := hty i f _ hi h1
  simpa [attrOf, h2] using this

theorem opt_inv {v : Val} {t : Ty} (h : HasTy schemaEnv v (optTy t)) : v = .none ∨ HasTy schemaEnv v t := by
  cases h with
  | union hm h =>
    simp only [List.mem_cons, List.not_mem_nil, or_false] at hm
    rcases hm with rfl | rfl
    · exact .inr h
    · cases h; exact .inl rfl

theorem dict_doc {kvs : List (Key × Val)} (h : HasTy schemaEnv (.dict kvs) (.dict .str anyNodeTy)) :
    writtenDoc (.dict kvs) = .obj (kvs.map fun p => (keyName p.1, writtenDoc p.2)) := by
  have hw := node_written (.dict .any) h
  cases h with
  | dict hn hk hv =>
    obtain ⟨ps, h1, h2⟩ := (dict_written schemaEnv_ok (k := .str) trivial hn hk).1 hw
    rw [h1]
    congr 1
    clear hw h1
    induction h2 with
    | nil => rfl
    | @cons kv p kvs ps h _ ih =>
      obtain ⟨k, v⟩ := kv
      obtain ⟨q, y⟩ := p
      rw [List.map_cons, ← ih (List.nodup_cons.1 hn).2 (fun kv h => hk kv (.tail _ h)) (fun kv h => hv kv (.tail _ h))]
      obtain ⟨ha, hb⟩ := h
      have hk := hk (k, v) (.head _)
      simp only at ha hb
      cases k with
      | str s => simp only [KeyText] at ha; simp [keyName, writtenDoc, hb, ha]
      | _ => simp [KeyHasTy] at hk

theorem texts_of {vs : List Val} (h : HasTy schemaEnv (.list vs) (.list .str)) : vs = (vs.filterMap Val.asStr).map .str := by
  cases h with
  | list h =>
    induction vs with
    | nil => rfl
    | cons v vs ih =>
      have hv := h v (.head _)
      cases hv
      simp only [List.filterMap_cons, Val.asStr, List.map_cons]
      rw [← ih fun v hv => h v (.tail _ hv)]

theorem texts_doc (ss : List Str) : writtenDoc (.list (ss.map .str)) = .arr (ss.map .str) := by
  unfold writtenDoc
  rw [dyn_list]
  have : mapRes (objectToJson schemaEnv) (ss.map .str) = .ok (ss.map .str) := by
    induction ss with
    | nil => rfl
    | cons s ss ih => simp only [List.map_cons, mapRes, ih]; rfl
  rw [this]; rfl

theorem texts_back (ss : List Str) :
    ((ss.map Json.str).filterMap fun x => match x with | .str s => some s | _ => Option.none) = ss := by
  induction ss with
  | nil => rfl
  | cons s ss ih => rw [List.map_cons, List.filterMap_cons]; simp only [ih]

/-- An attribute that is a list of texts. -/
def textAttr : Val → Option (List Str)
  | .list vs => some (vs.filterMap Val.asStr)
  | _ => none

theorem textItems_eq (v : Val) : textItems v = (textAttr v).getD [] := by cases v <;> rfl

theorem textList_doc {v : Val} (h : HasTy schemaEnv v (optTy (.list .str))) : textList (attrJson v) = textAttr v := by
  rcases opt_inv h with rfl | h
  · rfl
  · cases h with
    | @list vs _ h =>
      have e := texts_of (.list h)
      show textList (some (writtenDoc (.list vs))) = some (vs.filterMap Val.asStr)
      generalize vs.filterMap Val.asStr = ss at e
      subst e
      rw [texts_doc]
      exact congrArg some (texts_back ss)

theorem truthValue_doc {v : Val} (h : HasTy schemaEnv v (optTy .bool)) : truthValue (attrJson v) = v.asBool := by
  rcases opt_inv h with rfl | h
  · rfl
  · cases h; rfl

theorem dictNodes_doc {v : Val} (h : HasTy schemaEnv v (optTy (.dict .str anyNodeTy))) : (attrJson v).elim none docDict = dictNodes v := by
  rcases opt_inv h with rfl | h
  · rfl
  · cases h with
    | dict h1 h2 h3 =>
      show docDict (writtenDoc _) = _
      rw [dict_doc (.dict h1 h2 h3)]
      simp [docDict, docNodes_eq, dictNodes, entryNodes, valNode]

/-- Number of a class of object nodes. -/
def IsObjectClass (c : Nat) : Prop := c = nObject ∨ c = nTop

theorem objectClass_fields {c : Nat} (hc : IsObjectClass c) {cd : ClassDef} (hcd : schemaEnv.classes[c]? = some cd) :
    ∀ f ∈ objectFields, f ∈ cd.fields := by
  intro f hf
  rcases hc with rfl | rfl <;> cases hcd
  · exact hf
  · exact List.mem_append_left _ hf

theorem objectClass_lt {c : Nat} (hc : IsObjectClass c) : c < 9 := by rcases hc with rfl | rfl <;> decide

theorem nodeClass_names {c : Nat} {cd : ClassDef} (hcd : schemaEnv.classes[c]? = some cd) : (cd.fields.map FieldDef.name).Nodup :=
  schemaEnv_ok.fields cd (List.mem_of_getElem? hcd)

/-- The tree of an object node. -/
theorem valNode_object {c : Nat} (hc : IsObjectClass c) {cd : ClassDef} (hcd : schemaEnv.classes[c]? = some cd) {vs : List (Str × Val)}
    (hv : HasTy schemaEnv (.obj c vs) (.cls c)) :
    valNode (.obj c vs) = .object (dictNodes (attrOf c!"properties" vs)) (attrOf c!"additionalProperties" vs).asBool
      (textAttr (attrOf c!"required" vs)) (.obj (otherKeywords (recordOf cd.fields vs))) := by
  obtain ⟨cd', vs', hcd', he, hn, hty, hw⟩ := written_node (objectClass_lt hc) hv
  rw [hcd] at hcd'; cases hcd'; cases he
  have h := nodeClassDef hcd
  have hm := objectClass_fields hc hcd
  have hp := h.props
  rw [h.kind] at hp
  have look := fun f (hf : f ∈ objectFields) => lookup_recordOf hn (nodeClass_names hcd) hp (hm f hf)
  have typ := fun f (hf : f ∈ objectFields) => attr_hasTy hn (nodeClass_names hcd) hty (hm f hf)
  have h1 := look { name := c!"type", ty := .literal [.str c!"object"] } (by simp [objectFields, typeFields])
  have h2 := look { name := c!"properties", ty := optTy (.dict .str anyNodeTy), fwd := true } (by simp [objectFields])
  have h3 := look { name := c!"additionalProperties", ty := optTy .bool } (by simp [objectFields])
  have h4 := look { name := c!"required", ty := optTy (.list .str) } (by simp [objectFields])
  have t1 := typ { name := c!"type", ty := .literal [.str c!"object"] } (by simp [objectFields, typeFields])
  have t2 := typ { name := c!"properties", ty := optTy (.dict .str anyNodeTy), fwd := true } (by simp [objectFields])
  have t3 := typ { name := c!"additionalProperties", ty := optTy .bool } (by simp [objectFields])
  have t4 := typ { name := c!"required", ty := optTy (.list .str) } (by simp [objectFields])
  change lookupKey c!"type" _ = attrJson (attrOf c!"type" vs) at h1
  change lookupKey c!"properties" _ = attrJson (attrOf c!"properties" vs) at h2
  change lookupKey c!"additionalProperties" _ = attrJson (attrOf c!"additionalProperties" vs) at h3
  change lookupKey c!"required" _ = attrJson (attrOf c!"required" vs) at h4
  have ho : objectType (recordOf cd.fields vs) = true := by
    simp only at t1
    generalize attrOf c!"type" vs = w at t1 h1
    cases t1 with
    | literal hm ht =>
      simp only [List.mem_cons, List.not_mem_nil, or_false] at hm
      subst hm
      unfold objectType
      rw [h1, ht]
      rfl
  unfold valNode
  rw [hw]
  simp only [docNode, ho, if_true, docProps_eq, h2, h3, h4]
  rw [dictNodes_doc t2, truthValue_doc t3, textList_doc t4]

/-- The tree of any other node. -/
theorem valNode_leaf {c : Nat} (hc : c < 8) (h6 : c ≠ nObject) {v : Val} (hv : HasTy schemaEnv v (.cls c)) :
    valNode v = .leaf (writtenDoc v) := by
  obtain ⟨cd, vs, hcd, rfl, hn, hty, hw⟩ := written_node (Nat.lt_succ_of_lt hc) hv
  have h := nodeClassDef hcd
  have hp := h.props
  rw [h.kind] at hp
  have ho : objectType (recordOf cd.fields vs) = false := by
    by_cases h0 : c = 0 ∨ c = 7
    · have : c!"type" ∉ cd.fields.map (writeProp (.dataclass false)) := by
        rcases h0 with rfl | rfl <;> cases hcd <;> decide +kernel
      have : lookupKey c!"type" (recordOf cd.fields vs) = none := lookupKey_none_iff'.2 fun hm => this (recordOf_keys.subset hm)
      unfold objectType
      rw [this]
    · obtain ⟨cd', ps, hcd', hf⟩ := node_typed (c := c) (by omega) (by simp only [nObject] at h6; omega)
      rw [hcd] at hcd'; cases hcd'
      have hm : ({ name := c!"type", ty := .literal [.str (nodeTypeName c)] } : FieldDef) ∈ cd.fields := by
        rw [hf]; simp [typeFields]
      have h1 := lookup_recordOf hn (nodeClass_names hcd) hp hm
      have t1 := attr_hasTy hn (nodeClass_names hcd) hty hm
      change lookupKey c!"type" _ = attrJson (attrOf c!"type" vs) at h1
      simp only at t1
      generalize attrOf c!"type" vs = w at t1 h1
      cases t1 with
      | literal hm ht =>
        simp only [List.mem_cons, List.not_mem_nil, or_false] at hm
        subst hm
        unfold objectType
        rw [h1, ht]
        show decide (nodeTypeName c = c!"object") = false
        have : ∀ c < 8, c ≠ 6 → 1 ≤ c → c ≠ 7 → decide (nodeTypeName c = c!"object") = false := by decide +kernel
        exact this c hc h6 (by omega) (by omega)
  unfold valNode
  rw [hw]
  simp [docNode, ho]

theorem anyNode_inv {v : Val} (h : HasTy schemaEnv v anyNodeTy) : ∃ c, c < 8 ∧ HasTy schemaEnv v (.cls c) := by
  cases h with
  | union hm h =>
    simp only [List.mem_cons, List.not_mem_nil, or_false] at hm
    rcases hm with rfl | rfl | rfl | rfl | rfl | rfl | rfl | rfl <;> exact ⟨_, by decide, h⟩

/-! ### Assignment to attributes -/

/-- Attributes of the declared types. -/
abbrev TypedAttr (f : FieldDef) (w : Str × Val) : Prop := w.1 = f.name ∧ HasTy schemaEnv w.2 f.ty

theorem typedAttrs_names {fds : List FieldDef} {vs : List (Str × Val)} (h : All2 TypedAttr fds vs) :
    vs.map Prod.fst = fds.map FieldDef.name := by
  induction h with
  | nil => rfl
  | cons h _ ih => simp [h.1, ih]

theorem typedAttrs_iff {c : Nat} {cd : ClassDef} (hcd : schemaEnv.classes[c]? = some cd) {vs : List (Str × Val)} :
    HasTy schemaEnv (.obj c vs) (.cls c) ↔ All2 TypedAttr cd.fields vs := by
  have h := nodeClassDef hcd
  have hh : cd.hints = cd.fields := hints_eq_fields (by rw [h.kind]; simp)
  constructor
  · intro hv
    obtain ⟨vs', he, hn, hty⟩ := hasTy_cls_inv hcd (by rw [h.kind]; simp) (by rw [h.kind]; simp) hv
    cases he
    refine All2.of_get (by simpa using (congrArg List.length hn).symm) fun i f w hf hw => ⟨?_, hty i f w hf hw⟩
    have := congrArg (·[i]?) hn
    simpa [hf, hw] using this
  · intro ha
    refine .cls hcd ?_ fun i f w hf hw => ?_
    · exact typedAttrs_names ha
    · rw [hh] at hf
      obtain ⟨w', hw', hr⟩ := ha.get i f hf
      rw [hw] at hw'; cases hw'; exact hr.2

theorem setAttr_typed {fds : List FieldDef} {vs : List (Str × Val)} (h : All2 TypedAttr fds vs) {m : Str} {v : Val}
    (hv : ∀ f ∈ fds, f.name = m → HasTy schemaEnv v f.ty) : All2 TypedAttr fds (setAttr m v vs) := by
  induction h with
  | nil => exact .nil
  | @cons f w fds vs h h' ih =>
    obtain ⟨k, w⟩ := w
    obtain ⟨rfl, h⟩ := h
    simp only [setAttr]
    split
    · rename_i he
      exact .cons ⟨rfl, hv f (.head _) he⟩ h'
    · exact .cons ⟨rfl, h⟩ (ih fun f hf => hv f (.tail _ hf))

theorem setAttr_other {fds : List FieldDef} {vs : List (Str × Val)} (h : All2 TypedAttr fds vs) {m : Str} {v : Val}
    (hv : ∀ f ∈ fds, f.name = m → writeProp (.dataclass false) f ∈ flatKeywords) :
    otherKeywords (recordOf fds (setAttr m v vs)) = otherKeywords (recordOf fds vs) := by
  induction h with
  | nil => rfl
  | @cons f w fds vs h h' ih =>
    obtain ⟨k, w⟩ := w
    obtain ⟨rfl, h⟩ := h
    have cut : ∀ (u : Val) (us : List (Str × Val)), writeProp (.dataclass false) f ∈ flatKeywords →
        otherKeywords (recordOf (f :: fds) ((f.name, u) :: us)) = otherKeywords (recordOf fds us) := by
      intro u us hf
      by_cases hu : u = .none
      · subst hu; rw [recordOf_none]
      · rw [recordOf_some _ _ _ hu]
        simp [otherKeywords, hf]
    simp only [setAttr]
    split
    · rename_i he
      rw [cut _ _ (hv f (.head _) he), cut _ _ (hv f (.head _) he)]
    · have ih := ih fun f hf => hv f (.tail _ hf)
      by_cases hw : w = .none
      · subst hw; rw [recordOf_none, recordOf_none]; exact ih
      · rw [recordOf_some _ _ _ hw, recordOf_some _ _ _ hw]
        simp only [otherKeywords, List.filter_cons] at ih ⊢
        rw [ih]

theorem attrOf_setAttr_ne {n m : Str} (h : n ≠ m) (v : Val) (vs : List (Str × Val)) : attrOf n (setAttr m v vs) = attrOf n vs := by
  induction vs with
  | nil => rfl
  | cons w vs ih =>
    obtain ⟨k, w⟩ := w
    simp only [attrOf, setAttr] at ih ⊢
    split
    · rename_i he; subst he; simp [lookupKey, Ne.symm h]
    · simp only [lookupKey]; split
      · rfl
      · exact ih

theorem attrOf_setAttr {m : Str} {v : Val} {vs : List (Str × Val)} (h : m ∈ vs.map Prod.fst) : attrOf m (setAttr m v vs) = v := by
  induction vs with
  | nil => simp at h
  | cons w vs ih =>
    obtain ⟨k, w⟩ := w
    simp only [attrOf, setAttr] at ih ⊢
    split
    · rename_i he; subst he; simp [lookupKey]
    · rename_i he
      simp only [lookupKey, if_neg he]
      exact ih (by simpa [Ne.symm he] using h)

theorem setAttr_names (m : Str) (v : Val) (vs : List (Str × Val)) : (setAttr m v vs).map Prod.fst = vs.map Prod.fst := by
  induction vs with
  | nil => rfl
  | cons w vs ih =>
    obtain ⟨k, w⟩ := w
    simp only [setAttr]
    split
    · rfl
    · simp [ih]

theorem nodup_name {fds : List FieldDef} (hd : (fds.map FieldDef.name).Nodup) {f g : FieldDef} (hf : f ∈ fds) (hg : g ∈ fds)
    (h : f.name = g.name) : f = g := by
  induction fds with
  | nil => simp at hf
  | cons x fds ih =>
    simp only [List.map_cons, List.nodup_cons] at hd
    rcases List.mem_cons.1 hf with rfl | hf <;> rcases List.mem_cons.1 hg with rfl | hg
    · rfl
    · exact absurd (List.mem_map.2 ⟨g, hg, h.symm⟩) hd.1
    · exact absurd (List.mem_map.2 ⟨_, ‹_›, h⟩) hd.1
    · exact ih hd.2 hf hg

/-- Members of a dictionary of nodes. -/
def TypedEntries (kvs : List (Key × Val)) : Prop := ∀ kv ∈ kvs, (∃ s, kv.1 = .str s) ∧ HasTy schemaEnv kv.2 anyNodeTy

theorem dictOrNone_typed {d : List (Key × Val)} (hn : (d.map Prod.fst).Nodup) (h : TypedEntries d) :
    HasTy schemaEnv (dictOrNone d) (optTy (.dict .str anyNodeTy)) := by
  unfold dictOrNone
  split
  · exact .union (.tail _ (.head _)) .none
  · refine .union (.head _) (.dict hn (fun kv hkv => ?_) fun kv hkv => (h kv hkv).2)
    obtain ⟨⟨s, hs⟩, _⟩ := h kv hkv
    rw [hs]; trivial

theorem listOrNone_typed (l : List Str) : HasTy schemaEnv (listOrNone l) (optTy (.list .str)) := by
  unfold listOrNone
  split
  · exact .union (.tail _ (.head _)) .none
  · refine .union (.head _) (.list fun v hv => ?_)
    obtain ⟨s, _, rfl⟩ := List.mem_map.1 hv
    exact .str

theorem dictNodes_orNone (d : List (Key × Val)) : dictNodes (dictOrNone d) = orNone (entryNodes d) := by
  cases d <;> rfl

theorem textAttr_orNone (l : List Str) : textAttr (listOrNone l) = orNone l := by
  cases l with
  | nil => rfl
  | cons s l =>
    show some _ = some _
    have : ∀ l : List Str, (l.map Val.str).filterMap Val.asStr = l := by
      intro l
      induction l with
      | nil => rfl
      | cons s l ih => simp only [List.map_cons, List.filterMap_cons, Val.asStr, ih]
    rw [this]

/-- The tree of the copy with new properties and required names. -/
theorem setNode_node {c : Nat} (hc : IsObjectClass c) {vs : List (Str × Val)} (hv : HasTy schemaEnv (.obj c vs) (.cls c))
    {st : List (Key × Val) × List Str} (hn : (st.1.map Prod.fst).Nodup) (hst : TypedEntries st.1) :
    HasTy schemaEnv (.obj c (setNode st vs)) (.cls c) ∧ ∃ p a r x, valNode (.obj c vs) = .object p a r x ∧
      valNode (.obj c (setNode st vs)) = .object (orNone (entryNodes st.1)) (some false) (orNone st.2) x := by
  obtain ⟨cd, hcd⟩ := nodeClass_get (objectClass_lt hc)
  have hm := objectClass_fields hc hcd
  have hd := nodeClass_names hcd
  have h0 := (typedAttrs_iff hcd).1 hv
  have h2 : ({ name := c!"properties", ty := optTy (.dict .str anyNodeTy), fwd := true } : FieldDef) ∈ cd.fields := hm _ (by simp [objectFields])
  have h3 : ({ name := c!"additionalProperties", ty := optTy .bool } : FieldDef) ∈ cd.fields := hm _ (by simp [objectFields])
  have h4 : ({ name := c!"required", ty := optTy (.list .str) } : FieldDef) ∈ cd.fields := hm _ (by simp [objectFields])
  have e2 : ∀ f ∈ cd.fields, f.name = c!"properties" → f = _ := fun f hf he => nodup_name hd hf h2 he
  have e3 : ∀ f ∈ cd.fields, f.name = c!"additionalProperties" → f = _ := fun f hf he => nodup_name hd hf h3 he
  have e4 : ∀ f ∈ cd.fields, f.name = c!"required" → f = _ := fun f hf he => nodup_name hd hf h4 he
  have a1 := setAttr_typed (m := c!"properties") (v := dictOrNone st.1) h0 fun f hf he => by
    rw [e2 f hf he]; exact dictOrNone_typed hn hst
  have a2 := setAttr_typed (m := c!"additionalProperties") (v := .bool false) a1 fun f hf he => by
    rw [e3 f hf he]; exact .union (.head _) .bool
  have a3 := setAttr_typed (m := c!"required") (v := listOrNone st.2) a2 fun f hf he => by
    rw [e4 f hf he]; exact listOrNone_typed _
  have ht : HasTy schemaEnv (.obj c (setNode st vs)) (.cls c) := (typedAttrs_iff hcd).2 a3
  refine ⟨ht, _, _, _, _, valNode_object hc hcd hv, ?_⟩
  rw [valNode_object hc hcd ht]
  have names : vs.map Prod.fst = cd.fields.map FieldDef.name := typedAttrs_names h0
  have n2 : c!"properties" ∈ vs.map Prod.fst := by rw [names]; exact List.mem_map.2 ⟨_, h2, rfl⟩
  have n3 : c!"additionalProperties" ∈ vs.map Prod.fst := by rw [names]; exact List.mem_map.2 ⟨_, h3, rfl⟩
  have n4 : c!"required" ∈ vs.map Prod.fst := by rw [names]; exact List.mem_map.2 ⟨_, h4, rfl⟩
  have r2 : attrOf c!"properties" (setNode st vs) = dictOrNone st.1 := by
    unfold setNode
    rw [attrOf_setAttr_ne (by decide), attrOf_setAttr_ne (by decide), attrOf_setAttr n2]
  have r3 : attrOf c!"additionalProperties" (setNode st vs) = .bool false := by
    unfold setNode
    rw [attrOf_setAttr_ne (by decide), attrOf_setAttr (by simpa only [setAttr_names] using n3)]
  have r4 : attrOf c!"required" (setNode st vs) = listOrNone st.2 := by
    unfold setNode
    rw [attrOf_setAttr (by simpa only [setAttr_names] using n4)]
  rw [r2, r3, r4, dictNodes_orNone, textAttr_orNone]
  unfold setNode
  rw [setAttr_other a2 fun f hf he => by rw [e4 f hf he]; decide, setAttr_other a1 fun f hf he => by rw [e3 f hf he]; decide,
    setAttr_other h0 fun f hf he => by rw [e2 f hf he]; decide]
  rfl

/-! ### Flattening of objects -/

theorem flatten_eq (o : FlatOpts) (p : Option (List (Str × SNode))) (a : Option Bool) (r : Option (List Str)) (x : Json) :
    flatten o (.object p a r x) = .object (orNone (flattenProps o (r.getD []) (p.getD []) ([], [])).1) (some false)
      (orNone (flattenProps o (r.getD []) (p.getD []) ([], [])).2) x := by
  cases p <;> simp [flatten, flattenProps, orNone]

theorem entryNodes_upsert {d : List (Key × Val)} (hd : TypedEntries d) (k : Str) (v : Val) :
    entryNodes (upsert (.str k) v d) = upsert k (valNode v) (entryNodes d) := by
  induction d with
  | nil => rfl
  | cons kv d ih =>
    obtain ⟨q, w⟩ := kv
    obtain ⟨⟨s, hs⟩, _⟩ := hd _ (.head _)
    simp only at hs
    subst hs
    have ih := ih fun kv h => hd kv (.tail _ h)
    by_cases h : s = k
    · subst h; simp [upsert, entryNodes, keyName]
    · have h' : Key.str s ≠ .str k := by simpa using h
      simp only [entryNodes, List.map_cons, upsert, keyName] at ih ⊢
      rw [if_neg h, if_neg h', List.map_cons, ih]

theorem typed_upsert {d : List (Key × Val)} (hd : TypedEntries d) (k : Str) {v : Val} (hv : HasTy schemaEnv v anyNodeTy) :
    TypedEntries (upsert (.str k) v d) := by
  intro kv h
  rcases upsert_mem h with rfl | h
  · exact ⟨⟨k, rfl⟩, hv⟩
  · exact hd kv h

theorem update_nodes {l : List (Key × Val)} (hl : TypedEntries l) : ∀ {d : List (Key × Val)}, TypedEntries d → (d.map Prod.fst).Nodup →
    entryNodes (updateDict d l) = updateProps (entryNodes d) (entryNodes l) ∧ TypedEntries (updateDict d l) ∧
      ((updateDict d l).map Prod.fst).Nodup := by
  induction l with
  | nil => exact fun hd hn => ⟨rfl, hd, hn⟩
  | cons kv l ih =>
    obtain ⟨q, w⟩ := kv
    intro d hd hn
    obtain ⟨⟨s, hs⟩, hw⟩ := hl _ (.head _)
    simp only at hs hw
    subst hs
    have := ih (fun kv h => hl kv (.tail _ h)) (typed_upsert hd s hw) (upsert_nodup hn)
    rw [entryNodes_upsert hd] at this
    exact this

theorem addNested_nodes {o : FlatOpts} {k : Str} {c : Nat} (hc : IsObjectClass c) {v : Val} (hv : HasTy schemaEnv v (.cls c))
    {st : List (Key × Val) × List Str} (hst : TypedEntries st.1) (hn : (st.1.map Prod.fst).Nodup) :
    entryNodes (addNested o (.str k) v st).1 = addProps o k (valNode v) (entryNodes st.1) ∧
      (addNested o (.str k) v st).2 = addReqs o k (valNode v) st.2 ∧ TypedEntries (addNested o (.str k) v st).1 ∧
      ((addNested o (.str k) v st).1.map Prod.fst).Nodup := by
  obtain ⟨cd, vs, hcd, rfl, hnames, hty, -⟩ := written_node (objectClass_lt hc) hv
  have t2 := attr_hasTy hnames (nodeClass_names hcd) hty (objectClass_fields hc hcd
    { name := c!"properties", ty := optTy (.dict .str anyNodeTy), fwd := true } (by simp [objectFields]))
  simp only at t2
  rw [valNode_object hc hcd hv]
  simp only [addNested, addProps, addReqs, SNode.props, SNode.required]
  have hl : TypedEntries ((dictItems (attrOf c!"properties" vs)).map fun p => (qualifyKey o (.str k) p.1, p.2)) ∧
      entryNodes ((dictItems (attrOf c!"properties" vs)).map fun p => (qualifyKey o (.str k) p.1, p.2)) =
        ((dictNodes (attrOf c!"properties" vs)).getD []).map fun p => (qualify o k p.1, p.2) := by
    generalize attrOf c!"properties" vs = w at t2
    rcases opt_inv t2 with rfl | h
    · exact ⟨fun kv h => absurd h (by simp [dictItems]), rfl⟩
    · cases h with
      | @dict kvs _ _ _ hk hany =>
        have hstr : ∀ kv ∈ kvs, ∃ s, kv.1 = .str s := by
          intro kv h
          have := hk kv h
          cases hkv : kv.1 <;> rw [hkv] at this <;> first | exact ⟨_, rfl⟩ | exact this.elim
        refine ⟨fun kv h => ?_, ?_⟩
        · obtain ⟨kv', h', rfl⟩ := List.mem_map.1 h
          obtain ⟨s, hs⟩ := hstr kv' h'
          exact ⟨⟨qualify o k s, by rw [hs]; rfl⟩, hany kv' h'⟩
        · simp only [entryNodes, dictItems, dictNodes, Option.getD_some, List.map_map]
          refine List.map_congr_left fun kv h => ?_
          obtain ⟨s, hs⟩ := hstr kv h
          simp [hs, qualifyKey, keyName]
  have hu := update_nodes hl.1 hst hn
  refine ⟨?_, ?_, hu.2⟩
  · rw [hu.1, hl.2]
    cases hd : dictNodes (attrOf c!"properties" vs) with
    | none => simp [updateProps]
    | some l => simp
  · rw [textItems_eq]
    cases hd : textAttr (attrOf c!"required" vs) with
    | none => simp
    | some l => simp [keyName]

theorem isObjectNode_iff {c : Nat} (hc : c < 8) {v : Val} (hv : HasTy schemaEnv v (.cls c)) : isObjectNode v = true ↔ c = nObject := by
  obtain ⟨cd, vs, hcd, rfl, -⟩ := written_node (Nat.lt_succ_of_lt hc) hv
  simp only [isObjectNode, decide_eq_true_eq]
  constructor
  · rintro (h | h)
    · exact h
    · rw [h] at hc; exact absurd hc (by decide)
  · exact Or.inl

/-- The states of the two loops agree. -/
structure SameState (st : List (Key × Val) × List Str) (tr : List (Str × SNode) × List Str) : Prop where
  nodes : entryNodes st.1 = tr.1
  reqs : st.2 = tr.2
  typed : TypedEntries st.1
  nodup : (st.1.map Prod.fst).Nodup

theorem step_nodes {o : FlatOpts} {src : List Str} {k : Str} {v : Val} (hv : HasTy schemaEnv v anyNodeTy)
    (ih : ∀ c, IsObjectClass c → HasTy schemaEnv v (.cls c) →
      HasTy schemaEnv (flattenVal o v) (.cls c) ∧ valNode (flattenVal o v) = flatten o (valNode v))
    {st : List (Key × Val) × List Str} {tr : List (Str × SNode) × List Str} (h : SameState st tr) :
    SameState (flatStepV o src (.str k) v (flattenVal o v) st) (flatStep o src k (valNode v) (flatten o (valNode v)) tr) := by
  obtain ⟨d, r⟩ := st
  obtain ⟨d', r'⟩ := tr
  obtain ⟨rfl, rfl, h1, h2⟩ := h
  obtain ⟨c, hc, hvc⟩ := anyNode_inv hv
  unfold flatStepV
  by_cases h6 : c = nObject
  · rw [if_pos ((isObjectNode_iff hc hvc).2 h6)]
    have hoc : IsObjectClass c := .inl h6
    obtain ⟨hi1, hi2⟩ := ih c hoc hvc
    have hw : HasTy schemaEnv (if o.recursive then flattenVal o v else v) (.cls c) ∧
        valNode (if o.recursive then flattenVal o v else v) = if o.recursive then flatten o (valNode v) else valNode v := by
      split
      · exact ⟨hi1, hi2⟩
      · exact ⟨hvc, rfl⟩
    obtain ⟨g1, g2, g3, g4⟩ := addNested_nodes (o := o) (k := k) hoc hw.1 (st := (d, r)) h1 h2
    rw [hw.2] at g1 g2
    obtain ⟨cd, vs, hcd, rfl, -⟩ := written_node (objectClass_lt hoc) hvc
    have e := valNode_object hoc hcd hvc
    refine ⟨?_, ?_, g3, g4⟩
    · rw [g1]; unfold flatStep; rw [e]
    · rw [g2]; unfold flatStep; rw [e]
  · rw [if_neg (by rw [isObjectNode_iff hc hvc]; exact h6)]
    have e := valNode_leaf hc h6 hvc
    refine ⟨?_, ?_, typed_upsert h1 k hv, upsert_nodup h2⟩
    · rw [entryNodes_upsert h1]; unfold flatStep; rw [e]
    · unfold flatStep; rw [e]; rfl

mutual
/-- Flattening an object and writing it gives the tree that flattening the tree gives. -/
theorem flattenVal_node (o : FlatOpts) : ∀ (v : Val) (c : Nat), IsObjectClass c → HasTy schemaEnv v (.cls c) →
    HasTy schemaEnv (flattenVal o v) (.cls c) ∧ valNode (flattenVal o v) = flatten o (valNode v)
  | .obj c' fs, c, hc, hv => by
    obtain ⟨cd, vs, hcd, he, hnames, hty, -⟩ := written_node (objectClass_lt hc) hv
    cases he
    have t2 := attr_hasTy hnames (nodeClass_names hcd) hty (objectClass_fields hc hcd
      { name := c!"properties", ty := optTy (.dict .str anyNodeTy), fwd := true } (by simp [objectFields]))
    have ih := flattenAttr_nodes o (textItems (attrOf c!"required" fs)) fs t2
    obtain ⟨h1, p, a, r, x, h2, h3⟩ := setNode_node hc hv ih.nodup ih.typed
    refine ⟨h1, ?_⟩
    simp only [flattenVal]
    rw [h3, valNode_object hc hcd hv, flatten_eq, ih.nodes, ih.reqs, textItems_eq]
    rw [valNode_object hc hcd hv] at h2
    cases h2
    rfl
  | .none, c, _, hv => by cases hv
  | .bool _, c, _, hv => by cases hv
  | .int _, c, _, hv => by cases hv
  | .float _, c, _, hv => by cases hv
  | .str _, c, _, hv => by cases hv
  | .list _, c, _, hv => by cases hv
  | .dict _, c, _, hv => by cases hv
theorem flattenAttr_nodes (o : FlatOpts) (src : List Str) : ∀ (fs : List (Str × Val)),
    HasTy schemaEnv (attrOf c!"properties" fs) (optTy (.dict .str anyNodeTy)) →
    SameState (flattenAttr o src fs) (flattenProps o src ((dictNodes (attrOf c!"properties" fs)).getD []) ([], []))
  | [], _ => ⟨rfl, rfl, fun _ h => absurd h (by simp [flattenAttr]), List.nodup_nil⟩
  | (k, v) :: r, h => by
    have ih1 := flattenDict_nodes o src v
    have ih2 := flattenAttr_nodes o src r
    simp only [flattenAttr]
    by_cases hk : k = c!"properties"
    · have e : attrOf c!"properties" ((k, v) :: r) = v := by simp [attrOf, lookupKey, hk]
      rw [e] at h ⊢
      rw [if_pos hk]
      exact ih1 h
    · have e : attrOf c!"properties" ((k, v) :: r) = attrOf c!"properties" r := by simp [attrOf, lookupKey, hk]
      rw [e] at h ⊢
      rw [if_neg hk]
      exact ih2 h
theorem flattenDict_nodes (o : FlatOpts) (src : List Str) : ∀ (v : Val), HasTy schemaEnv v (optTy (.dict .str anyNodeTy)) →
    SameState (flattenDict o src v) (flattenProps o src ((dictNodes v).getD []) ([], []))
  | .dict kvs, h => by
    have ih := flattenItems_nodes o src kvs
    simp only [flattenDict, dictNodes, Option.getD_some]
    rcases opt_inv h with h | h
    · cases h
    · cases h with
      | dict hn hk hv =>
        refine ih (fun kv h => ⟨?_, hv kv h⟩) ([], []) ([], []) ⟨rfl, rfl, fun _ h => absurd h (by simp), List.nodup_nil⟩
        have := hk kv h
        cases hkv : kv.1 <;> rw [hkv] at this <;> first | exact ⟨_, rfl⟩ | exact this.elim
  | .none, _ => ⟨rfl, rfl, fun _ h => absurd h (by simp [flattenDict]), List.nodup_nil⟩
  | .list _, h | .obj _ _, h | .bool _, h | .int _, h | .float _, h | .str _, h | .bytes _, h | .datetime _, h | .date _, h
  | .time _, h | .timedelta _, h | .uuid _, h | .ipv4 _, h | .ipv6 _ _, h | .enum _ _, h | .set _, h | .tuple _, h => by
    rcases opt_inv h with h | h <;> cases h
theorem flattenItems_nodes (o : FlatOpts) (src : List Str) : ∀ (kvs : List (Key × Val)), TypedEntries kvs →
    ∀ (st : List (Key × Val) × List Str) (tr : List (Str × SNode) × List Str), SameState st tr →
    SameState (flattenItems o src kvs st) (flattenProps o src (entryNodes kvs) tr)
  | [], _, _, _, h => h
  | (k, v) :: r, hk, st, tr, h => by
    have ih1 := flattenVal_node o v
    have ih2 := flattenItems_nodes o src r
    obtain ⟨⟨s, hs⟩, hv⟩ := hk _ (.head _)
    simp only at hs hv
    subst hs
    exact ih2 (fun kv h => hk kv (.tail _ h)) _ _ (step_nodes (k := s) hv ih1 h)
end

/-! ### Reading -/

theorem lookup_filter {P : Str → Bool} {k : Str} (hk : P k = true) (kvs : List (Str × Json)) :
    lookupKey k (kvs.filter fun p => P p.1) = lookupKey k kvs := by
  induction kvs with
  | nil => rfl
  | cons kv kvs ih =>
    obtain ⟨q, x⟩ := kv
    by_cases hq : q = k
    · subst hq; simp [hk, lookupKey]
    · by_cases hp : P q = true
      · simp only [List.filter_cons, hp, if_true, lookupKey, if_neg hq]; exact ih
      · simp only [List.filter_cons, hp, lookupKey, if_neg hq]; exact ih

theorem lookup_filter_some {P : Str → Bool} {k : Str} {x : Json} {kvs : List (Str × Json)}
    (h : lookupKey k (kvs.filter fun p => P p.1) = some x) : P k = true ∧ lookupKey k kvs = some x := by
  have hm := lookupKey_some_mem h
  have hp : P k = true := by simpa using (List.mem_filter.1 hm).2
  exact ⟨hp, by rw [← lookup_filter hp]; exact h⟩

theorem sameRecord_other {add drop : Bool} {xs ys : List (Str × Json)} (h : SameRecord add drop xs ys) :
    SameRecord add drop (otherKeywords xs) (otherKeywords ys) := by
  have e : ∀ zs : List (Str × Json), otherKeywords zs = zs.filter fun p => (fun k => decide (k ∉ flatKeywords)) p.1 := fun _ => rfl
  have hp : ∀ {k x}, Present (otherKeywords xs) k x → (k ∉ flatKeywords) ∧ Present xs k x := by
    intro k x hx
    have hl := hx.1
    rw [e] at hl
    obtain ⟨h1, h2⟩ := lookup_filter_some (P := fun k => decide (k ∉ flatKeywords)) hl
    exact ⟨by simpa using h1, h2, hx.2⟩
  have hl : ∀ {k y}, lookupKey k (otherKeywords ys) = some y → (k ∉ flatKeywords) ∧ lookupKey k ys = some y := by
    intro k y hl
    rw [e] at hl
    obtain ⟨h1, h2⟩ := lookup_filter_some (P := fun k => decide (k ∉ flatKeywords)) hl
    exact ⟨by simpa using h1, h2⟩
  refine ⟨h.nodup.sublist (List.filter_sublist.map _), fun k x y hx hy => h.same k x y (hp hx).2 (hl hy).2, ?_, ?_⟩
  · rcases h.kept with h | h
    · exact .inl h
    · refine .inr fun k x hx => ?_
      obtain ⟨h1, h2⟩ := hp hx
      obtain ⟨y, hy⟩ := h k x h2
      refine ⟨y, ?_⟩
      rw [e, lookup_filter (P := fun k => decide (k ∉ flatKeywords)) (by simpa using h1)]
      exact hy
  · rcases h.known with h | h
    · exact .inl h
    · refine .inr fun k y hy => ?_
      obtain ⟨h1, h2⟩ := hl hy
      obtain ⟨x, hx, hx'⟩ := h k y h2
      refine ⟨x, ?_, hx'⟩
      rw [e, lookup_filter (P := fun k => decide (k ∉ flatKeywords)) (by simpa using h1)]
      exact hx

/-- An attribute that was read: from a member that is present, or the value for an absent one. -/
theorem read_present_attr {fds : List FieldDef} {vs : List (Str × Val)} {kvs : List (Str × Json)}
    (h : All2 (fun f w => w.1 = f.name ∧ readField schemaEnv false (.dataclass false) f kvs = .ok w.2) fds vs)
    (hd : (fds.map FieldDef.name).Nodup) {f : FieldDef} (hf : f ∈ fds) :
    (∃ x, Present kvs (fieldProp (.dataclass false) f) x ∧ loads schemaEnv false (fieldTy (.dataclass false) f) x = .ok (attrOf f.name vs)) ∨
    ((∀ x, ¬ Present kvs (fieldProp (.dataclass false) f) x) ∧ absentValue (.dataclass false) f = some (attrOf f.name vs)) := by
  have hn : vs.map Prod.fst = fds.map FieldDef.name := by
    clear hd hf
    induction h with
    | nil => rfl
    | cons h _ ih => simp [h.1, ih]
  obtain ⟨i, hi⟩ := List.getElem?_of_mem hf
  obtain ⟨w, h1, h2⟩ := attr_of_name hn hd hi
  obtain ⟨w', h3, _, h4⟩ := h.get i f hi
  rw [h1] at h3; cases h3
  have e : attrOf f.name vs = w := by simp [attrOf, h2]
  rw [e]
  simp only at h4
  unfold readField at h4
  cases hl : lookupKey (fieldProp (.dataclass false) f) kvs with
  | none =>
    rw [hl] at h4
    refine .inr ⟨fun x hx => (by have := hx.1; rw [hl] at this; cases this), ?_⟩
    cases ha : absentValue (.dataclass false) f with
    | none => rw [ha] at h4; cases h4
    | some u => rw [ha] at h4; cases h4; rfl
  | some x =>
    by_cases hx : x = .null
    · subst hx
      rw [hl] at h4
      refine .inr ⟨fun x hx => (by have := hx.1; rw [hl] at this; cases this; exact hx.2 rfl), ?_⟩
      cases ha : absentValue (.dataclass false) f with
      | none => simp only [ha] at h4; cases h4
      | some u => simp only [ha] at h4; cases h4; rfl
    · refine .inl ⟨x, ⟨hl, hx⟩, ?_⟩
      rw [hl] at h4
      cases x <;> first | exact absurd rfl hx | exact h4

theorem not_present {kvs : List (Str × Json)} {k : Str} (h : ∀ x, ¬ Present kvs k x) : lookupKey k kvs = none ∨ lookupKey k kvs = some .null := by
  cases hl : lookupKey k kvs with
  | none => exact .inl rfl
  | some x =>
    by_cases hx : x = .null
    · subst hx; exact .inr rfl
    · exact absurd ⟨hl, hx⟩ (h x)

theorem literal_read {S : Str} {x : Json} {w : Val} (h : loads schemaEnv false (.literal [.str S]) x = .ok w) : x = .str S := by
  obtain ⟨l, hl, h1, _⟩ := (C24_accepts_iff_partial schemaEnv schemaEnv_ok false [.str S] (by simp [SameType]) (fun e m h => by simp at h) x
    (fun i b h => by simp at h) w).1 h
  simp only [List.mem_cons, List.not_mem_nil, or_false] at hl
  subst hl
  exact h1

theorem entries_same {xs : List (Str × Json)} {ws : List (Key × Val)}
    (h : All2 (fun x w => w.1 = Key.str x.1 ∧ SameNode (docNode x.2) (valNode w.2)) xs ws) :
    All2 SameEntry (xs.map fun p => (p.1, docNode p.2)) (entryNodes ws) := by
  induction h with
  | nil => exact .nil
  | cons h1 _ ih => exact .cons ⟨by simp [h1.1, keyName], h1.2⟩ ih

theorem sizeOf_present {kvs : List (Str × Json)} {k : Str} {x : Json} (h : Present kvs k x) : sizeOf x < sizeOf (Json.obj kvs) := by
  have := sizeOf_lookup h.1
  simp only [Json.obj.sizeOf_spec]
  omega

/-- The tree of a node that was read says what the document says. -/
theorem read_same : ∀ (size : Nat) (j : Json), sizeOf j < size → j.Wf → ∀ (c : Nat), c < 9 → ∀ v, loads schemaEnv false (.cls c) j = .ok v →
    SameNode (docNode j) (valNode v)
  | 0, _, h, _, _, _, _, _ => absurd h (by omega)
  | size + 1, j, hs, hj, c, hc, v, h => by
    have ih := read_same size
    have hv := C12_type_safe schemaEnv schemaEnv_ok schemaEnv_typed false _ j v h
    obtain ⟨cd, vs, hcd, rfl, hn, hty, hw⟩ := written_node hc hv
    have hcdef := nodeClassDef hcd
    have hkind := hcdef.kind
    have hh : cd.hints = cd.fields := hints_eq_fields (by rw [hkind]; simp)
    obtain ⟨kvs, vs', rfl, he, ha, hkn⟩ := (loads_cls_ok_iff schemaEnv_ok false (schemaEnv_readable _ _ hcd) j _).1 h
    cases he
    rw [hh] at ha
    have hwf : ∀ kv ∈ kvs, kv.2.Wf := by cases hj with | obj _ h => exact h
    have hpwf : ∀ {k x}, Present kvs k x → x.Wf := fun hx => hwf _ (lookupKey_some_mem hx.1)
    obtain ⟨cd', hdoc⟩ := nodeClass_doc c hc
    have := hdoc.cls
    rw [hcd] at this; cases this
    obtain ⟨ps, hps, _, hsame⟩ := writesBack_class (skip := false) schemaEnv_ok hdoc hn hty ha hkn fun f hf k x w hx hl => by
      obtain ⟨h1, h2⟩ := write_back schemaEnv_ok schemaEnv_typed nodeClass_doc x _ (hdoc.ty f hf) (hpwf hx) w hl
      exact ⟨h1, h2 hx.2⟩
    have hps' := node_written (.cls hc) hv
    rw [hps, hw] at hps'
    cases hps'
    rw [hkind] at ha
    have attr := fun f (hf : f ∈ cd.fields) => read_present_attr ha (nodeClass_names hcd) hf
    by_cases hoc : IsObjectClass c
    · have hm := objectClass_fields hoc hcd
      have a1 := attr { name := c!"type", ty := .literal [.str c!"object"] } (hm _ (by simp [objectFields, typeFields]))
      have a2 := attr { name := c!"properties", ty := optTy (.dict .str anyNodeTy), fwd := true } (hm _ (by simp [objectFields]))
      have a3 := attr { name := c!"additionalProperties", ty := optTy .bool } (hm _ (by simp [objectFields]))
      have a4 := attr { name := c!"required", ty := optTy (.list .str) } (hm _ (by simp [objectFields]))
      change (∃ x, Present kvs c!"type" x ∧ loads schemaEnv false (.literal [.str c!"object"]) x = .ok (attrOf c!"type" vs)) ∨
        (_ ∧ none = some _) at a1
      change (∃ x, Present kvs c!"properties" x ∧ loads schemaEnv false (.dict .str anyNodeTy) x = .ok (attrOf c!"properties" vs)) ∨
        ((∀ x, ¬ Present kvs c!"properties" x) ∧ some Val.none = some (attrOf c!"properties" vs)) at a2
      change (∃ x, Present kvs c!"additionalProperties" x ∧ loads schemaEnv false .bool x = .ok (attrOf c!"additionalProperties" vs)) ∨
        ((∀ x, ¬ Present kvs c!"additionalProperties" x) ∧ some Val.none = some (attrOf c!"additionalProperties" vs)) at a3
      change (∃ x, Present kvs c!"required" x ∧ loads schemaEnv false (.list .str) x = .ok (attrOf c!"required" vs)) ∨
        ((∀ x, ¬ Present kvs c!"required" x) ∧ some Val.none = some (attrOf c!"required" vs)) at a4
      have ho : objectType kvs = true := by
        rcases a1 with ⟨x, hx, hl⟩ | ⟨_, h⟩
        · unfold objectType
          rw [hx.1, literal_read hl]
          rfl
        · cases h
      have h3 : truthValue (lookupKey c!"additionalProperties" kvs) = (attrOf c!"additionalProperties" vs).asBool := by
        rcases a3 with ⟨x, hx, hl⟩ | ⟨hx, h⟩
        · obtain ⟨b, rfl, hb⟩ := loads_bool_json hl
          rw [hx.1, hb]; rfl
        · rw [← Option.some.inj h]
          rcases not_present hx with h | h <;> rw [h] <;> rfl
      have h4 : textList (lookupKey c!"required" kvs) = textAttr (attrOf c!"required" vs) := by
        rcases a4 with ⟨x, hx, hl⟩ | ⟨hx, h⟩
        · have ht := C12_type_safe schemaEnv schemaEnv_ok schemaEnv_typed false _ _ _ hl
          generalize attrOf c!"required" vs = w at ht hl
          cases ht with
          | @list ws _ ht =>
            have e := texts_of (.list ht)
            rw [e] at hl
            rw [hx.1, loads_strs_json hl]
            exact congrArg some (texts_back _)
        · rw [← Option.some.inj h]
          rcases not_present hx with h | h <;> rw [h] <;> rfl
      have h2 : SameMembers (docProps kvs) (dictNodes (attrOf c!"properties" vs)) := by
        rw [docProps_eq]
        rcases a2 with ⟨x, hx, hl⟩ | ⟨hx, h⟩
        · have hxs := sizeOf_present hx
          have hxw := hpwf hx
          obtain ⟨xs, rfl⟩ := loads_dict_obj hl
          obtain ⟨hnd, hxw⟩ : (xs.map (·.1)).Nodup ∧ ∀ kv ∈ xs, kv.2.Wf := by cases hxw with | obj h1 h2 => exact ⟨h1, h2⟩
          obtain ⟨ws, hws, hall⟩ := loads_dict_json hnd hl
          rw [hx.1, hws]
          show All2 SameEntry (docNodes xs) (entryNodes ws)
          rw [docNodes_eq]
          have hall' := hall.imp_mem (S := fun x w => w.1 = Key.str x.1 ∧ SameNode (docNode x.2) (valNode w.2)) fun x hx w _ hl => by
            obtain ⟨c', hc', hl'⟩ := loads_anyNode hl.2
            have := sizeOf_obj hx
            exact ⟨hl.1, ih x.2 (by omega) (hxw x hx) c' (by omega) w.2 hl'⟩
          exact entries_same hall'
        · rw [← Option.some.inj h]
          rcases not_present hx with h | h <;> rw [h] <;> trivial
      rw [valNode_object hoc hcd hv]
      simp only [docNode, ho, if_true]
      rw [h3, h4]
      exact sameNode_object h2 (sameRecord_other hsame)
    · have h8 : c < 8 := by simp only [IsObjectClass, nTop] at hoc; omega
      have h6 : c ≠ nObject := fun h => hoc (.inl h)
      have ho : objectType kvs = false := by
        by_cases h0 : c = 0 ∨ c = 7
        · have hno : c!"type" ∉ cd.fields.map (fieldProp (.dataclass false)) := by
            rcases h0 with rfl | rfl <;> cases hcd <;> decide +kernel
          have : lookupKey c!"type" kvs = none := lookupKey_none_iff'.2 fun hm => by
            obtain ⟨kv, hkv, he⟩ := List.mem_map.1 hm
            rcases hkn with hkn | hkn
            · cases hkn
            · obtain ⟨f, hf, hp⟩ := hkn kv hkv
              rw [hh] at hf
              rw [hkind] at hp
              exact hno (List.mem_map.2 ⟨f, hf, hp.trans he⟩)
          unfold objectType
          rw [this]
        · obtain ⟨cd', qs, hcd', hf⟩ := node_typed (c := c) (by omega) (by simp only [nObject] at h6; omega)
          rw [hcd] at hcd'; cases hcd'
          have a1 := attr { name := c!"type", ty := .literal [.str (nodeTypeName c)] } (by rw [hf]; simp [typeFields])
          change (∃ x, Present kvs c!"type" x ∧ loads schemaEnv false (.literal [.str (nodeTypeName c)]) x = .ok (attrOf c!"type" vs)) ∨
            (_ ∧ none = some _) at a1
          rcases a1 with ⟨x, hx, hl⟩ | ⟨_, h⟩
          · unfold objectType
            rw [hx.1, literal_read hl]
            have : ∀ c < 8, c ≠ 6 → 1 ≤ c → c ≠ 7 → decide (nodeTypeName c = c!"object") = false := by decide +kernel
            exact this c h8 h6 (by omega) (by omega)
          · cases h
      rw [valNode_leaf h8 h6 hv, hw]
      simp only [docNode, ho]
      exact .leaf hsame.obj

/-! ### Flattening twice -/

theorem setAttr_twice (m : Str) (v w : Val) (vs : List (Str × Val)) : setAttr m v (setAttr m w vs) = setAttr m v vs := by
  induction vs with
  | nil => rfl
  | cons x vs ih =>
    obtain ⟨k, x⟩ := x
    simp only [setAttr]
    split
    · rename_i h; simp [setAttr, h]
    · rename_i h; simp [setAttr, h, ih]

theorem setAttr_comm {m n : Str} (h : m ≠ n) (v w : Val) (vs : List (Str × Val)) :
    setAttr m v (setAttr n w vs) = setAttr n w (setAttr m v vs) := by
  induction vs with
  | nil => rfl
  | cons x vs ih =>
    obtain ⟨k, x⟩ := x
    by_cases hm : k = m
    · subst hm; simp [setAttr, h]
    · by_cases hn : k = n
      · subst hn; simp [setAttr, hm]
      · simp [setAttr, hm, hn, ih]

theorem setNode_twice (st : List (Key × Val) × List Str) (vs : List (Str × Val)) : setNode st (setNode st vs) = setNode st vs := by
  unfold setNode
  rw [setAttr_comm (m := c!"properties") (n := c!"required") (by decide), setAttr_comm (m := c!"properties") (n := c!"additionalProperties") (by decide),
    setAttr_twice, setAttr_comm (m := c!"additionalProperties") (n := c!"required") (by decide), setAttr_twice, setAttr_twice]

theorem written_inj {v w : Val} {t : Ty} (ht : NodeTy t) (hv : HasTy schemaEnv v t) (hw : HasTy schemaEnv w t)
    (h : writtenDoc v = writtenDoc w) : v = w := by
  obtain ⟨j, h1, h2⟩ := node_roundtrip ht hv
  obtain ⟨j', h3, h4⟩ := node_roundtrip ht hw
  rw [node_written ht hv] at h1
  rw [node_written ht hw] at h3
  cases h1; cases h3
  rw [h] at h2
  rw [h2] at h4
  cases h4; rfl

theorem orNone_inj {l l' : List α} (h : orNone l = orNone l') : l = l' := by
  rw [← orNone_getD l, h, orNone_getD]

theorem entries_inj {d d' : List (Key × Val)} (hd : TypedEntries d) (hd' : TypedEntries d') (h : entryNodes d = entryNodes d')
    (hl : ∀ n s, (n, s) ∈ entryNodes d → ¬ s.IsObject) : d = d' := by
  induction d generalizing d' with
  | nil => cases d' <;> first | rfl | cases h
  | cons kv d ih =>
    cases d' with
    | nil => cases h
    | cons kv' d' =>
      obtain ⟨⟨s, hs⟩, hv⟩ := hd _ (.head _)
      obtain ⟨⟨s', hs'⟩, hv'⟩ := hd' _ (.head _)
      obtain ⟨k, v⟩ := kv
      obtain ⟨k', v'⟩ := kv'
      simp only at hs hs' hv hv'
      subst hs; subst hs'
      simp only [entryNodes, List.map_cons, List.cons.injEq, Prod.mk.injEq, keyName] at h
      obtain ⟨⟨rfl, h1⟩, h2⟩ := h
      have hleaf : ∀ u : Val, HasTy schemaEnv u anyNodeTy → ¬ (valNode u).IsObject → valNode u = .leaf (writtenDoc u) := by
        intro u hu hno
        obtain ⟨c, hc, huc⟩ := anyNode_inv hu
        by_cases h6 : c = nObject
        · obtain ⟨cd, vs, hcd, rfl, -⟩ := written_node (Nat.lt_succ_of_lt hc) huc
          rw [valNode_object (.inl h6) hcd huc] at hno
          exact absurd trivial hno
        · exact valNode_leaf hc h6 huc
      have hno := hl s (valNode v) (.head _)
      have e1 := hleaf v hv hno
      have e2 := hleaf v' hv' (by rw [← h1]; exact hno)
      rw [e1, e2] at h1
      rw [written_inj .any hv hv' (SNode.leaf.inj h1)]
      rw [ih (fun kv h => hd kv (.tail _ h)) (fun kv h => hd' kv (.tail _ h)) h2 fun n s h => hl n s (.tail _ h)]

/-- Recursive flattening of an object a second time changes nothing if its tree does not change. -/
theorem flattenVal_twice (o : FlatOpts) (hr : o.recursive = true) {c : Nat} (hc : IsObjectClass c) {v : Val}
    (hv : HasTy schemaEnv v (.cls c)) (h : flatten o (flatten o (valNode v)) = flatten o (valNode v)) :
    flattenVal o (flattenVal o v) = flattenVal o v := by
  obtain ⟨cd, fs, hcd, rfl, hnames, hty, -⟩ := written_node (objectClass_lt hc) hv
  have t2 := attr_hasTy hnames (nodeClass_names hcd) hty (objectClass_fields hc hcd
    { name := c!"properties", ty := optTy (.dict .str anyNodeTy), fwd := true } (by simp [objectFields]))
  have h1 := flattenAttr_nodes o (textItems (attrOf c!"required" fs)) fs t2
  obtain ⟨hv', hn'⟩ := flattenVal_node o _ c hc hv
  obtain ⟨_, hn''⟩ := flattenVal_node o _ c hc hv'
  simp only [flattenVal] at hv' hn' hn'' ⊢
  generalize hst : flattenAttr o (textItems (attrOf c!"required" fs)) fs = st at *
  obtain ⟨cd', fs', hcd', he, hnames', hty', -⟩ := written_node (objectClass_lt hc) hv'
  cases he
  have t2' := attr_hasTy hnames' (nodeClass_names hcd') hty' (objectClass_fields hc hcd'
    { name := c!"properties", ty := optTy (.dict .str anyNodeTy), fwd := true } (by simp [objectFields]))
  have h2 := flattenAttr_nodes o (textItems (attrOf c!"required" (setNode st fs))) (setNode st fs) t2'
  generalize hst' : flattenAttr o (textItems (attrOf c!"required" (setNode st fs))) (setNode st fs) = st' at *
  obtain ⟨_, p, a, r, x, e1, e2⟩ := setNode_node hc hv h1.nodup h1.typed
  obtain ⟨_, p', a', r', x', e3, e4⟩ := setNode_node hc hv' h2.nodup h2.typed
  rw [hn', h, ← hn', e2] at hn''
  rw [e4] at hn''
  simp only [SNode.object.injEq] at hn''
  have g1 := orNone_inj hn''.1
  have g2 := orNone_inj hn''.2.2.1
  have g3 : st'.1 = st.1 := by
    refine (entries_inj h1.typed h2.typed g1.symm ?_).symm
    intro n s hm
    refine C37_no_nested o hr (valNode (.obj c fs)) n s ?_
    rw [← hn', e2]
    simpa [SNode.props, orNone_getD] using hm
  have : st' = st := Prod.ext g3 g2
  rw [this, setNode_twice]

/-! ### Paths -/

theorem SameNode.entry {o : FlatOpts} {s t : SNode} (h : SameNode s t) {p : List Str} {w : SNode} (hp : FlatEntry o t p w) :
    ∃ u, FlatEntry o s p u ∧ SameNode u w := by
  induction hp generalizing s with
  | @here l a r x n j hm =>
    cases h with
    | @some l0 _ _ _ x y h1 h2 h3 =>
      obtain ⟨q, hq, e, hs⟩ := (sameEntries_iff.2 ⟨h1, h2⟩).mem_right hm
      obtain ⟨q1, q2⟩ := q
      simp only at e hs
      subst e
      cases hs with
      | leaf hs => exact ⟨_, .here hq, .leaf hs⟩
  | @nested l a r x n c p v hr hm _ ih =>
    cases h with
    | @some l0 _ _ _ x y h1 h2 h3 =>
      obtain ⟨q, hq, e, hs⟩ := (sameEntries_iff.2 ⟨h1, h2⟩).mem_right hm
      obtain ⟨q1, q2⟩ := q
      simp only at e hs
      subst e
      obtain ⟨u, hu, hs'⟩ := ih hs
      exact ⟨u, .nested hr hq hu, hs'⟩
  | @one l a r x n l' a' r' x' m v hr hm hm' =>
    cases h with
    | @some l0 _ _ _ x y h1 h2 h3 =>
      obtain ⟨q, hq, e, hs⟩ := (sameEntries_iff.2 ⟨h1, h2⟩).mem_right hm
      obtain ⟨q1, q2⟩ := q
      simp only at e hs
      subst e
      cases hs with
      | some g1 g2 g3 =>
        obtain ⟨q', hq', e', hs'⟩ := (sameEntries_iff.2 ⟨g1, g2⟩).mem_right hm'
        obtain ⟨q1', q2'⟩ := q'
        simp only at e' hs'
        subst e'
        exact ⟨_, .one hr hq hq', hs'⟩

theorem SameNode.noCollision {o : FlatOpts} {s t : SNode} (h : SameNode s t) (hc : NoCollision o s) : NoCollision o t := by
  intro p q v w hp hq e
  obtain ⟨_, hp', _⟩ := h.entry hp
  obtain ⟨_, hq', _⟩ := h.entry hq
  exact hc p q _ _ hp' hq' e

mutual
theorem docNode_wf : ∀ (j : Json), j.Wf → (docNode j).Wf
  | .obj kvs, h => by
    have hk : ∀ kv ∈ kvs, kv.2.Wf := by cases h with | obj _ h => exact h
    have ih := docProps_wf kvs hk
    simp only [docNode]
    split
    · cases hp : docProps kvs with
      | none => exact .none
      | some l => exact .some (ih l hp).1 (ih l hp).2
    · exact .leaf
  | .null, _ | .bool _, _ | .int _, _ | .float _, _ | .str _, _ | .arr _, _ => .leaf
theorem docProps_wf : ∀ (kvs : List (Str × Json)), (∀ kv ∈ kvs, kv.2.Wf) → ∀ l, docProps kvs = some l →
    (l.map (·.1)).Nodup ∧ ∀ p ∈ l, p.2.Wf
  | [], _, l, h => by cases h
  | (k, x) :: r, hk, l, h => by
    have ih1 := docDict_wf x (hk _ (.head _))
    have ih2 := docProps_wf r fun kv h => hk kv (.tail _ h)
    simp only [docProps] at h
    split at h
    · exact ih1 l h
    · exact ih2 l h
theorem docDict_wf : ∀ (x : Json), x.Wf → ∀ l, docDict x = some l → (l.map (·.1)).Nodup ∧ ∀ p ∈ l, p.2.Wf
  | .obj kvs, hx, l, h => by
    obtain ⟨hn, hk⟩ : (kvs.map (·.1)).Nodup ∧ ∀ kv ∈ kvs, kv.2.Wf := by cases hx with | obj h1 h2 => exact ⟨h1, h2⟩
    have ih := docNodes_wf kvs hk
    simp only [docDict, Option.some.injEq] at h
    subst h
    refine ⟨?_, ih⟩
    rw [docNodes_eq]
    simpa [List.map_map, Function.comp_def] using hn
  | .null, _, _, h | .bool _, _, _, h | .int _, _, _, h | .float _, _, _, h | .str _, _, _, h | .arr _, _, _, h => by cases h
theorem docNodes_wf : ∀ (kvs : List (Str × Json)), (∀ kv ∈ kvs, kv.2.Wf) → ∀ p ∈ docNodes kvs, p.2.Wf
  | [], _, p, h => by simp [docNodes] at h
  | (k, x) :: r, hk, p, h => by
    have ih1 := docNode_wf x (hk _ (.head _))
    have ih2 := docNodes_wf r fun kv h => hk kv (.tail _ h)
    simp only [docNodes, List.mem_cons] at h
    rcases h with rfl | h
    · exact ih1
    · exact ih2 p h
end

theorem SameNode.wf : ∀ {s t : SNode}, SameNode s t → s.Wf → t.Wf := by
  intro s t h
  induction h with
  | leaf => intro _; exact .leaf
  | none => intro _; exact .none
  | @some l l' a r x y h1 h2 h3 ih =>
    intro hw
    cases hw with
    | some hn hm =>
      refine .some ?_ fun p hp => ?_
      · have : l'.map (·.1) = l.map (·.1) := h1.symm
        rw [this]; exact hn
      · obtain ⟨i, hi⟩ := List.getElem?_of_mem hp
        have hlen : l.length = l'.length := by simpa using congrArg List.length h1
        have hlt : i < l.length := by rw [hlen]; exact (List.getElem?_eq_some_iff.1 hi).1
        have hli := List.getElem?_eq_getElem hlt
        exact ih i _ p hli hi (hm _ (List.mem_of_getElem? hli))

end Verif
