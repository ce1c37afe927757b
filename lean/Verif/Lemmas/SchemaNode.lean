import Verif.Model.SchemaNode
import Verif.Lemmas.ClassRead
import Verif.Props.C21_Union
/-!
# What the schema of a node says

`Denotes n j`: the JSON schema `j` has the keywords that the node `n` shows.  Reading a schema gives a node that denotes it.
-/
namespace Verif

mutual
/-- The schema has the keywords that the node shows. -/
def Denotes : TNode → Json → Prop
  | .ref r, j => ∃ kvs, j = .obj kvs ∧ lookupKey c!"$ref" kvs = some (.str r)
  | .bool c _, j => ∃ kvs, j = .obj kvs ∧ lookupKey c!"type" kvs = some (.str c!"boolean") ∧
      ∀ b, c = some b → lookupKey c!"const" kvs = some (.bool b)
  | .int _ c _ _ _ _, j => ∃ kvs, j = .obj kvs ∧ lookupKey c!"type" kvs = some (.str c!"integer") ∧
      ∀ i, c = some i → ∃ x, lookupKey c!"const" kvs = some x ∧ parseInt x = .ok (.int i)
  | .num _ _ _ _ _ _, j => ∃ kvs, j = .obj kvs ∧ lookupKey c!"type" kvs = some (.str c!"number")
  | .str f c _ e _, j => ∃ kvs, j = .obj kvs ∧ lookupKey c!"type" kvs = some (.str c!"string") ∧
      (∀ s, f = some s → lookupKey c!"format" kvs = some (.str s)) ∧
      (∀ s, c = some s → lookupKey c!"const" kvs = some (.str s)) ∧
      ∀ vs, e = some vs → lookupKey c!"enum" kvs = some (.arr (vs.map Json.str))
  | .arr n, j => ∃ kvs x, j = .obj kvs ∧ lookupKey c!"type" kvs = some (.str c!"array") ∧
      lookupKey c!"items" kvs = some x ∧ Denotes n x
  | .obj Option.none _ _, j => ∃ kvs, j = .obj kvs ∧ lookupKey c!"type" kvs = some (.str c!"object")
  | .obj (some ps) a r, j => ∃ kvs xs, j = .obj kvs ∧ lookupKey c!"type" kvs = some (.str c!"object") ∧
      lookupKey c!"properties" kvs = some (.obj xs) ∧ DenotesD ps xs ∧
      (∀ b, a = some b → lookupKey c!"additionalProperties" kvs = some (.bool b)) ∧
      ∀ rs, r = some rs → lookupKey c!"required" kvs = some (.arr (rs.map Json.str))
  | .oneOf ns, j => ∃ kvs xs, j = .obj kvs ∧ lookupKey c!"oneOf" kvs = some (.arr xs) ∧ DenotesL ns xs
/-- Member by member. -/
def DenotesL : List TNode → List Json → Prop
  | [], [] => True
  | n :: ns, j :: js => Denotes n j ∧ DenotesL ns js
  | _, _ => False
/-- Property by property, under the same names. -/
def DenotesD : List (Str × TNode) → List (Str × Json) → Prop
  | [], [] => True
  | (k, n) :: ns, (l, j) :: js => k = l ∧ Denotes n j ∧ DenotesD ns js
  | _, _ => False
end

theorem denotesL_iff {ns : List TNode} {js : List Json} : DenotesL ns js ↔ All2 Denotes ns js := by
  induction ns generalizing js with
  | nil => cases js <;> simp [DenotesL]; exact .nil; intro h; cases h
  | cons n ns ih =>
    cases js with
    | nil => simp [DenotesL]; intro h; cases h
    | cons j js =>
      simp only [DenotesL, ih]
      exact ⟨fun h => .cons h.1 h.2, fun h => by cases h with | cons h1 h2 => exact ⟨h1, h2⟩⟩

theorem denotesD_iff {ns : List (Str × TNode)} {js : List (Str × Json)} :
    DenotesD ns js ↔ All2 (fun n j => n.1 = j.1 ∧ Denotes n.2 j.2) ns js := by
  induction ns generalizing js with
  | nil => cases js <;> simp [DenotesD]; exact .nil; intro h; cases h
  | cons n ns ih =>
    cases js with
    | nil => simp [DenotesD]; intro h; cases h
    | cons j js =>
      simp only [DenotesD, ih, ← and_assoc]
      exact ⟨fun h => .cons h.1 h.2, fun h => by cases h with | cons h1 h2 => exact ⟨h1, h2⟩⟩

/-! ### The program of schema nodes -/

theorem schemaEnv_ok : schemaEnv.Ok where
  keys := by decide +kernel
  enums := by intro ed h; cases h
  fields := by decide +kernel
  setOrder := fun l => List.Perm.refl l

theorem schemaEnv_untagged : Untagged schemaEnv [.cls 0, .cls 1, .cls 2, .cls 3, .cls 4, .cls 5, .cls 6, .cls 7] := by
  rw [← discProps_nil_iff]; with_unfolding_all rfl

theorem schemaEnv_readable (c : Nat) (cd : ClassDef) (h : schemaEnv.classes[c]? = some cd) : Readable schemaEnv c cd := by
  have hs : ∀ cd ∈ schemaEnv.classes, ∀ f ∈ cd.hints, ((compile schemaEnv (fieldTy cd.kind f)).isOk : Bool) = true := by
    decide +kernel
  refine ⟨h, ?_, ?_, ?_⟩
  · have : ∀ cd ∈ schemaEnv.classes, cd.custom = false := by decide +kernel
    exact this cd (List.mem_of_getElem? h)
  · have : ∀ cd ∈ schemaEnv.classes, cd.kind ≠ .namedTuple false := by decide +kernel
    exact fun hk => absurd hk (this cd (List.mem_of_getElem? h))
  · intro f hf
    have := hs cd (List.mem_of_getElem? h) f hf
    unfold Supported
    cases hc : compile schemaEnv (fieldTy cd.kind f) with
    | ok d => exact ⟨d, rfl⟩
    | error e => rw [hc] at this; cases this

/-! ### Attributes that have been read -/

/-- The attributes of an object of class `c` were read from the properties `kvs`. -/
def ReadFrom (c : Nat) (kvs : List (Str × Json)) (vs : List (Str × Val)) : Prop :=
  ∃ cd, schemaEnv.classes[c]? = some cd ∧
    All2 (fun f w => w.1 = f.name ∧ readField schemaEnv false cd.kind f kvs = .ok w.2) cd.hints vs

theorem loads_node {c : Nat} {j : Json} {v : Val} (hc : c < 9) (h : loads schemaEnv false (.cls c) j = .ok v) :
    ∃ kvs vs, j = .obj kvs ∧ v = .obj c vs ∧ ReadFrom c kvs vs := by
  have hlt : c < schemaEnv.classes.length := hc
  have hcd : schemaEnv.classes[c]? = some schemaEnv.classes[c] := List.getElem?_eq_getElem hlt
  obtain ⟨kvs, vs, h1, h2, h3, _⟩ := (loads_cls_ok_iff schemaEnv_ok false (schemaEnv_readable _ _ hcd) j v).1 h
  exact ⟨kvs, vs, h1, h2, _, hcd, h3⟩

theorem all2_lookup {kvs : List (Str × Json)} {kind : ClassKind} {hs : List FieldDef} {vs : List (Str × Val)}
    (h : All2 (fun f w => w.1 = f.name ∧ readField schemaEnv false kind f kvs = .ok w.2) hs vs) {f : FieldDef}
    (hf : hs.find? (fun g => g.name = f.name) = some f) :
    ∃ w, lookupKey f.name vs = some w ∧ readField schemaEnv false kind f kvs = .ok w := by
  induction h with
  | nil => cases hf
  | @cons g w hs vs h1 _ ih =>
    rw [List.find?_cons] at hf
    split at hf
    · rename_i he
      cases hf
      obtain ⟨wn, w⟩ := w
      simp only at h1
      obtain ⟨rfl, h2⟩ := h1
      exact ⟨w, by simp [lookupKey], h2⟩
    · rename_i he
      obtain ⟨w', h3, h4⟩ := ih hf
      refine ⟨w', ?_, h4⟩
      obtain ⟨wn, w⟩ := w
      simp only at h1
      obtain ⟨rfl, _⟩ := h1
      simp only [lookupKey]
      rw [if_neg (by simpa using he)]
      exact h3

/-- An attribute of type `Optional[T]` under its own name. -/
theorem ReadFrom.opt {c : Nat} {kvs : List (Str × Json)} {vs : List (Str × Val)} (h : ReadFrom c kvs vs) (name : Str) (t : Ty)
    (hf : ∀ cd, schemaEnv.classes[c]? = some cd →
      ∃ fw, cd.kind = .dataclass false ∧ fieldToProperty name Option.none = name ∧ (optTy t).required = t ∧
        cd.hints.find? (fun g => g.name = name) = some { name := name, ty := optTy t, fwd := fw }) :
    ∃ w, attrOf name vs = w ∧ (w = .none ∨ ∃ x, lookupKey name kvs = some x ∧ loads schemaEnv false t x = .ok w) := by
  obtain ⟨cd, hcd, ha⟩ := h
  obtain ⟨fw, hk, hp, ht, hfd⟩ := hf cd hcd
  obtain ⟨w, hw, hr⟩ := all2_lookup ha (f := { name := name, ty := optTy t, fwd := fw }) hfd
  refine ⟨w, by simp only at hw; simp [attrOf, hw], ?_⟩
  have e1 : fieldProp cd.kind { name := name, ty := optTy t, fwd := fw } = name := by rw [hk]; exact hp
  have e2 : fieldTy cd.kind { name := name, ty := optTy t, fwd := fw } = t := by rw [hk]; exact ht
  have e3 : absentValue cd.kind { name := name, ty := optTy t, fwd := fw } = some .none := by
    rw [hk]
    have : (optTy t).isOptional = true := by simp [Ty.isOptional, Ty.unwrapAnn, Ty.unionArgs, Ty.isNone]
    simp [absentValue, this]
  unfold readField at hr
  rw [e1, e2, e3] at hr
  split at hr
  · cases hr; exact .inl rfl
  · cases hr; exact .inl rfl
  · rename_i x _ hx; exact .inr ⟨x, hx, hr⟩

/-- A required attribute. -/
theorem ReadFrom.req {c : Nat} {kvs : List (Str × Json)} {vs : List (Str × Val)} (h : ReadFrom c kvs vs) (f : FieldDef)
    (prop : Str) (hf : ∀ cd, schemaEnv.classes[c]? = some cd →
      cd.kind = .dataclass false ∧ fieldProp (.dataclass false) f = prop ∧ f.ty.isOptional = false ∧ f.dflt = .missing ∧
        cd.hints.find? (fun g => g.name = f.name) = some f) :
    ∃ w x, lookupKey f.name vs = some w ∧ lookupKey prop kvs = some x ∧ loads schemaEnv false f.ty x = .ok w := by
  obtain ⟨cd, hcd, ha⟩ := h
  obtain ⟨hk, hp, ho, hd, hfd⟩ := hf cd hcd
  obtain ⟨w, hw, hr⟩ := all2_lookup ha hfd
  rw [hk] at hr
  have e3 : absentValue (.dataclass false) f = Option.none := by simp [absentValue, ho, hd]
  have e2 : fieldTy (.dataclass false) f = f.ty := by simp [fieldTy, Ty.required, ho]
  unfold readField at hr
  rw [hp, e2, e3] at hr
  split at hr
  · cases hr
  · cases hr
  · rename_i x _ hx; exact ⟨w, x, hw, hx, hr⟩

theorem loads_str_json {x : Json} {w : Val} (h : loads schemaEnv false .str x = .ok w) : ∃ s, x = .str s ∧ w = .str s := by
  cases x <;> cases h; exact ⟨_, rfl, rfl⟩

theorem loads_bool_json {x : Json} {w : Val} (h : loads schemaEnv false .bool x = .ok w) : ∃ s, x = .bool s ∧ w = .bool s := by
  cases x <;> cases h; exact ⟨_, rfl, rfl⟩

theorem loads_int_json {x : Json} {w : Val} (h : loads schemaEnv false .int x = .ok w) : parseInt x = .ok w := by
  cases x <;> exact h

theorem loads_list_json {env : Env} {skip : Bool} {t : Ty} {x : Json} {w : Val} (h : loads env skip (.list t) x = .ok w) :
    ∃ xs vs, x = .arr xs ∧ w = .list vs ∧ All2 (fun x v => loads env skip t x = .ok v) xs vs := by
  unfold loads at h
  simp only [compile] at h
  cases hd : compile env t with
  | error e => rw [hd] at h; cases h
  | ok d =>
    rw [hd] at h
    cases x with
    | arr xs =>
      simp only at h
      rw [parse_list_arr] at h
      split at h
      · rename_i vs hv
        cases h
        refine ⟨xs, vs, rfl, rfl, ((mapRes_ok_iff _ _ _).1 hv).imp ?_⟩
        intro a b hab
        rw [loads_of_compile hd]; exact hab
      · cases h
    | _ => simp only at h; rw [parse_eq] at h; cases h

theorem loads_dict_json {env : Env} {skip : Bool} {t : Ty} {kvs : List (Str × Json)} {w : Val} (hn : (kvs.map (·.1)).Nodup)
    (h : loads env skip (.dict .str t) (.obj kvs) = .ok w) :
    ∃ vs, w = .dict vs ∧ All2 (fun x v => v.1 = .str x.1 ∧ loads env skip t x.2 = .ok v.2) kvs vs := by
  unfold loads at h
  simp only [compile, checkKeyTy] at h
  cases hd : compile env t with
  | error e => rw [hd] at h; cases h
  | ok d =>
    rw [hd] at h
    simp only at h
    rw [parse_eq] at h
    simp only [parseD, kidsOf, parseDictK] at h
    split at h
    · rename_i out ho
      cases h
      have hn' : ((kvs.map fun p => (p.1, p.2, parse env (fullHeap env skip) p.2)).map (·.1)).Nodup := by
        rw [List.map_map]; exact hn
      obtain ⟨new, he, ha⟩ := (parsePairs_ok (env := env) (k := .str) (d := d) hn' (by simp)).1 ho
      rw [List.nil_append] at he
      subst he
      refine ⟨out, rfl, ((All2.map_left _).1 ha).imp ?_⟩
      rintro ⟨a, x⟩ ⟨b, y⟩ ⟨h1, h2⟩
      simp only [parseKey, Except.ok.injEq] at h1
      exact ⟨h1.symm, by rw [loads_of_compile hd]; exact h2⟩
    · cases h

theorem loads_dict_obj {env : Env} {skip : Bool} {t : Ty} {x : Json} {w : Val} (h : loads env skip (.dict .str t) x = .ok w) :
    ∃ kvs, x = .obj kvs := by
  unfold loads at h
  simp only [compile, checkKeyTy] at h
  cases hd : compile env t with
  | error e => rw [hd] at h; cases h
  | ok d =>
    rw [hd] at h
    cases x with
    | obj kvs => exact ⟨kvs, rfl⟩
    | _ => simp only at h; rw [parse_eq] at h; cases h

theorem loads_anyNode {j : Json} {v : Val} (h : loads schemaEnv false anyNodeTy j = .ok v) :
    ∃ c, c < 8 ∧ loads schemaEnv false (.cls c) j = .ok v := by
  have hs : ∀ t ∈ [Ty.cls 0, .cls 1, .cls 2, .cls 3, .cls 4, .cls 5, .cls 6, .cls 7], Supported schemaEnv t := by
    intro t ht
    simp only [List.mem_cons, List.not_mem_nil, or_false] at ht
    rcases ht with rfl | rfl | rfl | rfl | rfl | rfl | rfl | rfl <;> exact ⟨_, rfl⟩
  obtain ⟨pre, t, post, he, h1, _⟩ := (C21_ok_iff schemaEnv false _ schemaEnv_untagged hs j v).1 h
  have ht : t ∈ [Ty.cls 0, .cls 1, .cls 2, .cls 3, .cls 4, .cls 5, .cls 6, .cls 7] := by rw [he]; simp
  simp only [List.mem_cons, List.not_mem_nil, or_false] at ht
  rcases ht with rfl | rfl | rfl | rfl | rfl | rfl | rfl | rfl <;> exact ⟨_, by decide, h1⟩

theorem asList_str {w : Val} {ss : List Str} (h : w.asList Val.asStr = some ss) : w = .list (ss.map Val.str) := by
  cases w with
  | list vs =>
    simp only [Val.asList] at h
    congr 1
    induction vs generalizing ss with
    | nil => cases h; rfl
    | cons v vs ih =>
      simp only [allSome] at h
      split at h
      · cases h
      · rename_i s hs
        split at h
        · cases h
        · rename_i ss' hss
          cases h
          rw [ih hss]
          cases v <;> cases hs
          rfl
  | _ => cases h

theorem loads_strs_json {x : Json} {ss : List Str} (h : loads schemaEnv false (.list .str) x = .ok (.list (ss.map Val.str))) :
    x = .arr (ss.map Json.str) := by
  obtain ⟨xs, vs, rfl, he, ha⟩ := loads_list_json h
  cases he
  congr 1
  replace ha := (All2.map_right _).1 ha
  clear h
  induction ha with
  | nil => rfl
  | cons h _ ih =>
    obtain ⟨s, rfl, hs⟩ := loads_str_json h
    cases hs
    rw [ih]; rfl

theorem optAttr_some {α : Type} {f : Val → Option α} {w : Val} {a : α} (h : optAttr f w = some (some a)) : f w = some a := by
  unfold optAttr at h
  split at h
  · cases h
  · split at h
    · rename_i hf; cases h; exact hf
    · cases h

theorem asStr_some {w : Val} {s : Str} (h : w.asStr = some s) : w = .str s := by cases w <;> cases h; rfl
theorem asBool_some {w : Val} {s : Bool} (h : w.asBool = some s) : w = .bool s := by cases w <;> cases h; rfl
theorem asIntV_some {w : Val} {s : Int} (h : w.asIntV = some s) : w = .int s := by cases w <;> cases h; rfl

theorem lookup_toAttrs (name : Str) (vs : List (Str × Val)) : lookupKey name (toAttrs vs) = (lookupKey name vs).map toAttr := by
  induction vs with
  | nil => rfl
  | cons v vs ih =>
    obtain ⟨k, v⟩ := v
    simp only [toAttrs, lookupKey, ih]
    split <;> rfl

theorem nodeAttrOf_lookup {name : Str} {vs : List (Str × Val)} {w : Val} (h : lookupKey name vs = some w) :
    nodeAttrOf name (toAttrs vs) = toAttr w := by
  simp [nodeAttrOf, lookup_toAttrs, h]

theorem nodeAttrOf_attrOf {name : Str} {vs : List (Str × Val)} (h : attrOf name vs ≠ .none) :
    nodeAttrOf name (toAttrs vs) = toAttr (attrOf name vs) := by
  unfold attrOf at h ⊢
  cases hl : lookupKey name vs with
  | none => rw [hl] at h; exact absurd rfl h
  | some w => rw [nodeAttrOf_lookup hl]; rfl

/-- Shape of the fields of the node classes, by computation. -/
macro "node_opt" : tactic => `(tactic| (intro cd hcd; cases hcd; exact ⟨false, rfl, by decide, rfl, rfl⟩))

theorem ReadFrom.strAttr {c : Nat} {kvs : List (Str × Json)} {vs : List (Str × Val)} (h : ReadFrom c kvs vs) (name : Str)
    (hf : ∀ cd, schemaEnv.classes[c]? = some cd →
      ∃ fw, cd.kind = .dataclass false ∧ fieldToProperty name Option.none = name ∧ (optTy .str).required = .str ∧
        cd.hints.find? (fun g => g.name = name) = some { name := name, ty := optTy .str, fwd := fw })
    {a : Option Str} (ha : optAttr Val.asStr (attrOf name vs) = some a) :
    ∀ s, a = some s → lookupKey name kvs = some (.str s) := by
  rintro s rfl
  obtain ⟨w, hw, h1⟩ := h.opt name .str hf
  have hs := asStr_some (optAttr_some ha)
  rw [hw] at hs; subst hs
  rcases h1 with h1 | ⟨x, hx, hl⟩
  · cases h1
  · obtain ⟨s', rfl, he⟩ := loads_str_json hl
    cases he; exact hx

theorem ReadFrom.boolAttr {c : Nat} {kvs : List (Str × Json)} {vs : List (Str × Val)} (h : ReadFrom c kvs vs) (name : Str)
    (hf : ∀ cd, schemaEnv.classes[c]? = some cd →
      ∃ fw, cd.kind = .dataclass false ∧ fieldToProperty name Option.none = name ∧ (optTy .bool).required = .bool ∧
        cd.hints.find? (fun g => g.name = name) = some { name := name, ty := optTy .bool, fwd := fw })
    {a : Option Bool} (ha : optAttr Val.asBool (attrOf name vs) = some a) :
    ∀ s, a = some s → lookupKey name kvs = some (.bool s) := by
  rintro s rfl
  obtain ⟨w, hw, h1⟩ := h.opt name .bool hf
  have hs := asBool_some (optAttr_some ha)
  rw [hw] at hs; subst hs
  rcases h1 with h1 | ⟨x, hx, hl⟩
  · cases h1
  · obtain ⟨s', rfl, he⟩ := loads_bool_json hl
    cases he; exact hx

theorem ReadFrom.intAttr {c : Nat} {kvs : List (Str × Json)} {vs : List (Str × Val)} (h : ReadFrom c kvs vs) (name : Str)
    (hf : ∀ cd, schemaEnv.classes[c]? = some cd →
      ∃ fw, cd.kind = .dataclass false ∧ fieldToProperty name Option.none = name ∧ (optTy .int).required = .int ∧
        cd.hints.find? (fun g => g.name = name) = some { name := name, ty := optTy .int, fwd := fw })
    {a : Option Int} (ha : optAttr Val.asIntV (attrOf name vs) = some a) :
    ∀ i, a = some i → ∃ x, lookupKey name kvs = some x ∧ parseInt x = .ok (.int i) := by
  rintro s rfl
  obtain ⟨w, hw, h1⟩ := h.opt name .int hf
  have hs := asIntV_some (optAttr_some ha)
  rw [hw] at hs; subst hs
  rcases h1 with h1 | ⟨x, hx, hl⟩
  · cases h1
  · exact ⟨x, hx, loads_int_json hl⟩

theorem ReadFrom.strsAttr {c : Nat} {kvs : List (Str × Json)} {vs : List (Str × Val)} (h : ReadFrom c kvs vs) (name : Str)
    (hf : ∀ cd, schemaEnv.classes[c]? = some cd →
      ∃ fw, cd.kind = .dataclass false ∧ fieldToProperty name Option.none = name ∧
        (optTy (.list .str)).required = .list .str ∧
        cd.hints.find? (fun g => g.name = name) = some { name := name, ty := optTy (.list .str), fwd := fw })
    {a : Option (List Str)} (ha : optAttr (Val.asList Val.asStr) (attrOf name vs) = some a) :
    ∀ ss, a = some ss → lookupKey name kvs = some (.arr (ss.map Json.str)) := by
  rintro ss rfl
  obtain ⟨w, hw, h1⟩ := h.opt name (.list .str) hf
  have hs := asList_str (optAttr_some ha)
  rw [hw] at hs; subst hs
  rcases h1 with h1 | ⟨x, hx, hl⟩
  · cases h1
  · rw [loads_strs_json hl] at hx; exact hx

/-- The keyword `type`. -/
theorem ReadFrom.typeAttr {c : Nat} {kvs : List (Str × Json)} {vs : List (Str × Val)} (h : ReadFrom c kvs vs) (type : Str)
    (hf : ∀ cd, schemaEnv.classes[c]? = some cd → cd.kind = .dataclass false ∧
      cd.hints.find? (fun g => g.name = c!"type") = some { name := c!"type", ty := .literal [.str type] }) :
    lookupKey c!"type" kvs = some (.str type) := by
  obtain ⟨w, x, _, hx, hl⟩ := h.req { name := c!"type", ty := .literal [.str type] } c!"type" (by
    intro cd hcd
    obtain ⟨h1, h2⟩ := hf cd hcd
    exact ⟨h1, (by decide : fieldToProperty c!"type" Option.none = c!"type"), rfl, rfl, h2⟩)
  rw [hx]
  cases x with
  | str s =>
    have hl : (if litMem [.str type] (.str s) then Except.ok (.str s) else .error .jsonType) = Except.ok (ε := Err) w := hl
    split at hl
    · rename_i hm
      simp [litMem, Lit.scalar, Val.scalar, Scalar.pyEq] at hm
      rw [hm]
    · cases hl
  | _ => cases hl

theorem toNodes_all2 {vs : List Val} {ns : List TNode} (h : toNodes vs = some ns) :
    All2 (fun v n => toAttr v = .node n) vs ns := by
  induction vs generalizing ns with
  | nil => cases h; exact .nil
  | cons v vs ih =>
    simp only [toNodes] at h
    split at h
    · rename_i n ns' h1 h2; cases h; exact .cons h1 (ih h2)
    · cases h

theorem toNodeDict_all2 {kvs : List (Key × Val)} {ns : List (Str × TNode)} (h : toNodeDict kvs = some ns) :
    All2 (fun v n => v.1 = .str n.1 ∧ toAttr v.2 = .node n.2) kvs ns := by
  induction kvs generalizing ns with
  | nil => cases h; exact .nil
  | cons v kvs ih =>
    obtain ⟨k, v⟩ := v
    simp only [toNodeDict] at h
    split at h
    · rename_i s n ns' h1 h2; cases h; exact .cons ⟨rfl, h1⟩ (ih h2)
    · cases h

theorem toAttr_list {v : Val} {ns : List TNode} (h : toAttr v = .list ns) : ∃ vs, v = .list vs ∧ toNodes vs = some ns := by
  cases v with
  | list vs => simp only [toAttr] at h; split at h <;> cases h; exact ⟨vs, rfl, by assumption⟩
  | obj c fs => simp only [toAttr] at h; split at h <;> cases h
  | dict kvs => simp only [toAttr] at h; split at h <;> cases h
  | _ => cases h

theorem toAttr_dict {v : Val} {ns : List (Str × TNode)} (h : toAttr v = .dict ns) :
    ∃ vs, v = .dict vs ∧ toNodeDict vs = some ns := by
  cases v with
  | list vs => simp only [toAttr] at h; split at h <;> cases h
  | obj c fs => simp only [toAttr] at h; split at h <;> cases h
  | dict kvs => simp only [toAttr] at h; split at h <;> cases h; exact ⟨kvs, rfl, by assumption⟩
  | _ => cases h

theorem all2_trans {R : α → β → Prop} {S : β → γ → Prop} {T : α → γ → Prop} (h : ∀ a b c, R a b → S b c → T a c) :
    ∀ {as : List α} {bs : List β} {cs : List γ}, All2 R as bs → All2 S bs cs → All2 T as cs
  | _, _, _, .nil, .nil => .nil
  | _, _, _, .cons h1 h2, .cons h3 h4 => .cons (h _ _ _ h1 h3) (all2_trans h h2 h4)

/-- The nodes inside denote the schemas inside. -/
def Inside (size : Nat) : Prop :=
  ∀ j v n, sizeOf j < size → j.Wf → loads schemaEnv false anyNodeTy j = .ok v → toAttr v = .node n → Denotes n j

theorem denotes_dict {size : Nat} (ih : Inside size) {xs : List (Str × Json)} (hs : sizeOf xs < size)
    (hw : Json.Wf (.obj xs)) {w : Val} (hl : loads schemaEnv false (.dict .str anyNodeTy) (.obj xs) = .ok w)
    {ns : List (Str × TNode)} (hd : toAttr w = .dict ns) : DenotesD ns xs := by
  obtain ⟨vs, rfl, hd'⟩ := toAttr_dict hd
  replace hd := hd'
  cases hw with
  | obj hn hw =>
    obtain ⟨vs', he, ha⟩ := loads_dict_json hn hl
    cases he
    rw [denotesD_iff]
    refine All2.flip (All2.imp_mem (all2_trans (T := fun j n => n.1 = j.1 ∧ ∃ v, loads schemaEnv false anyNodeTy j.2 = .ok v ∧
      toAttr v = .node n.2) ?_ ha (toNodeDict_all2 hd)) ?_)
    · rintro ⟨k, j⟩ ⟨k', v⟩ ⟨k'', n⟩ ⟨h1, h2⟩ ⟨h3, h4⟩
      simp only at h1 h3 h2 h4 ⊢
      subst h1
      cases h3
      exact ⟨rfl, v, h2, h4⟩
    · rintro ⟨k, j⟩ hj ⟨k', n⟩ _ ⟨h1, v, h2, h3⟩
      refine ⟨h1, ih j v n ?_ (hw _ hj) h2 h3⟩
      have := List.sizeOf_lt_of_mem hj
      simp only [Prod.mk.sizeOf_spec] at this
      omega

theorem denotes_list {size : Nat} (ih : Inside size) {xs : List Json} (hs : sizeOf xs < size)
    (hw : Json.Wf (.arr xs)) {w : Val} (hl : loads schemaEnv false (.list anyNodeTy) (.arr xs) = .ok w)
    {ns : List TNode} (hd : toAttr w = .list ns) : DenotesL ns xs := by
  obtain ⟨vs, rfl, hd'⟩ := toAttr_list hd
  replace hd := hd'
  cases hw with
  | arr hw =>
    obtain ⟨xs', vs', he', he, ha⟩ := loads_list_json hl
    cases he; cases he'
    rw [denotesL_iff]
    refine All2.flip (All2.imp_mem (all2_trans (T := fun j n => ∃ v, loads schemaEnv false anyNodeTy j = .ok v ∧
      toAttr v = .node n) ?_ ha (toNodes_all2 hd)) ?_)
    · intro j v n h1 h2; exact ⟨v, h1, h2⟩
    · rintro j hj n _ ⟨v, h2, h3⟩
      refine ih j v n ?_ (hw _ hj) h2 h3
      have := List.sizeOf_lt_of_mem hj
      omega

theorem sizeOf_lookup {k : Str} {kvs : List (Str × Json)} {x : Json} (h : lookupKey k kvs = some x) : sizeOf x < sizeOf kvs := by
  have := List.sizeOf_lt_of_mem (lookupKey_some_mem h)
  simp only [Prod.mk.sizeOf_spec] at this
  omega

theorem optDict_some {v : Val} {a : NodeAttr} {ns : List (Str × TNode)} (h : optDict v a = some (some ns)) :
    v ≠ .none ∧ a = .dict ns := by
  unfold optDict at h
  split at h
  · cases h
  · rename_i hv; cases h; exact ⟨hv, rfl⟩
  · cases h

/-- A dictionary of nodes. -/
theorem ReadFrom.dictAttr {c : Nat} {kvs : List (Str × Json)} {vs : List (Str × Val)} (h : ReadFrom c kvs vs) (name : Str)
    (hf : ∀ cd, schemaEnv.classes[c]? = some cd →
      ∃ fw, cd.kind = .dataclass false ∧ fieldToProperty name Option.none = name ∧
        (optTy (.dict .str anyNodeTy)).required = .dict .str anyNodeTy ∧
        cd.hints.find? (fun g => g.name = name) = some { name := name, ty := optTy (.dict .str anyNodeTy), fwd := fw })
    {size : Nat} (ih : Inside size) (hs : sizeOf kvs ≤ size) (hw : ∀ kv ∈ kvs, Json.Wf kv.2)
    {a : Option (List (Str × TNode))} (ha : optDict (attrOf name vs) (nodeAttrOf name (toAttrs vs)) = some a) :
    ∀ ns, a = some ns → ∃ xs, lookupKey name kvs = some (.obj xs) ∧ DenotesD ns xs := by
  rintro ns rfl
  obtain ⟨h1, h2⟩ := optDict_some ha
  rw [nodeAttrOf_attrOf h1] at h2
  obtain ⟨w, hw1, h3⟩ := h.opt name (.dict .str anyNodeTy) hf
  rw [hw1] at h1 h2
  rcases h3 with h3 | ⟨x, hx, hl⟩
  · exact absurd h3 h1
  · obtain ⟨xs, rfl⟩ := loads_dict_obj hl
    have hlt := sizeOf_lookup hx
    have := hw _ (lookupKey_some_mem hx)
    refine ⟨xs, hx, denotes_dict ih ?_ this hl h2⟩
    simp only [Json.obj.sizeOf_spec] at hlt
    omega

/-- The object part of a node. -/
theorem objectNode_denotes {c : Nat} (hc : c = nObject ∨ c = nTop) {kvs : List (Str × Json)} {vs : List (Str × Val)}
    (h : ReadFrom c kvs vs) {size : Nat} (ih : Inside size) (hs : sizeOf kvs ≤ size) (hw : ∀ kv ∈ kvs, Json.Wf kv.2)
    {n : TNode} (hn : objectNode vs (toAttrs vs) = some n) : Denotes n (.obj kvs) := by
  unfold objectNode at hn
  split at hn
  · rename_i ps a r h1 h2 h3
    cases hn
    have ht : lookupKey c!"type" kvs = some (.str c!"object") := by
      refine h.typeAttr _ ?_
      rcases hc with rfl | rfl <;> (intro cd hcd; cases hcd; exact ⟨rfl, rfl⟩)
    cases ps with
    | none => exact ⟨kvs, rfl, ht⟩
    | some ps =>
      obtain ⟨xs, hx, hd⟩ := h.dictAttr c!"properties" (by
        rcases hc with rfl | rfl <;> (intro cd hcd; cases hcd; exact ⟨true, rfl, by decide, rfl, rfl⟩)) ih hs hw h1 ps rfl
      refine ⟨kvs, xs, rfl, ht, hx, hd, ?_, ?_⟩
      · exact h.boolAttr _ (by rcases hc with rfl | rfl <;> node_opt) h2
      · exact h.strsAttr _ (by rcases hc with rfl | rfl <;> node_opt) h3
  · cases hn

theorem inside_all (size : Nat) : Inside size := by
  induction size with
  | zero => intro j v n h; omega
  | succ size ih =>
    intro j v n hs hw hl hn
    obtain ⟨c, hc, hl⟩ := loads_anyNode hl
    obtain ⟨kvs, vs, rfl, rfl, hr⟩ := loads_node (by omega) hl
    have hsz : sizeOf kvs ≤ size := by simp only [Json.obj.sizeOf_spec] at hs; omega
    have hwf : ∀ kv ∈ kvs, Json.Wf kv.2 := by cases hw; assumption
    simp only [toAttr] at hn
    split at hn
    · rename_i n' hno
      cases hn
      have h8 : c = 0 ∨ c = 1 ∨ c = 2 ∨ c = 3 ∨ c = 4 ∨ c = 5 ∨ c = 6 ∨ c = 7 := by omega
      unfold nodeOf at hno
      rcases h8 with rfl | rfl | rfl | rfl | rfl | rfl | rfl | rfl
      · rw [if_pos (by decide)] at hno
        obtain ⟨w, x, hw1, hx, hl1⟩ := hr.req { name := c!"ref", ty := .annotated .str [.alias c!"$ref"] } c!"$ref" (by
          intro cd hcd; cases hcd; exact ⟨rfl, by decide, rfl, rfl, rfl⟩)
        simp only at hw1
        have hl2 : loads schemaEnv false .str x = .ok w := hl1
        obtain ⟨s, rfl, rfl⟩ := loads_str_json hl2
        simp [attrOf, hw1, Val.asStr] at hno
        subst hno
        exact ⟨kvs, rfl, hx⟩
      · rw [if_neg (by decide), if_pos (by decide)] at hno
        split at hno
        · rename_i a b h1 h2
          cases hno
          refine ⟨kvs, rfl, hr.typeAttr _ (by intro cd hcd; cases hcd; exact ⟨rfl, rfl⟩), hr.boolAttr _ (by node_opt) h1⟩
        · cases hno
      · rw [if_neg (by decide), if_neg (by decide), if_pos (by decide)] at hno
        split at hno
        · rename_i h0 h1 h2 h3 h4 h5
          cases hno
          refine ⟨kvs, rfl, hr.typeAttr _ (by intro cd hcd; cases hcd; exact ⟨rfl, rfl⟩), hr.intAttr _ (by node_opt) h1⟩
        · cases hno
      · rw [if_neg (by decide), if_neg (by decide), if_neg (by decide), if_pos (by decide)] at hno
        split at hno
        · cases hno
          exact ⟨kvs, rfl, hr.typeAttr _ (by intro cd hcd; cases hcd; exact ⟨rfl, rfl⟩)⟩
        · cases hno
      · rw [if_neg (by decide), if_neg (by decide), if_neg (by decide), if_neg (by decide), if_pos (by decide)] at hno
        split at hno
        · rename_i h0 h1 h2 h3 h4
          cases hno
          exact ⟨kvs, rfl, hr.typeAttr _ (by intro cd hcd; cases hcd; exact ⟨rfl, rfl⟩), hr.strAttr _ (by node_opt) h0,
            hr.strAttr _ (by node_opt) h1, hr.strsAttr _ (by node_opt) h3⟩
        · cases hno
      · rw [if_neg (by decide), if_neg (by decide), if_neg (by decide), if_neg (by decide), if_neg (by decide),
          if_pos (by decide)] at hno
        split at hno
        · rename_i n1 h1
          cases hno
          obtain ⟨w, x, hw1, hx, hl1⟩ := hr.req { name := c!"items", ty := anyNodeTy, strAnn := true } c!"items" (by
            intro cd hcd; cases hcd; exact ⟨rfl, by decide, rfl, rfl, rfl⟩)
          simp only at hw1 hl1
          rw [nodeAttrOf_lookup hw1] at h1
          have hlt := sizeOf_lookup hx
          exact ⟨kvs, x, rfl, hr.typeAttr _ (by intro cd hcd; cases hcd; exact ⟨rfl, rfl⟩), hx,
            ih x w n1 (by omega) (hwf _ (lookupKey_some_mem hx)) hl1 h1⟩
        · cases hno
      · rw [if_neg (by decide), if_neg (by decide), if_neg (by decide), if_neg (by decide), if_neg (by decide),
          if_neg (by decide), if_pos (by decide)] at hno
        exact objectNode_denotes (.inl rfl) hr ih hsz hwf hno
      · rw [if_neg (by decide), if_neg (by decide), if_neg (by decide), if_neg (by decide), if_neg (by decide),
          if_neg (by decide), if_neg (by decide), if_pos (by decide)] at hno
        split at hno
        · rename_i ns h1
          cases hno
          obtain ⟨w, x, hw1, hx, hl1⟩ := hr.req { name := c!"oneOf", ty := .list anyNodeTy, fwd := true } c!"oneOf" (by
            intro cd hcd; cases hcd; exact ⟨rfl, by decide, rfl, rfl, rfl⟩)
          simp only at hw1 hl1
          rw [nodeAttrOf_lookup hw1] at h1
          obtain ⟨xs, _, rfl, _, _⟩ := loads_list_json hl1
          have hlt := sizeOf_lookup hx
          simp only [Json.arr.sizeOf_spec] at hlt
          exact ⟨kvs, xs, rfl, hx, denotes_list ih (by omega) (hwf _ (lookupKey_some_mem hx)) hl1 h1⟩
        · cases hno
    · cases hn

/-- Reading a schema: the node shows keywords of the schema, and so do the nodes of the definitions. -/
theorem readTop_denotes {j : Json} {top : TopNode} (hw : j.Wf) (h : readTop j = .ok top) :
    Denotes top.node j ∧ ∃ kvs, j = .obj kvs ∧
      ∀ ds, top.definitions = some ds → ∃ xs, lookupKey c!"definitions" kvs = some (.obj xs) ∧ DenotesD ds xs := by
  unfold readTop at h
  split at h
  · cases h
  · rename_i v hv
    split at h
    · rename_i t ht
      cases h
      obtain ⟨kvs, vs, rfl, rfl, hr⟩ := loads_node (by decide) hv
      simp only [toTop] at ht
      rw [if_pos trivial] at ht
      have hwf : ∀ kv ∈ kvs, Json.Wf kv.2 := by cases hw; assumption
      split at ht
      · rename_i n ds h1 h2
        cases ht
        refine ⟨objectNode_denotes (.inr rfl) hr (inside_all _) (Nat.le_refl _) hwf h1, kvs, rfl, ?_⟩
        exact hr.dictAttr c!"definitions" (by node_opt) (inside_all _) (Nat.le_refl _) hwf h2
      · cases ht
    · cases h

end Verif
