import Verif.Props.C14_StaticDynamic
/-!
# Properties that hold between values and what is written for them

`GenInv env G` lists what has to be shown so that `G v j` holds whenever `j` is written for `v`, for any type.
-/
namespace Verif

theorem Val.sizeOf_mem_list {vs : List Val} {v : Val} (h : v ∈ vs) : sizeOf v < sizeOf (Val.list vs) := by
  have := List.sizeOf_lt_of_mem h; simp; omega
theorem Val.sizeOf_mem_set {vs : List Val} {v : Val} (h : v ∈ vs) : sizeOf v < sizeOf (Val.set vs) := by
  have := List.sizeOf_lt_of_mem h; simp; omega
theorem Val.sizeOf_mem_tuple {vs : List Val} {v : Val} (h : v ∈ vs) : sizeOf v < sizeOf (Val.tuple vs) := by
  have := List.sizeOf_lt_of_mem h; simp; omega
theorem Val.sizeOf_mem_dict {kvs : List (Key × Val)} {kv : Key × Val} (h : kv ∈ kvs) :
    sizeOf kv.2 < sizeOf (Val.dict kvs) := by
  have := List.sizeOf_lt_of_mem h
  obtain ⟨k, v⟩ := kv
  simp at this ⊢; omega
theorem Val.sizeOf_mem_obj {c : Nat} {fs : List (Str × Val)} {kv : Str × Val} (h : kv ∈ fs) :
    sizeOf kv.2 < sizeOf (Val.obj c fs) := by
  have := List.sizeOf_lt_of_mem h
  obtain ⟨k, v⟩ := kv
  simp at this ⊢; omega

theorem mem_insertByName {x y : Str × α} {l : List (Str × α)} : x ∈ insertByName y l ↔ x = y ∨ x ∈ l := by
  induction l with
  | nil => simp [insertByName]
  | cons z l ih =>
    simp only [insertByName]
    split
    · simp
    · simp [ih, or_left_comm]

theorem mem_sortByName {x : Str × α} {l : List (Str × α)} : x ∈ sortByName l ↔ x ∈ l := by
  induction l with
  | nil => simp [sortByName]
  | cons y l ih =>
    have : sortByName (y :: l) = insertByName y (sortByName l) := rfl
    rw [this, mem_insertByName, ih]; simp

/-- What has to be shown about a relation `G` between values and documents. -/
structure GenInv (env : Env) (G : Val → Json → Prop) : Prop where
  null : ∀ v, G v .null
  str : ∀ v s, G v (.str s)
  scalar : ∀ v s, v.scalar = some s → G v s.toJson
  arr : ∀ v js, (∀ j ∈ js, G v j) → G v (.arr js)
  obj : ∀ v kvs, (kvs.map (·.1)).Nodup → (∀ kv ∈ kvs, G v kv.2) → G v (.obj kvs)
  member : ∀ e m s, enumValue env e m = .ok s → G (.enum e m) s.toJson
  enum : ∀ ed ∈ env.enums, ∀ f e m j, ed.toJson = some f → f m = .ok j → G (.enum e m) j
  cls : ∀ cd ∈ env.classes, ∀ f v j, cd.toJson = some f → f v = .ok j → G v j
  listItem : ∀ vs w j, w ∈ vs → G w j → G (.list vs) j
  setItem : ∀ vs w j, w ∈ vs → G w j → G (.set vs) j
  tupleItem : ∀ vs w j, w ∈ vs → G w j → G (.tuple vs) j
  dictItem : ∀ kvs (kv : Key × Val) j, kv ∈ kvs → G kv.2 j → G (.dict kvs) j
  field : ∀ c fs (kv : Str × Val) j, kv ∈ fs → G kv.2 j → G (.obj c fs) j

section
variable {env : Env} {G : Val → Json → Prop} {raw : Val}

/-- All properties have the property and their names are distinct. -/
private def AccInv (H : Json → Prop) (acc : List (Str × Json)) : Prop := (acc.map (·.1)).Nodup ∧ ∀ kv ∈ acc, H kv.2

private theorem AccInv.upsert {H : Json → Prop} {acc : List (Str × Json)} (h : AccInv H acc) {s : Str} {j : Json} (hj : H j) :
    AccInv H (upsert s j acc) :=
  ⟨upsert_nodup h.1, fun kv hkv => (upsert_mem hkv).elim (fun h => h ▸ hj) (h.2 kv)⟩

private theorem genPairs_inv (hg : GenInv env G) {key : Key → Res Str} {t : Ty} :
    ∀ (fs : List (Key × (Ty → Res Json))) (acc : List (Str × Json)) (j : Json),
    (∀ f ∈ fs, ∀ j, f.2 t = .ok j → G raw j) → AccInv (G raw) acc → genPairs key t acc fs = .ok j → G raw j := by
  intro fs
  induction fs with
  | nil => intro acc j _ ha h; simp only [genPairs] at h; cases h; exact hg.obj _ _ ha.1 ha.2
  | cons f fs ih =>
    intro acc j hf ha h
    obtain ⟨k, f⟩ := f
    simp only [genPairs] at h
    split at h
    · cases h
    · split at h
      · cases h
      · rename_i x hx
        exact ih _ j (fun g hg => hf g (by simp [hg])) (ha.upsert (hf _ List.mem_cons_self x hx)) h

private theorem genProps_inv (hg : GenInv env G) {kind : ClassKind} {fs : List (Str × Val × (Ty → Res Json))}
    (hf : ∀ f ∈ fs, ∀ t j, f.2.2 t = .ok j → G raw j) : ∀ (fds : List FieldDef) (acc : List (Str × Json)) (j : Json),
    AccInv (G raw) acc → genProps kind fs acc fds = .ok j → G raw j := by
  intro fds
  induction fds with
  | nil => intro acc j ha h; simp only [genProps] at h; cases h; exact hg.obj _ _ ha.1 ha.2
  | cons fd fds ih =>
    intro acc j ha h
    simp only [genProps] at h
    split at h
    · cases h
    · rename_i v f hl
      split at h
      · exact ih acc j ha h
      · split at h
        · cases h
        · rename_i x hx
          exact ih _ j (ha.upsert (hf _ (lookupKey_some_mem hl) _ x hx)) h

private theorem genUntypedTuple_inv (hg : GenInv env G) {fs : List (Str × Val × (Ty → Res Json))}
    (hf : ∀ f ∈ fs, ∀ t j, f.2.2 t = .ok j → G raw j) : ∀ (fds : List FieldDef) (acc : List (Str × Json)) (j : Json),
    AccInv (G raw) acc → genUntypedTuple fs acc fds = .ok j → G raw j := by
  intro fds
  induction fds with
  | nil => intro acc j ha h; simp only [genUntypedTuple] at h; cases h; exact hg.obj _ _ ha.1 ha.2
  | cons fd fds ih =>
    intro acc j ha h
    simp only [genUntypedTuple] at h
    split at h
    · cases h
    · rename_i v f hl
      split at h
      · cases h
      · rename_i x hx
        exact ih _ j (ha.upsert (hf _ (lookupKey_some_mem hl) _ x hx)) h

private theorem genUntyped_inv (hg : GenInv env G) : ∀ (fs : List (Str × Val × (Ty → Res Json))) (acc : List (Str × Json)) (j : Json),
    (∀ f ∈ fs, ∀ t j, f.2.2 t = .ok j → G raw j) → AccInv (G raw) acc → genUntyped acc fs = .ok j → G raw j := by
  intro fs
  induction fs with
  | nil => intro acc j _ ha h; simp only [genUntyped] at h; cases h; exact hg.obj _ _ ha.1 ha.2
  | cons f fs ih =>
    intro acc j hf ha h
    obtain ⟨n, v, f⟩ := f
    have hf' : ∀ g ∈ fs, ∀ t j, g.2.2 t = .ok j → G raw j := fun g hg => hf g (by simp [hg])
    simp only [genUntyped] at h
    split at h
    · exact ih acc j hf' ha h
    · split at h
      · cases h
      · rename_i x hx
        exact ih _ j hf' (ha.upsert (hf _ List.mem_cons_self _ x hx)) h

private theorem genEnum_inv (hg : GenInv env G) {e : Nat} {j : Json} (h : genEnum env raw e = .ok j) : G raw j := by
  unfold genEnum at h
  split at h
  · rename_i ed e' m he
    split at h
    · rename_i f hf
      split at h
      · exact hg.enum ed (List.mem_of_getElem? he) f e' m j hf h
      · cases h
    · split at h
      · rename_i s hs; cases h; exact hg.member e' m s hs
      · cases h
  · cases h

private theorem genSame_inv (hg : GenInv env G) {j : Json} (h : genSame raw = .ok j) : G raw j := by
  unfold genSame at h
  split at h
  · rename_i s hs; cases h; exact hg.scalar raw s hs
  · cases h

private theorem arrOf_inv (hg : GenInv env G) {f : α → Res Json} {xs : List α} (hf : ∀ x ∈ xs, ∀ j, f x = .ok j → G raw j) {j : Json}
    (h : arrOf (mapRes f xs) = .ok j) : G raw j := by
  unfold arrOf at h
  split at h
  · rename_i js hjs
    cases h
    rw [mapRes_ok_iff] at hjs
    refine hg.arr _ _ fun x hx => ?_
    obtain ⟨a, ha, h1⟩ := hjs.mem_right hx
    exact hf a ha x h1
  · cases h

/-- Every function among the children gives results with the property. -/
private def KidsInv (H : Json → Prop) : VKids → Prop
  | .none => True
  | .seq fs => ∀ f ∈ fs, ∀ t j, f t = .ok j → H j
  | .dict fs => ∀ f ∈ fs, ∀ t j, f.2 t = .ok j → H j
  | .obj fs => ∀ f ∈ fs, ∀ t j, f.2.2 t = .ok j → H j

private theorem genCls_inv (hg : GenInv env G) {kids : VKids} (hk : KidsInv (G raw) kids) {c : Nat} {j : Json}
    (h : genCls env raw kids c = .ok j) : G raw j := by
  unfold genCls at h
  split at h
  · cases h
  · rename_i cd hcd
    split at h
    · rename_i f hf; exact hg.cls cd (List.mem_of_getElem? hcd) f raw j hf h
    · split at h
      · rename_i fs
        have he : AccInv (G raw) [] := ⟨by simp, by simp⟩
        split at h
        · exact genUntypedTuple_inv hg hk _ _ j he h
        · split at h
          · exact genUntyped_inv hg _ _ j (fun f hf => hk f (mem_sortByName.1 hf)) he h
          · exact genProps_inv hg hk _ _ j he h
        · exact genProps_inv hg hk _ _ j he h
      · cases h

private theorem genShape_inv (hg : GenInv env G) {kids : VKids} (hk : KidsInv (G raw) kids) {t : Ty} {j : Json}
    (h : genShape env raw kids t = .ok j) : G raw j := by
  have he : AccInv (G raw) [] := ⟨by simp, by simp⟩
  cases t <;> simp only [genShape] at h
  case none => cases h; exact hg.null _
  case bool | int | float | str => exact genSame_inv hg h
  case bytes | date | time | timedelta | uuid | ipv4 | ipv6 =>
    split at h
    · cases h; exact hg.str _ _
    · cases h
  case datetime =>
    split at h
    · split at h
      · cases h; exact hg.str _ _
      · cases h
    · cases h
  case bareList | bareSet | bareTuple =>
    cases kids <;> simp only at h <;> first | cases h | exact arrOf_inv hg (fun f hf j hj => hk f hf _ j hj) h
  case list | set =>
    cases kids <;> simp only at h <;> first | cases h | exact arrOf_inv hg (fun f hf j hj => hk f hf _ j hj) h
  case tuple ts =>
    cases kids <;> simp only at h <;> first | cases h |
      exact arrOf_inv hg (fun p hp j hj => hk p.2 (List.of_mem_zip hp).2 _ j hj) h
  case bareDict =>
    cases kids <;> simp only at h <;> first | cases h | exact genPairs_inv hg _ _ j (fun f hf j hj => hk f hf _ j hj) he h
  case dict k t =>
    cases kids <;> simp only at h <;> first | cases h | skip
    split at h
    · exact genPairs_inv hg _ _ j (fun f hf j hj => hk f hf _ j hj) he h
    · exact genPairs_inv hg _ _ j (fun f hf j hj => hk f hf _ j hj) he h
    · cases h
    · cases h
  case literal ls =>
    split at h
    · exact genEnum_inv hg h
    · cases h; exact hg.null _
    · exact genSame_inv hg h
  case enum e => exact genEnum_inv hg h
  case cls c => exact genCls_inv hg hk h
  case union | annotated => cases h

private theorem genD_inv (hg : GenInv env G) {kids : VKids} (hk : KidsInv (G raw) kids) :
    ∀ {t : Ty} {j : Json}, genD env raw kids t = .ok j → G raw j
  | .union ts, j, h => by
    simp only [genD] at h
    split at h
    · cases h
    · exact genShape_inv hg hk h
  | .annotated t _, j, h => by simp only [genD] at h; exact genD_inv hg hk h
  | .none, j, h | .bool, j, h | .int, j, h | .float, j, h | .str, j, h | .bytes, j, h | .datetime, j, h | .date, j, h
  | .time, j, h | .timedelta, j, h | .uuid, j, h | .ipv4, j, h | .ipv6, j, h | .bareList, j, h | .bareDict, j, h
  | .bareSet, j, h | .bareTuple, j, h | .list _, j, h | .dict _ _, j, h | .set _, j, h | .tuple _, j, h
  | .literal _, j, h | .enum _, j, h | .cls _, j, h => genShape_inv hg hk h

theorem GenInv.dumps (hg : GenInv env G) {t : Ty} {v : Val} {j : Json} (h : dumps env t v = .ok j) : G v j := by
  have key : ∀ n v t j, sizeOf v < n → gen env v t = .ok j → G v j := by
    intro n
    induction n with
    | zero => intro v t j hn; omega
    | succ n ih =>
      intro v t j hn h
      rw [gen_eq] at h
      refine genD_inv hg ?_ h
      cases v with
      | list vs =>
        simp only [vkids, genSeq_eq, KidsInv]
        intro f hf t j hj
        obtain ⟨v, hv, rfl⟩ := List.mem_map.1 hf
        exact hg.listItem _ _ _ hv (ih v t j (by have := Val.sizeOf_mem_list hv; omega) hj)
      | set vs =>
        simp only [vkids, genSeq_eq, KidsInv]
        intro f hf t j hj
        obtain ⟨v, hv, rfl⟩ := List.mem_map.1 hf
        exact hg.setItem _ _ _ hv (ih v t j (by have := Val.sizeOf_mem_set hv; omega) hj)
      | tuple vs =>
        simp only [vkids, genSeq_eq, KidsInv]
        intro f hf t j hj
        obtain ⟨v, hv, rfl⟩ := List.mem_map.1 hf
        exact hg.tupleItem _ _ _ hv (ih v t j (by have := Val.sizeOf_mem_tuple hv; omega) hj)
      | dict kvs =>
        simp only [vkids, genDict_eq, KidsInv]
        intro f hf t j hj
        obtain ⟨v, hv, rfl⟩ := List.mem_map.1 hf
        exact hg.dictItem _ _ _ hv (ih _ t j (by have := Val.sizeOf_mem_dict hv; omega) hj)
      | obj c fs =>
        simp only [vkids, genObj_eq, KidsInv]
        intro f hf t j hj
        obtain ⟨v, hv, rfl⟩ := List.mem_map.1 hf
        exact hg.field _ _ _ _ hv (ih _ t j (by have := Val.sizeOf_mem_obj (c := c) hv; omega) hj)
      | _ => trivial
  unfold Verif.dumps at h
  split at h
  · cases h
  · exact key _ v t j (Nat.lt_succ_self _) h

end

end Verif
