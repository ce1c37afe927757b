import Verif.Model.Serializer
import Verif.Lemmas.Core
/-!
# Equations of the serializer
-/
namespace Verif

/-- Children of a value. -/
def vkids (env : Env) : Val → VKids
  | .list vs | .set vs | .tuple vs => .seq (genSeq env vs)
  | .dict kvs => .dict (genDict env kvs)
  | .obj _ fs => .obj (genObj env fs)
  | _ => .none

theorem gen_eq (env : Env) (v : Val) (t : Ty) : gen env v t = genD env v (vkids env v) t := by
  cases v <;> rfl

theorem genSeq_eq (env : Env) (vs : List Val) : genSeq env vs = vs.map (gen env) := by
  induction vs with
  | nil => rfl
  | cons v vs ih => simp [genSeq, ih]

theorem genDict_eq (env : Env) (kvs : List (Key × Val)) : genDict env kvs = kvs.map fun kv => (kv.1, gen env kv.2) := by
  induction kvs with
  | nil => rfl
  | cons v vs ih => simp [genDict, ih]

theorem genObj_eq (env : Env) (fs : List (Str × Val)) : genObj env fs = fs.map fun kv => (kv.1, kv.2, gen env kv.2) := by
  induction fs with
  | nil => rfl
  | cons v vs ih => simp [genObj, ih]

theorem gen_union (env : Env) (v : Val) (ts : List Ty) : gen env v (.union ts) = objectToJson env v := by
  simp only [gen_eq, genD, objectToJson, dumps]
  cases serCreate env (typeOf v) with
  | error e => rfl
  | ok u => cases v <;> rfl

theorem gen_dyn (env : Env) (v : Val) : gen env v dynTy = objectToJson env v := gen_union env v []

theorem gen_list (env : Env) (vs : List Val) (t : Ty) :
    gen env (.list vs) (.list t) = arrOf (mapRes (fun v => gen env v t) vs) := by
  show arrOf (mapRes (fun f => f t) (genSeq env vs)) = _
  rw [genSeq_eq, mapRes_map]

theorem gen_set (env : Env) (vs : List Val) (t : Ty) :
    gen env (.set vs) (.set t) = arrOf (mapRes (fun v => gen env v t) vs) := by
  show arrOf (mapRes (fun f => f t) (genSeq env vs)) = _
  rw [genSeq_eq, mapRes_map]

theorem gen_tuple (env : Env) (vs : List Val) (ts : List Ty) :
    gen env (.tuple vs) (.tuple ts) = arrOf (mapRes (fun p => gen env p.2 p.1) (ts.zip vs)) := by
  show arrOf (mapRes (fun p => p.2 p.1) (ts.zip (genSeq env vs))) = _
  rw [genSeq_eq]
  have : ts.zip (vs.map (gen env)) = (ts.zip vs).map fun p => (p.1, gen env p.2) := by
    rw [List.zip_map_right]; rfl
  rw [this, mapRes_map]

theorem gen_dict_str (env : Env) (kvs : List (Key × Val)) (t : Ty) :
    gen env (.dict kvs) (.dict .str t) = genPairs keySelf t [] (kvs.map fun kv => (kv.1, gen env kv.2)) := by
  show genPairs keySelf t [] (genDict env kvs) = _
  rw [genDict_eq]

theorem gen_dict_enum (env : Env) (kvs : List (Key × Val)) (e : Nat) (t : Ty) :
    gen env (.dict kvs) (.dict (.enum e) t) = genPairs (keyValue env) t [] (kvs.map fun kv => (kv.1, gen env kv.2)) := by
  show genPairs (keyValue env) t [] (genDict env kvs) = _
  rw [genDict_eq]

/-- Dynamic serialization of containers. -/
theorem dyn_list (env : Env) (vs : List Val) :
    objectToJson env (.list vs) = arrOf (mapRes (objectToJson env) vs) := by
  show arrOf (mapRes (fun f => f dynTy) (genSeq env vs)) = _
  rw [genSeq_eq, mapRes_map, mapRes_congr fun v _ => gen_dyn env v]

theorem dyn_set (env : Env) (vs : List Val) :
    objectToJson env (.set vs) = arrOf (mapRes (objectToJson env) vs) := by
  show arrOf (mapRes (fun f => f dynTy) (genSeq env vs)) = _
  rw [genSeq_eq, mapRes_map, mapRes_congr fun v _ => gen_dyn env v]

theorem dyn_tuple (env : Env) (vs : List Val) :
    objectToJson env (.tuple vs) = arrOf (mapRes (objectToJson env) vs) := by
  show arrOf (mapRes (fun f => f dynTy) (genSeq env vs)) = _
  rw [genSeq_eq, mapRes_map, mapRes_congr fun v _ => gen_dyn env v]

theorem dyn_dict (env : Env) (kvs : List (Key × Val)) :
    objectToJson env (.dict kvs) =
      genPairs (untypedKey env (kvs.map fun kv => (kv.1, gen env kv.2))) dynTy [] (kvs.map fun kv => (kv.1, gen env kv.2)) := by
  show genPairs (untypedKey env (genDict env kvs)) dynTy [] (genDict env kvs) = _
  rw [genDict_eq]

theorem gen_annotated (env : Env) (v : Val) (t : Ty) (ms : List Meta) : gen env v (.annotated t ms) = gen env v t := by
  simp only [gen_eq, genD]

theorem gen_dyn_ok {env : Env} {v : Val} (h : serCreate env (typeOf v) = .ok ()) :
    objectToJson env v = gen env v (typeOf v) := by
  simp only [objectToJson, dumps, h]

theorem forRes_ok {f : α → Res Unit} {xs : List α} : forRes f xs = .ok () ↔ ∀ x ∈ xs, f x = .ok () := by
  induction xs with
  | nil => simp [forRes]
  | cons x xs ih =>
    simp only [forRes]
    cases h : f x with
    | error e => simp [h]
    | ok u => simp [h, ih]

theorem createWithL_ok {env : Env} {cls : Nat → Res Unit} {ts : List Ty} :
    createWithL env cls ts = .ok () ↔ ∀ t ∈ ts, createWith env cls t = .ok () := by
  induction ts with
  | nil => simp [createWithL]
  | cons x xs ih =>
    simp only [createWithL]
    cases h : createWith env cls x with
    | error e => simp [h]
    | ok u => simp [h, ih]

theorem createWith_mono {env : Env} {f g : Nat → Res Unit} (hfg : ∀ c, f c = .ok () → g c = .ok ()) :
    ∀ t, createWith env f t = .ok () → createWith env g t = .ok ()
  | .list t, h => by simp only [createWith] at h ⊢; exact createWith_mono hfg t h
  | .set t, h => by simp only [createWith] at h ⊢; exact createWith_mono hfg t h
  | .annotated t _, h => by simp only [createWith] at h ⊢; exact createWith_mono hfg t h
  | .dict k t, h => by
    cases k with
    | str => simp only [createWith] at h ⊢; exact createWith_mono hfg t h
    | enum e =>
      simp only [createWith] at h ⊢
      cases ht : createWith env f t with
      | error e => rw [ht] at h; cases h
      | ok u => rw [ht] at h; rw [createWith_mono hfg t ht]; exact h
    | int | other => simp [createWith] at h
  | .tuple ts, h => by
    simp only [createWith] at h ⊢
    rw [createWithL_ok] at h ⊢
    intro t ht
    exact createWith_mono hfg t (h t ht)
  | .cls c, h => hfg c h
  | .none, _ | .bool, _ | .int, _ | .float, _ | .str, _ | .bytes, _ | .datetime, _ | .date, _ | .time, _
  | .timedelta, _ | .uuid, _ | .ipv4, _ | .ipv6, _ | .bareList, _ | .bareSet, _ | .bareTuple, _ | .bareDict, _
  | .union _, _ => by simp [createWith]
  | .literal _, h => h
  | .enum _, h => h

theorem createCls_mono {env : Env} : ∀ (m n c : Nat), m ≤ n → createCls env m c = .ok () → createCls env n c = .ok () := by
  intro m
  induction m with
  | zero => intro n c _ h; simp [createCls] at h
  | succ m ih =>
    intro n c hmn h
    obtain ⟨n, rfl⟩ : ∃ k, n = k + 1 := ⟨n - 1, by omega⟩
    simp only [createCls] at h ⊢
    cases hc : env.classes[c]? with
    | none => rw [hc] at h; cases h
    | some cd =>
      rw [hc] at h
      simp only at h ⊢
      rw [forRes_ok] at h ⊢
      exact fun fd hfd => createWith_mono (fun c hc => ih n c (by omega) hc) _ (h fd hfd)

mutual
/-- If there is a serializer for an annotation with names of classes, then there is one for the annotation with the classes. -/
theorem createWith_seenFwd {env : Env} {cls : Nat → Res Unit} {b : Bool} : ∀ t, createWith env cls (t.seenFwd b) = .ok () →
    createWith env cls t = .ok ()
  | .list t, h => by simp only [Ty.seenFwd, createWith] at h ⊢; exact createWith_seenFwd t h
  | .set t, h => by simp only [Ty.seenFwd, createWith] at h ⊢; exact createWith_seenFwd t h
  | .annotated t _, h => by simp only [Ty.seenFwd, createWith] at h ⊢; exact createWith_seenFwd t h
  | .dict k t, h => by
    cases k with
    | str => simp only [Ty.seenFwd, createWith] at h ⊢; exact createWith_seenFwd t h
    | enum e => simp [Ty.seenFwd, createWith] at h
    | int | other => simp [Ty.seenFwd, createWith] at h
  | .tuple ts, h => by simp only [Ty.seenFwd, createWith] at h ⊢; exact createWithL_seenFwd ts h
  | .enum e, h => by cases b <;> simp_all [Ty.seenFwd, createWith, litsUniform]
  | .cls e, h => by cases b <;> simp_all [Ty.seenFwd, createWith, litsUniform]
  | .none, _ | .bool, _ | .int, _ | .float, _ | .str, _ | .bytes, _ | .datetime, _ | .date, _ | .time, _
  | .timedelta, _ | .uuid, _ | .ipv4, _ | .ipv6, _ | .bareList, _ | .bareSet, _ | .bareTuple, _ | .bareDict, _
  | .union _, _ => by simp [createWith]
  | .literal _, h => h
theorem createWithL_seenFwd {env : Env} {cls : Nat → Res Unit} {b : Bool} : ∀ ts, createWithL env cls (Ty.seenFwdL b ts) = .ok () →
    createWithL env cls ts = .ok ()
  | [], _ => rfl
  | t :: ts, h => by
    simp only [Ty.seenFwdL, createWithL] at h ⊢
    cases ht : createWith env cls (t.seenFwd b) with
    | error e => rw [ht] at h; cases h
    | ok u => rw [ht] at h; rw [createWith_seenFwd t ht]; exact createWithL_seenFwd ts h
end

theorem createWith_seen {env : Env} {cls : Nat → Res Unit} {kind : ClassKind} {f : FieldDef}
    (h : createWith env cls (f.seen kind) = .ok ()) : createWith env cls f.ty = .ok () := by
  unfold FieldDef.seen at h
  split at h
  · split at h
    · exact createWith_seenFwd _ h
    · exact h
  · exact h

theorem seen_of_plain {kind : ClassKind} {f : FieldDef} (h : f.fwd = false) : f.seen kind = f.ty := by
  unfold FieldDef.seen
  rw [h]
  split <;> simp

/-- A class whose serializer can be created has serializers for all its fields. -/
theorem serCreate_field {env : Env} {c : Nat} {cd : ClassDef} (hc : env.classes[c]? = some cd)
    (h : serCreate env (.cls c) = .ok ()) {fd : FieldDef} (hfd : fd ∈ cd.serFields) : serCreate env fd.ty = .ok () := by
  simp only [serCreate, createWith] at h ⊢
  cases hn : env.classes.length with
  | zero => rw [hn] at h; simp [createCls] at h
  | succ n =>
    rw [hn] at h
    simp only [createCls, hc] at h
    exact createWith_mono (fun c hc => createCls_mono n (n + 1) c (by omega) hc) _ (createWith_seen (forRes_ok.1 h fd hfd))

theorem serCreate_list {env : Env} {t : Ty} : serCreate env (.list t) = serCreate env t := by simp [serCreate, createWith]
theorem serCreate_set {env : Env} {t : Ty} : serCreate env (.set t) = serCreate env t := by simp [serCreate, createWith]
theorem serCreate_annotated {env : Env} {t : Ty} {ms : List Meta} : serCreate env (.annotated t ms) = serCreate env t := by
  simp [serCreate, createWith]
theorem serCreate_tuple {env : Env} {ts : List Ty} :
    serCreate env (.tuple ts) = .ok () ↔ ∀ t ∈ ts, serCreate env t = .ok () := by
  simp only [serCreate, createWith]; exact createWithL_ok
theorem serCreate_union {env : Env} {ts : List Ty} : serCreate env (.union ts) = .ok () := by simp [serCreate, createWith]
theorem serCreate_dict {env : Env} {k : KeyTy} {t : Ty} (h : serCreate env (.dict k t) = .ok ()) :
    serCreate env t = .ok () := by
  simp only [serCreate] at h ⊢
  cases k with
  | str => simpa only [createWith] using h
  | enum e =>
    simp only [createWith] at h
    cases ht : createWith env (createCls env env.classes.length) t with
    | error e => rw [ht] at h; cases h
    | ok u => rfl
  | int | other => simp [createWith] at h

/-- What the fields of an object give: nothing for `None`, otherwise a property. -/
inductive WritesFields (env : Env) (kind : ClassKind) : List FieldDef → List (Str × Val) → List (Str × Json) → Prop
  | nil : WritesFields env kind [] [] []
  | skip {fd fds fs ps} : WritesFields env kind fds fs ps → WritesFields env kind (fd :: fds) ((fd.name, .none) :: fs) ps
  | put {fd fds w fs x ps} : w ≠ .none → gen env w fd.ty = .ok x → WritesFields env kind fds fs ps →
      WritesFields env kind (fd :: fds) ((fd.name, w) :: fs) ((writeProp kind fd, x) :: ps)

theorem WritesFields.names {env : Env} {kind : ClassKind} {fds : List FieldDef} {fs : List (Str × Val)}
    {ps : List (Str × Json)} (h : WritesFields env kind fds fs ps) : fs.map Prod.fst = fds.map FieldDef.name := by
  induction h <;> simp_all

theorem WritesFields.props {env : Env} {kind : ClassKind} {fds : List FieldDef} {fs : List (Str × Val)}
    {ps : List (Str × Json)} (h : WritesFields env kind fds fs ps) :
    (ps.map Prod.fst).Sublist (fds.map (writeProp kind)) := by
  induction h with
  | nil => exact .refl _
  | skip _ ih => exact .cons _ ih
  | put _ _ _ ih => exact .cons₂ _ ih

theorem Val.isNone_iff (v : Val) : v.isNone = true ↔ v = .none := by cases v <;> simp [Val.isNone]

theorem genProps_acc {env : Env} {kind : ClassKind} {all : List (Str × Val)} (hd : (all.map Prod.fst).Nodup) :
    ∀ (fds : List FieldDef) (fs : List (Str × Val)) (acc : List (Str × Json)) (j : Json),
      fs.map Prod.fst = fds.map FieldDef.name → (∀ kv ∈ fs, kv ∈ all) →
      (acc.map Prod.fst ++ fds.map (writeProp kind)).Nodup →
      (genProps kind (genObj env all) acc fds = .ok j ↔ ∃ ps, j = .obj (acc ++ ps) ∧ WritesFields env kind fds fs ps) := by
  intro fds
  induction fds with
  | nil =>
    intro fs acc j hn _ _
    have : fs = [] := by simpa using hn
    subst this
    simp only [genProps]
    constructor
    · intro h; cases h; exact ⟨[], by simp, .nil⟩
    · rintro ⟨ps, rfl, h⟩; cases h; simp
  | cons fd fds ih =>
    intro fs acc j hn hall hp
    cases fs with
    | nil => simp at hn
    | cons kv fs =>
      obtain ⟨name, w⟩ := kv
      simp only [List.map_cons, List.cons.injEq] at hn
      obtain ⟨rfl, hn⟩ := hn
      have hl : lookupKey fd.name (genObj env all) = some (w, gen env w) := by
        rw [genObj_eq, lookupKey_map (fun v => (v, gen env v)) fd.name all,
          lookupKey_of_mem hd (hall _ List.mem_cons_self)]
        rfl
      have hall' : ∀ kv ∈ fs, kv ∈ all := fun kv h => hall kv (by simp [h])
      simp only [genProps, hl]
      by_cases hw : w = .none
      · subst hw
        have hp' : (acc.map Prod.fst ++ fds.map (writeProp kind)).Nodup := by
          refine List.Nodup.sublist ?_ hp
          exact List.Sublist.append (.refl _) (by simp)
        rw [if_pos (by rfl), ih fs acc j hn hall' hp']
        constructor
        · rintro ⟨ps, h1, h2⟩; exact ⟨ps, h1, .skip h2⟩
        · rintro ⟨ps, h1, h2⟩
          cases h2 with
          | skip h2 => exact ⟨ps, h1, h2⟩
          | put h3 => exact absurd rfl h3
      · rw [if_neg (by rw [Val.isNone_iff]; exact hw)]
        cases hg : gen env w fd.ty with
        | error e =>
          simp only [reduceCtorEq, false_iff]
          rintro ⟨ps, _, h2⟩
          cases h2 with
          | skip h2 => exact hw rfl
          | put _ h3 _ => rw [hg] at h3; cases h3
        | ok x =>
          have hfresh : writeProp kind fd ∉ acc.map Prod.fst := by
            rw [List.nodup_append] at hp
            exact fun h => hp.2.2 _ h _ List.mem_cons_self rfl
          simp only
          rw [upsert_of_not_mem hfresh, ih fs _ j hn hall' (by simpa using hp)]
          constructor
          · rintro ⟨ps, rfl, h2⟩; exact ⟨(writeProp kind fd, x) :: ps, by simp, .put hw hg h2⟩
          · rintro ⟨ps, rfl, h2⟩
            cases h2 with
            | skip h2 => exact absurd rfl hw
            | put _ h3 h2 =>
              rw [hg] at h3; cases h3
              exact ⟨_, by simp, h2⟩

/-- The output of `TypedClassSerializer` if names of fields and of properties are distinct. -/
theorem genProps_iff {env : Env} {kind : ClassKind} {fds : List FieldDef} {fs : List (Str × Val)}
    (hn : fs.map Prod.fst = fds.map FieldDef.name) (hd : (fds.map FieldDef.name).Nodup)
    (hp : (fds.map (writeProp kind)).Nodup) (j : Json) :
    genProps kind (genObj env fs) [] fds = .ok j ↔ ∃ ps, j = .obj ps ∧ WritesFields env kind fds fs ps := by
  have := genProps_acc (env := env) (kind := kind) (all := fs) (by rw [hn]; exact hd) fds fs [] j hn (fun _ h => h)
    (by simpa using hp)
  simpa using this

end Verif
