import Verif.Spec.Seed
import Verif.Lemmas.Cache
import Verif.Lemmas.Relax
/-!
# Reading with another hash seed
-/
namespace Verif

variable {env : Env} {order : List Str → List Str}

theorem Env.Ok.reseed (h : env.Ok) (ho : SetOrder order) : (env.reseed order).Ok := ⟨h.keys, h.enums, h.fields, ho⟩

theorem reseed_back (env : Env) (order : List Str → List Str) : (env.reseed order).reseed env.setOrder = env := rfl

/-! ### The deserializer of a type can be created or not -/

theorem error_of_not_ambiguous (hk : env.Ok) {ts : List Ty} (ht : ∃ p, IsTag env ts p) {e : Err} :
    compile env (.union ts) = .error e ↔ e = .jsonType ∧ Ambiguous env ts := by
  obtain ⟨h1, h2⟩ := C23_ambiguous_iff env hk ts ht
  constructor
  · intro h
    by_cases ha : Ambiguous env ts
    · rw [h1.2 ha] at h; cases h; exact ⟨rfl, ha⟩
    · obtain ⟨d, hd⟩ := h2.2 ha
      rw [hd] at h; cases h
  · rintro ⟨rfl, ha⟩; exact h1.2 ha

mutual
theorem compile_error_reseed : ∀ {t : Ty} {env : Env} {order : List Str → List Str} {e : Err}, env.Ok → SetOrder order →
    compile env t = .error e → compile (env.reseed order) t = .error e
  | .list t, env, order, e, hk, ho, h => by
    simp only [compile] at h ⊢
    split at h
    · cases h
    · rename_i e' he; cases h; rw [compile_error_reseed hk ho he]
  | .set t, env, order, e, hk, ho, h => by
    simp only [compile] at h ⊢
    split at h
    · cases h
    · rename_i e' he; cases h; rw [compile_error_reseed hk ho he]
  | .dict k t, env, order, e, hk, ho, h => by
    simp only [compile] at h ⊢
    have hkey : checkKeyTy (env.reseed order) k = checkKeyTy env k := rfl
    rw [hkey]
    split at h
    · exact h
    · split at h
      · cases h
      · rename_i e' he; cases h; rw [compile_error_reseed hk ho he]
  | .tuple ts, env, order, e, hk, ho, h => by
    simp only [compile] at h ⊢
    split at h
    · cases h
    · rename_i e' he; cases h; rw [compileL_error_reseed hk ho he]
  | .annotated t ms, env, order, e, hk, ho, h => by
    simp only [compile] at h ⊢
    exact compile_error_reseed hk ho h
  | .union ts, env, order, e, hk, ho, h => by
    by_cases hd : discProps env ts = []
    · simp only [compile] at h ⊢
      rw [if_pos hd] at h
      rw [if_pos (show discProps (env.reseed order) ts = [] from hd)]
      split at h
      · cases h
      · rename_i e' he; cases h; rw [compileL_error_reseed hk ho he]
    · obtain ⟨p, hp⟩ := List.exists_mem_of_ne_nil _ hd
      have ht : ∃ p, IsTag env ts p := ⟨p, mem_discProps.1 hp⟩
      exact (error_of_not_ambiguous (env := env.reseed order) (hk.reseed ho) ht).2 ((error_of_not_ambiguous hk ht).1 h)
  | .literal ls, env, order, e, hk, ho, h => h
  | .enum _, env, order, e, hk, ho, h | .cls _, env, order, e, hk, ho, h => h
  | .bareList, env, order, e, hk, ho, h | .bareDict, env, order, e, hk, ho, h | .bareSet, env, order, e, hk, ho, h | .bareTuple, env, order, e, hk, ho, h => h
  | .none, env, order, e, hk, ho, h | .bool, env, order, e, hk, ho, h | .int, env, order, e, hk, ho, h | .float, env, order, e, hk, ho, h | .str, env, order, e, hk, ho, h | .bytes, env, order, e, hk, ho, h | .datetime, env, order, e, hk, ho, h | .date, env, order, e, hk, ho, h
  | .time, env, order, e, hk, ho, h | .timedelta, env, order, e, hk, ho, h | .uuid, env, order, e, hk, ho, h | .ipv4, env, order, e, hk, ho, h | .ipv6, env, order, e, hk, ho, h => by simp only [compile] at h; cases h
theorem compileL_error_reseed : ∀ {ts : List Ty} {env : Env} {order : List Str → List Str} {e : Err}, env.Ok → SetOrder order →
    compileL env ts = .error e → compileL (env.reseed order) ts = .error e
  | [], env, order, e, hk, ho, h => by simp only [compileL] at h; cases h
  | t :: ts, env, order, e, hk, ho, h => by
    simp only [compileL] at h ⊢
    split at h
    · rename_i e' he; cases h; rw [compile_error_reseed hk ho he]
    · rename_i d hd
      split at h
      · cases h
      · rename_i e' he
        cases h
        cases hc : compile (env.reseed order) t with
        | error e' =>
          have : compile env t = .error e' := compile_error_reseed (env := env.reseed order) (order := env.setOrder)
            (hk.reseed ho) hk.setOrder hc
          rw [hd] at this; cases this
        | ok d' => simp only; rw [compileL_error_reseed hk ho he]
end

theorem compile_error_iff_reseed (hk : env.Ok) (ho : SetOrder order) {t : Ty} {e : Err} :
    compile (env.reseed order) t = .error e ↔ compile env t = .error e :=
  ⟨fun h => compile_error_reseed (env := env.reseed order) (order := env.setOrder) (hk.reseed ho) hk.setOrder h,
    compile_error_reseed hk ho⟩

theorem supported_reseed (hk : env.Ok) (ho : SetOrder order) {t : Ty} : Supported (env.reseed order) t ↔ Supported env t := by
  unfold Supported
  constructor
  · rintro ⟨d, hd⟩
    cases hc : compile env t with
    | ok d' => exact ⟨d', rfl⟩
    | error e => rw [compile_error_reseed hk ho hc] at hd; cases hd
  · rintro ⟨d, hd⟩
    cases hc : compile (env.reseed order) t with
    | ok d' => exact ⟨d', rfl⟩
    | error e => rw [(compile_error_iff_reseed hk ho).1 hc] at hd; cases hd

/-! ### A deserializer does not consult the order -/

theorem setAdd_reseed (acc : List Val) (v : Val) : setAdd (env.reseed order) acc v = setAdd env acc v := by
  have hkind : ∀ c, (env.reseed order).kind c = env.kind c := fun _ => rfl
  simp only [setAdd, hashable_kind hkind, valEq_kind hkind]

theorem parseSetItems_reseed (d : Deser) : ∀ (acc : List Val) (fs : List (Deser → Res Val)),
    parseSetItems (env.reseed order) d acc fs = parseSetItems env d acc fs
  | _, [] => rfl
  | acc, f :: fs => by
    simp only [parseSetItems]
    cases f d with
    | error e => rfl
    | ok v =>
      simp only
      rw [setAdd_reseed]
      cases setAdd env acc v with
      | error e => rfl
      | ok acc' => exact parseSetItems_reseed d acc' fs

theorem parsePairs_reseed (k : KeyTy) (d : Deser) : ∀ (acc : List (Key × Val)) (fs : List (Str × Json × (Deser → Res Val))),
    parsePairs (env.reseed order) k d acc fs = parsePairs env k d acc fs
  | _, [] => rfl
  | acc, (s, _, f) :: fs => by
    simp only [parsePairs]
    have hkey : parseKey (env.reseed order) k s = parseKey env k s := rfl
    rw [hkey]
    cases parseKey env k s with
    | error e => rfl
    | ok key =>
      simp only
      cases f d with
      | error e => rfl
      | ok v => exact parsePairs_reseed k d _ fs

theorem parseRef_reseed (H : Heap) (raw : Json) (kids : Kids) (k : TKey) :
    parseRef (env.reseed order) H raw kids k = parseRef env H raw kids k := rfl

mutual
theorem parseD_reseed (H : Heap) (raw : Json) (kids : Kids) : ∀ d : Deser,
    parseD (env.reseed order) H raw kids d = parseD env H raw kids d
  | .list d => by simp only [parseD]
  | .dict k d => by
    simp only [parseD]
    cases kids with
    | obj fs => simp only [parseDictK, parsePairs_reseed]
    | _ => rfl
  | .set d => by
    simp only [parseD]
    cases kids with
    | arr fs => simp only [parseSetK, parseSetItems_reseed]
    | _ => rfl
  | .tuple ds => by simp only [parseD]
  | .union ds => by simp only [parseD]; exact parseU_reseed H raw kids ds
  | .tagged props table => by simp only [parseD]; rfl
  | .literal vals d => by simp only [parseD]; rw [parseD_reseed H raw kids d]
  | .ref k => by simp only [parseD]; rfl
  | .none | .bool | .int | .float | .str | .bytes | .datetime | .date | .time
  | .timedelta | .uuid | .ipv4 | .ipv6 => by simp only [parseD]
theorem parseU_reseed (H : Heap) (raw : Json) (kids : Kids) : ∀ ds : List Deser,
    parseU (env.reseed order) H raw kids ds = parseU env H raw kids ds
  | [] => by simp only [parseU]
  | d :: ds => by simp only [parseU]; rw [parseD_reseed H raw kids d, parseU_reseed H raw kids ds]
end

mutual
theorem parse_reseed (H : Heap) : ∀ (j : Json), parse (env.reseed order) H j = parse env H j
  | .arr xs => by
    funext d
    simp only [parse]
    rw [parseArr_reseed H xs, parseD_reseed]
  | .obj kvs => by
    funext d
    simp only [parse]
    rw [parseObj_reseed H kvs, parseD_reseed]
  | .null | .bool _ | .int _ | .float _ | .str _ => by
    funext d
    simp only [parse]
    rw [parseD_reseed]
theorem parseArr_reseed (H : Heap) : ∀ (xs : List Json), parseArr (env.reseed order) H xs = parseArr env H xs
  | [] => by simp only [parseArr]
  | x :: xs => by simp only [parseArr]; rw [parse_reseed H x, parseArr_reseed H xs]
theorem parseObj_reseed (H : Heap) : ∀ (kvs : List (Str × Json)), parseObj (env.reseed order) H kvs = parseObj env H kvs
  | [] => by simp only [parseObj]
  | (k, x) :: r => by simp only [parseObj]; rw [parse_reseed H x, parseObj_reseed H r]
end

/-! ### Unions with one tag -/

variable {good : Nat → Prop}

theorem order_eq (hk : env.Ok) (ho : SetOrder order) {ts : List Ty} (h : ∀ p q, IsTag env ts p → IsTag env ts q → p = q) :
    order (discProps env ts) = env.setOrder (discProps env ts) := by
  have hn := discProps_nodup hk ts
  have h' : ∀ p ∈ discProps env ts, ∀ q ∈ discProps env ts, p = q := fun p hp q hq => h p q (mem_discProps.1 hp) (mem_discProps.1 hq)
  have hp := (ho (discProps env ts)).trans (hk.setOrder _).symm
  have hp2 := hk.setOrder (discProps env ts)
  cases hd : discProps env ts with
  | nil => rw [hd] at hp hp2; rw [List.perm_nil.1 hp2] at hp ⊢; exact List.perm_nil.1 hp
  | cons a r =>
    cases r with
    | nil =>
      rw [hd] at hp hp2
      rw [List.perm_singleton.1 hp2] at hp ⊢
      exact List.perm_singleton.1 hp
    | cons b r =>
      rw [hd] at h' hn
      have : a = b := h' a (by simp) b (by simp)
      subst this
      simp at hn

theorem OneTagged.compile_eq (hk : env.Ok) (ho : SetOrder order) {t : Ty} (h : OneTagged env good t) :
    compile (env.reseed order) t = compile env t := by
  have hL : ∀ ts : List Ty, (∀ t ∈ ts, compile (env.reseed order) t = compile env t) →
      compileL (env.reseed order) ts = compileL env ts := by
    intro ts
    induction ts with
    | nil => intro _; simp only [compileL]
    | cons t ts ih =>
      intro h
      simp only [compileL]
      rw [h t (by simp), ih fun u hu => h u (by simp [hu])]
  induction h with
  | scalar h =>
    simp only [scalarTys, List.mem_cons, List.not_mem_nil, or_false] at h
    rcases h with rfl | rfl | rfl | rfl | rfl | rfl | rfl | rfl | rfl | rfl | rfl | rfl | rfl <;> simp only [compile]
  | literal => rfl
  | enum => rfl
  | annotated _ ih => simp only [compile]; exact ih
  | list _ ih => simp only [compile]; rw [ih]
  | set _ ih => simp only [compile]; rw [ih]
  | tuple _ ih => simp only [compile]; rw [hL _ ih]
  | @dict k t _ ih =>
    simp only [compile]
    rw [ih]
    rfl
  | cls _ => rfl
  | @union ts h1 _ ih =>
    simp only [compile]
    rw [hL _ ih]
    have e1 : discProps (env.reseed order) ts = discProps env ts := rfl
    have e2 : tagItems (env.reseed order) ts = tagItems env ts := by
      have e : (env.reseed order).setOrder (discProps (env.reseed order) ts) = env.setOrder (discProps env ts) := order_eq hk ho h1
      unfold tagItems
      rw [e]
      rfl
    have e3 : (env.reseed order).setOrder = order := rfl
    rw [e1, e2, e3, order_eq hk ho h1]

/-- Keys of enumerations and of the classes in `good`. -/
def GoodKey (env : Env) (good : Nat → Prop) (k : TKey) : Prop :=
  (∃ (e : Nat) (ed : EnumDef), env.enums[e]? = some ed ∧ k = ed.key) ∨ ∃ (c : Nat) (cd : ClassDef), good c ∧ env.classes[c]? = some cd ∧ k = cd.key

theorem tyKey_good {t : Ty} (h : OneTagged env good t) {k : TKey} (hk : tyKey env t = some k) : GoodKey env good k := by
  cases t with
  | cls c =>
    cases h with
    | scalar h => simp [scalarTys] at h
    | cls h =>
      simp only [tyKey, Option.map_eq_some_iff] at hk
      obtain ⟨cd, h1, h2⟩ := hk
      exact .inr ⟨c, cd, h, h1, h2.symm⟩
  | enum e =>
    simp only [tyKey, Option.map_eq_some_iff] at hk
    obtain ⟨ed, h1, h2⟩ := hk
    exact .inl ⟨e, ed, h1, h2.symm⟩
  | _ => cases hk

theorem OneTagged.refs (hk : env.Ok) {t : Ty} (h : OneTagged env good t) : ∀ {d : Deser}, compile env t = .ok d →
    d.Refs (GoodKey env good) := by
  have hL : ∀ ts : List Ty, (∀ t ∈ ts, ∀ {d : Deser}, compile env t = .ok d → d.Refs (GoodKey env good)) →
      ∀ {ds : List Deser}, compileL env ts = .ok ds → Deser.RefsL (GoodKey env good) ds := by
    intro ts h ds hds
    rw [compileL_ok] at hds
    rw [Deser.refsL_iff]
    intro d hd
    obtain ⟨t, ht, htd⟩ := hds.mem_right hd
    exact h t ht htd
  induction h with
  | scalar h =>
    intro d hd
    simp only [scalarTys, List.mem_cons, List.not_mem_nil, or_false] at h
    rcases h with rfl | rfl | rfl | rfl | rfl | rfl | rfl | rfl | rfl | rfl | rfl | rfl | rfl <;>
      (simp only [compile] at hd; cases hd; trivial)
  | @literal ls =>
    intro d hd
    simp only [compile] at hd
    cases ls with
    | nil => cases hd
    | cons l r =>
      simp only [compileLit] at hd
      split at hd
      · cases hl : litDeser env l with
        | error e => rw [hl] at hd; cases hd
        | ok d' =>
          rw [hl] at hd
          cases hd
          show d'.Refs _
          cases l with
          | enum e m =>
            simp only [litDeser] at hl
            split at hl
            · rename_i k hkey
              cases hl
              exact tyKey_good (good := good) .enum hkey
            · cases hl
          | _ => simp only [litDeser] at hl; cases hl; trivial
      · cases hd
  | @enum e =>
    intro d hd
    simp only [compile] at hd
    split at hd
    · rename_i k hkey
      cases hd
      exact tyKey_good (good := good) .enum hkey
    · cases hd
  | annotated _ ih => intro d hd; simp only [compile] at hd; exact ih hd
  | list _ ih | set _ ih =>
    intro d hd
    simp only [compile] at hd
    split at hd
    · rename_i d' hd'; cases hd; exact ih (d := d') hd'
    · cases hd
  | tuple _ ih =>
    intro d hd
    simp only [compile] at hd
    split at hd
    · rename_i d' hd'; cases hd; exact hL _ ih hd'
    · cases hd
  | dict _ ih =>
    intro d hd
    simp only [compile] at hd
    split at hd
    · cases hd
    · split at hd
      · rename_i d' hd'; cases hd; exact ih (d := d') hd'
      · cases hd
  | @cls c hc =>
    intro d hd
    simp only [compile] at hd
    split at hd
    · rename_i k hkey
      cases hd
      exact tyKey_good (.cls hc) hkey
    · cases hd
  | @union ts _ hm ih =>
    intro d hd
    by_cases ht : ∃ p, IsTag env ts p
    · obtain ⟨table, h1, _, h3⟩ := compile_tagged hk ht ⟨d, hd⟩
      rw [h1] at hd
      cases hd
      rintro ⟨p, l, k⟩ he
      obtain ⟨t, htm, _, _, hkey⟩ := (h3 p l k).1 he
      exact tyKey_good (hm t htm) hkey
    · have hd0 : discProps env ts = [] := by
        rw [List.eq_nil_iff_forall_not_mem]
        exact fun p hp => ht ⟨p, mem_discProps.1 hp⟩
      simp only [compile] at hd
      rw [if_pos hd0] at hd
      split at hd
      · rename_i d' hd'; cases hd; exact hL _ ih hd'
      · cases hd

theorem compileFields_eq (hk : env.Ok) (ho : SetOrder order) {cd : ClassDef}
    (h : ∀ f ∈ cd.hints, OneTagged env good (fieldTy cd.kind f)) :
    compileFields (env.reseed order) cd = compileFields env cd := by
  unfold compileFields
  refine mapRes_congr fun f hf => ?_
  simp only [compileField]
  rw [(h f hf).compile_eq hk ho]

theorem heap_reseed (hk : env.Ok) (ho : SetOrder order) (hg : FieldsSatisfy env good (OneTagged env good)) (s : Bool) :
    HeapAgree (GoodKey env good) (fullHeap env s) (fullHeap (env.reseed order) s) := by
  constructor
  · rintro k (⟨e, ed, he, rfl⟩ | ⟨c, cd, hgc, hc, rfl⟩)
    · rw [fullHeap_enum hk s he, fullHeap_enum (hk.reseed ho) s (show (env.reseed order).enums[e]? = some ed from he)]
    · rw [fullHeap_cls hk s hc, fullHeap_cls (hk.reseed ho) s (show (env.reseed order).classes[c]? = some cd from hc)]
      unfold classEntry
      rcases hg c cd hgc hc with h | h
      · simp [h]
      · rw [compileFields_eq hk ho h]
  · rintro k (⟨e, ed, he, rfl⟩ | ⟨c, cd, hgc, hc, rfl⟩) c' s' fds hH fd hfd
    · rw [fullHeap_enum hk s he] at hH; cases hH
    · rw [fullHeap_cls hk s hc] at hH
      unfold classEntry at hH
      rcases hg c cd hgc hc with h | h
      · simp [h] at hH
      · split at hH
        · cases hH
        · simp only [Option.some.injEq, Entry.cls.injEq] at hH
          obtain ⟨_, _, hH⟩ := hH
          split at hH
          · rename_i fds' hf
            cases hH
            obtain ⟨f, hfm, hff⟩ := ((mapRes_ok_iff _ _ _).1 hf).mem_right hfd
            simp only [compileField] at hff
            split at hff
            · rename_i d hd
              cases hff
              exact (h f hfm).refs hk hd
            · cases hff
          · cases hH

/-- Unions with at most one tag: the result is the same, whatever the order. -/
theorem OneTagged.read_eq (hk : env.Ok) (ho : SetOrder order) (hg : FieldsSatisfy env good (OneTagged env good)) {t : Ty}
    (h : OneTagged env good t) (s : Bool) (j : Json) : loads (env.reseed order) s t j = loads env s t j := by
  unfold loads
  rw [h.compile_eq hk ho]
  cases hd : compile env t with
  | error e => rfl
  | ok d =>
    simp only
    rw [parse_reseed, parse_agree (heap_reseed hk ho hg s) j d (h.refs hk hd)]

/-! ### Unions with several tags -/

theorem supported_of_ok {s : Bool} {t : Ty} {j : Json} {v : Val} (h : loads env s t j = .ok v) : Supported env t := by
  unfold loads at h
  split at h
  · cases h
  · rename_i d hd; exact ⟨d, hd⟩

theorem of_list_supported {t : Ty} (h : Supported env (.list t)) : Supported env t := by
  obtain ⟨d, h⟩ := h
  simp only [compile] at h
  split at h
  · rename_i d hd; exact ⟨d, hd⟩
  · cases h

theorem of_set_supported {t : Ty} (h : Supported env (.set t)) : Supported env t := by
  obtain ⟨d, h⟩ := h
  simp only [compile] at h
  split at h
  · rename_i d hd; exact ⟨d, hd⟩
  · cases h

theorem of_dict_supported {k : KeyTy} {t : Ty} (h : Supported env (.dict k t)) : Supported env t ∧ checkKeyTy env k = .ok () := by
  obtain ⟨d, h⟩ := h
  simp only [compile] at h
  split at h
  · cases h
  · rename_i hk
    split at h
    · rename_i d hd; exact ⟨⟨d, hd⟩, hk⟩
    · cases h

theorem of_tuple_supported {ts : List Ty} (h : Supported env (.tuple ts)) : ∀ t ∈ ts, Supported env t := by
  obtain ⟨d, h⟩ := h
  simp only [compile] at h
  split at h
  · rename_i ds hds
    intro t ht
    obtain ⟨d, _, hd⟩ := (compileL_ok.1 hds).mem_left ht
    exact ⟨d, hd⟩
  · cases h

/-- A class that reads some value is readable or has its own `from_json`. -/
theorem readable_of_read (hk : env.Ok) {s : Bool} {c : Nat} {j : Json} {v : Val} (h : loads env s (.cls c) j = .ok v) :
    ∃ cd, env.classes[c]? = some cd ∧ (cd.custom = true ∨ Readable env c cd) := by
  cases hc : env.classes[c]? with
  | none => simp only [loads, compile, tyKey, hc, Option.map_none] at h; cases h
  | some cd =>
    refine ⟨cd, rfl, ?_⟩
    cases hcu : cd.custom with
    | true => exact .inl rfl
    | false =>
      right
      cases hf : compileFields env cd with
      | error e =>
        rw [loads_of_compile (compile_cls hc), parse_ref] at h
        simp only [parseRef, fullHeap_cls hk s hc, classEntry, hcu, hf] at h
        cases hkj : kidsOf env (fullHeap env s) j <;> rw [hkj] at h <;> simp [parseCls] at h
      | ok fds =>
        refine ⟨hc, hcu, ?_, ?_⟩
        · intro hkind
          rw [loads_cls hk s hc hcu hf] at h
          cases hkj : kidsOf env (fullHeap env s) j with
          | obj fs =>
            rw [hkj] at h
            simp only [parseCls] at h
            split at h
            · cases h
            · split at h
              · simp only [createObj, hc, hkind] at h
                split at h
                · cases h
                · rename_i hne
                  simp only [true_and, Bool.not_eq_false] at hne
                  exact List.isEmpty_iff.1 hne
              · cases h
          | _ => rw [hkj] at h; cases h
        · intro f hfm
          obtain ⟨fd, _, hfd⟩ := ((mapRes_ok_iff _ _ _).1 hf).mem_left hfm
          simp only [compileField] at hfd
          split at hfd
          · rename_i d hd; exact ⟨d, hd⟩
          · cases hfd

theorem Readable.reseed (hk : env.Ok) (ho : SetOrder order) {c : Nat} {cd : ClassDef} (h : Readable env c cd) :
    Readable (env.reseed order) c cd :=
  ⟨h.cls, h.standard, h.typed, fun f hf => (supported_reseed hk ho).2 (h.fields f hf)⟩

variable {calm : Nat → Prop}

theorem readField_reseed {P : Ty → Prop} {s : Bool} {n : Nat}
    (ih : ∀ {t}, P t → ∀ {j : Json}, sizeOf j < n → j.Wf → ∀ v, loads env s t j = .ok v → loads (env.reseed order) s t j = .ok v)
    {kind : ClassKind} {f : FieldDef} (hf : P (fieldTy kind f))
    {kvs : List (Str × Json)} (hn : sizeOf (Json.obj kvs) < n + 1) (hw : (Json.obj kvs).Wf) {v : Val}
    (hv : readField env s kind f kvs = .ok v) : readField (env.reseed order) s kind f kvs = .ok v := by
  cases hw with
  | obj hnd hw =>
    unfold readField at hv ⊢
    cases hl : lookupKey (fieldProp kind f) kvs with
    | none => rw [hl] at hv; exact hv
    | some x =>
      rw [hl] at hv
      have hm := lookupKey_some_mem hl
      by_cases hx : x = .null
      · subst hx; exact hv
      · have hsz : sizeOf x < n := by
          have := sizeOf_value hm hn
          simp only at this
          omega
        have := ih hf hsz (hw _ hm) v (by cases x <;> first | exact hv | exact absurd rfl hx)
        cases x <;> first | exact this | exact absurd rfl hx

theorem cls_reseed (hk : env.Ok) (ho : SetOrder order) {P : Ty → Prop} (hp : FieldsSatisfy env calm P) {s : Bool} {n : Nat}
    (ih : ∀ {t}, P t → ∀ {j : Json}, sizeOf j < n → j.Wf → ∀ v, loads env s t j = .ok v → loads (env.reseed order) s t j = .ok v)
    {c : Nat} (hc : calm c) {j : Json} (hn : sizeOf j < n + 1) (hw : j.Wf) (v : Val) (hv : loads env s (.cls c) j = .ok v) :
    loads (env.reseed order) s (.cls c) j = .ok v := by
  obtain ⟨cd, hcd, h⟩ := readable_of_read hk hv
  rcases h with h | h
  · have hfj : cd.fromJson.isSome = true := by
      unfold ClassDef.custom at h
      split at h
      · cases h
      · exact h
    obtain ⟨f, hf⟩ := Option.isSome_iff_exists.1 hfj
    rw [loads_custom hk s hcd h hf] at hv
    rw [loads_custom (hk.reseed ho) s (show (env.reseed order).classes[c]? = some cd from hcd) h hf]
    exact hv
  · obtain ⟨kvs, vs, rfl, rfl, hall, hknown⟩ := (loads_cls_ok_iff hk s h j v).1 hv
    refine (loads_cls_ok_iff (hk.reseed ho) s (h.reseed hk ho) _ _).2 ⟨kvs, vs, rfl, rfl, ?_, hknown⟩
    rcases hp c cd hc hcd with h2 | h2
    · rw [h.standard] at h2; cases h2
    · exact hall.imp_mem fun f hf w _ hfw => ⟨hfw.1, readField_reseed ih (h2 f hf) hn hw hfw.2⟩

theorem sameType_of_supported {t : Ty} {ls : List Lit} (hl : t.litArgs = some ls) (h : Supported env t) : SameType ls := by
  have h' : Supported env (.literal ls) := by
    unfold Ty.litArgs at hl
    cases t with
    | literal ms => cases hl; exact h
    | annotated u ms =>
      simp only [Ty.unwrapAnn] at hl
      cases u <;> simp only [Option.some.injEq, reduceCtorEq] at hl
      subst hl
      obtain ⟨d, hd⟩ := h
      simp only [compile] at hd
      exact ⟨d, by simp only [compile]; exact hd⟩
    | _ => cases hl
  obtain ⟨d, hd⟩ := h'
  simp only [compile] at hd
  cases ls with
  | nil => cases hd
  | cons l r =>
    simp only [compileLit] at hd
    split at hd
    · rename_i hall
      refine ⟨l.ty, by simp, fun m hm => ?_⟩
      rcases List.mem_cons.1 hm with rfl | hm
      · rfl
      · exact ((sameTy_iff _ _).1 (List.all_eq_true.1 hall m hm)).symm
    · cases hd

/-- What one process reads, the other reads as the same value. -/
theorem seedproof_read (hk : env.Ok) (ho : SetOrder order) (hg : FieldsSatisfy env good (OneTagged env good))
    (hp : FieldsSatisfy env calm (Seedproof env good calm)) (s : Bool) : ∀ n {t}, Seedproof env good calm t → ∀ {j : Json}, sizeOf j < n → j.Wf →
    ∀ v, loads env s t j = .ok v → loads (env.reseed order) s t j = .ok v := by
  intro n
  induction n with
  | zero => intro t _ j hn; omega
  | succ n ihn =>
  intro t ht
  induction ht with
  | steady h1 => intro j _ _ v hv; rw [h1.read_eq hk ho hg]; exact hv
  | annotated _ ih => intro j hn hw v hv; exact ih hn hw v hv
  | @list t ht ih =>
    intro j hn hw v hv
    have hs := of_list_supported (supported_of_ok hv)
    obtain ⟨xs, vs, rfl, rfl, hall⟩ := (C15_list env s t hs j v).1 hv
    cases hw with
    | arr hw =>
      refine (C15_list _ s t ((supported_reseed hk ho).2 hs) _ _).2 ⟨xs, vs, rfl, rfl, ?_⟩
      exact hall.imp_mem fun x hx w _ hxw => ih (by have := List.sizeOf_lt_of_mem hx; simp at hn; omega) (hw x hx) w hxw
  | @set t ht ih =>
    intro j hn hw v hv
    have hs := of_set_supported (supported_of_ok hv)
    rw [loads_set_eq hs] at hv
    rw [loads_set_eq ((supported_reseed hk ho).2 hs)]
    cases j with
    | arr xs =>
      cases hw with
      | arr hw =>
        simp only at hv ⊢
        split at hv
        · rename_i vs hvs
          rw [setItems_relaxed (env := env) (env' := env.reseed order) (fun _ => rfl)
            (fun x hx => ih (by have := List.sizeOf_lt_of_mem hx; simp at hn; omega) (hw x hx)) hvs]
          exact hv
        · cases hv
    | _ => cases hv
  | @tuple ts ht ih =>
    intro j hn hw v hv
    have hs := of_tuple_supported (supported_of_ok hv)
    obtain ⟨xs, vs, rfl, rfl, h1, h2, h3⟩ := (C15_tuple env s ts hs j v).1 hv
    cases hw with
    | arr hw =>
      refine (C15_tuple _ s ts (fun t htm => (supported_reseed hk ho).2 (hs t htm)) _ _).2 ⟨xs, vs, rfl, rfl, h1, h2, ?_⟩
      intro i x t w hx hti hwi
      have hxm := List.mem_of_getElem? hx
      exact ih t (List.mem_of_getElem? hti) (by have := List.sizeOf_lt_of_mem hxm; simp at hn; omega) (hw x hxm) w (h3 i x t w hx hti hwi)
  | @dict k t ht ih =>
    intro j hn hw v hv
    obtain ⟨hs, hkey⟩ := of_dict_supported (supported_of_ok hv)
    have hw' := hw
    cases k with
    | str =>
      obtain ⟨kvs, out, rfl, rfl, hall⟩ := (C15_dict_str env s t hs j hw v).1 hv
      cases hw' with
      | obj hnd hw' =>
        refine (C15_dict_str _ s t ((supported_reseed hk ho).2 hs) _ hw _).2 ⟨kvs, out, rfl, rfl, ?_⟩
        exact hall.imp_mem fun x hx w _ hxw => ⟨hxw.1, ih (by have := sizeOf_value hx hn; omega) (hw' x hx) _ hxw.2⟩
    | enum e =>
      cases he : env.enums[e]? with
      | none => simp [checkKeyTy, he] at hkey
      | some ed =>
        have hed := hk.enums ed (List.mem_of_getElem? he)
        obtain ⟨kvs, out, rfl, rfl, hall⟩ := (C15_dict_enum env s e ed he hed t (supported_of_ok hv) j hw v).1 hv
        cases hw' with
        | obj hnd hw' =>
          refine (C15_dict_enum (env.reseed order) s e ed he hed t ((supported_reseed hk ho).2 (supported_of_ok hv)) _ hw _).2 ⟨kvs, out, rfl, rfl, ?_⟩
          exact hall.imp_mem fun x hx w _ hxw => ⟨hxw.1, ih (by have := sizeOf_value hx hn; omega) (hw' x hx) _ hxw.2⟩
    | int => cases hkey
    | other => cases hkey
  | cls hc => intro j hn hw v hv; exact cls_reseed hk ho hp ihn hc hn hw v hv
  | @tagged ts h1 h2 h3 =>
    intro j hn hw v hv
    obtain ⟨kvs, c, p, x, l, rfl, hc, hpt, hx, _, _, hvc⟩ := C22_never_other env hk s ts h1 j v hv
    obtain ⟨_, cd, f, he, hcd, hf, hfn, _⟩ := hpt.2 _ hc
    cases he
    obtain ⟨cd', hcd', hr⟩ := readable_of_read hk hvc
    rw [hcd] at hcd'; cases hcd'
    have hr : Readable env c cd := by
      rcases hr with hr | hr
      · rw [(h3 p c cd f hpt hc hcd hf hfn).1] at hr; cases hr
      · exact hr
    refine union_of_member (env := env.reseed order) (hk.reseed ho) ((supported_reseed hk ho).2 (supported_of_ok hv)) (hr.reseed hk ho) hc ?_ ⟨p, x, hpt, hx⟩
      (cls_reseed hk ho hp ihn (h2 c hc) hn hw v hvc)
    intro q g hq hg hgn
    obtain ⟨_, h5, h6⟩ := h3 q c cd g hq hc hcd hg hgn
    refine ⟨h5, fun ls hls => ⟨?_, fun e m => h6 ls e m hls⟩⟩
    have := hr.fields g hg
    rw [litArgs_required hls] at this
    exact sameType_of_supported hls this

/-! ### The conditions do not depend on the order -/

theorem OneTagged.reseed {t : Ty} (h : OneTagged env good t) : OneTagged (env.reseed order) good t := by
  induction h with
  | scalar h => exact .scalar h
  | literal => exact .literal
  | enum => exact .enum
  | annotated _ ih => exact .annotated ih
  | list _ ih => exact .list ih
  | set _ ih => exact .set ih
  | tuple _ ih => exact .tuple ih
  | dict _ ih => exact .dict ih
  | cls h => exact .cls h
  | union h1 _ ih => exact .union h1 ih

theorem Seedproof.reseed {t : Ty} (h : Seedproof env good calm t) : Seedproof (env.reseed order) good calm t := by
  induction h with
  | steady h => exact .steady h.reseed
  | annotated _ ih => exact .annotated ih
  | list _ ih => exact .list ih
  | set _ ih => exact .set ih
  | tuple _ ih => exact .tuple ih
  | dict _ ih => exact .dict ih
  | cls h => exact .cls h
  | tagged h1 h2 h3 => exact .tagged h1 h2 h3

theorem FieldsSatisfy.reseed {P Q : Ty → Prop} (h : FieldsSatisfy env good P) (hpq : ∀ t, P t → Q t) :
    FieldsSatisfy (env.reseed order) good Q :=
  fun c cd hc hcd => (h c cd hc hcd).imp id fun h f hf => hpq _ (h f hf)

end Verif
