import Verif.Lemmas.Duck
import Verif.Lemmas.JsonTypes
import Verif.Lemmas.Ser
/-!
# Lemmas for C81: comparison with the serializers of Serializer, and results that are JSON values
-/
namespace Verif

variable {py : Builtins} {env : Env}

/-- Either `b` is not modelled, or `a` is the same. -/
def Ref (a : Res Val) (b : Res Json) : Prop := b = .error .outOfModel ∨ a = (match b with | .error e => .error e | .ok j => .ok j.asVal)

theorem Ref.error {e : Err} : Ref (.error e) (.error e) := .inr rfl
theorem Ref.ok {j : Json} : Ref (.ok j.asVal) (.ok j) := .inr rfl
theorem Ref.out {a : Res Val} : Ref a (.error .outOfModel) := .inl rfl

theorem Ref.mapRes {α : Type} {f : α → Res Val} {g : α → Res Json} : ∀ {xs : List α}, (∀ x ∈ xs, Ref (f x) (g x)) →
    mapRes g xs = .error .outOfModel ∨ mapRes f xs = (match mapRes g xs with | .error e => .error e | .ok js => .ok (js.map Json.asVal)) := by
  intro xs
  induction xs with
  | nil => intro _; exact .inr rfl
  | cons x xs ih =>
    intro h
    rcases h x (by simp) with hx | hx
    · left; simp only [Verif.mapRes, hx]
    · rcases ih fun y hy => h y (by simp [hy]) with hr | hr
      · cases hg : g x with
        | error e =>
          right; rw [hg] at hx; simp only [Verif.mapRes, hx, hg]
        | ok j => left; simp only [Verif.mapRes, hg, hr]
      · right
        cases hg : g x with
        | error e => rw [hg] at hx; simp only [Verif.mapRes, hx, hg]
        | ok j =>
          rw [hg] at hx
          simp only [Verif.mapRes, hx, hg, hr]
          cases Verif.mapRes g xs <;> simp

theorem Ref.items {α : Type} {f : α → Res Val} {g : α → Res Json} {xs : List α} (h : ∀ x ∈ xs, Ref (f x) (g x)) :
    Ref (match Verif.mapRes f xs with | .error e => .error e | .ok rs => .ok (.list rs)) (arrOf (Verif.mapRes g xs)) := by
  rcases Ref.mapRes h with h | h
  · left; simp only [arrOf, h]
  · right; rw [h]; cases Verif.mapRes g xs with
    | error e => rfl
    | ok js => simp only [arrOf, Json.asVal, asVals_eq]

/-- Dictionaries with text keys. -/
def asPairs' (acc : List (Str × Json)) : List (Key × Val) := acc.map fun kv => (Key.str kv.1, kv.2.asVal)

theorem upsert_asPairs (s : Str) (j : Json) (acc : List (Str × Json)) :
    upsert (Key.str s) j.asVal (asPairs' acc) = asPairs' (upsert s j acc) := by
  induction acc with
  | nil => rfl
  | cons p acc ih =>
    obtain ⟨k, v⟩ := p
    simp only [asPairs', List.map_cons, upsert] at ih ⊢
    by_cases h : k = s
    · simp [h]
    · have : ¬ Key.str k = Key.str s := fun h' => h (by cases h'; rfl)
      simp only [if_neg h, if_neg this, List.map_cons, ih]

/-- An item of a loop, on both sides. -/
def RefItem (a : Res (Option (Key × Val))) (b : Res (Option (Str × Json))) : Prop :=
  b = .error .outOfModel ∨ a = (match b with | .error e => .error e | .ok none => .ok none | .ok (some p) => .ok (some (.str p.1, p.2.asVal)))

/-- The loops of Serializer in one form. -/
def gLoop {α : Type} (f : α → Res (Option (Str × Json))) : List (Str × Json) → List α → Res Json
  | acc, [] => .ok (.obj acc)
  | acc, x :: r => match f x with | .error e => .error e | .ok none => gLoop f acc r | .ok (some p) => gLoop f (upsert p.1 p.2 acc) r

theorem Ref.loop {α : Type} {f : α → Res (Option (Key × Val))} {g : α → Res (Option (Str × Json))} : ∀ {xs : List α} {acc : List (Str × Json)},
    (∀ x ∈ xs, RefItem (f x) (g x)) → Ref (wLoop f (asPairs' acc) xs) (gLoop g acc xs) := by
  intro xs
  induction xs with
  | nil =>
    intro acc _
    right
    simp only [wLoop, gLoop, Json.asVal, asPairs_eq, asPairs']
  | cons x xs ih =>
    intro acc h
    rcases h x (by simp) with hx | hx
    · left; simp only [gLoop, hx]
    · cases hg : g x with
      | error e => rw [hg] at hx; right; simp only [wLoop, gLoop, hx, hg]
      | ok o =>
        rw [hg] at hx
        cases o with
        | none =>
          simp only [wLoop, gLoop, hx, hg]
          exact ih fun y hy => h y (by simp [hy])
        | some p =>
          simp only [wLoop, gLoop, hx, hg]
          rw [upsert_asPairs]
          exact ih fun y hy => h y (by simp [hy])

/-- An item of `genPairs`. -/
def gPair (key : Key → Res Str) (t : Ty) (p : Key × (Ty → Res Json)) : Res (Option (Str × Json)) :=
  match key p.1 with | .error e => .error e | .ok s => match p.2 t with | .error e => .error e | .ok j => .ok (some (s, j))

theorem genPairs_loop {key : Key → Res Str} {t : Ty} : ∀ {fs : List (Key × (Ty → Res Json))} {acc : List (Str × Json)},
    genPairs key t acc fs = gLoop (gPair key t) acc fs := by
  intro fs
  induction fs with
  | nil => intro acc; rfl
  | cons p fs ih =>
    intro acc
    obtain ⟨k, f⟩ := p
    simp only [genPairs, gLoop, gPair]
    cases key k with
    | error e => rfl
    | ok s => cases f t with
      | error e => rfl
      | ok j => exact ih

/-- An item of `genProps`. -/
def gField (kind : ClassKind) (fs : List (Str × Val × (Ty → Res Json))) (fd : FieldDef) : Res (Option (Str × Json)) :=
  match lookupKey fd.name fs with
  | none => .error .attribute
  | some (v, f) => if v.isNone then .ok none else match f fd.ty with | .error e => .error e | .ok j => .ok (some (writeProp kind fd, j))

theorem genProps_loop {kind : ClassKind} {fs : List (Str × Val × (Ty → Res Json))} : ∀ {fds : List FieldDef} {acc : List (Str × Json)},
    genProps kind fs acc fds = gLoop (gField kind fs) acc fds := by
  intro fds
  induction fds with
  | nil => intro acc; rfl
  | cons fd fds ih =>
    intro acc
    simp only [genProps, gLoop, gField]
    cases lookupKey fd.name fs with
    | none => rfl
    | some p =>
      obtain ⟨v, f⟩ := p
      by_cases hn : v.isNone = true
      · simp only [hn, if_true]; exact ih
      · simp only [hn]
        cases f fd.ty with
        | error e => rfl
        | ok j => exact ih

/-- An item of `genUntypedTuple`. -/
def gMember (fs : List (Str × Val × (Ty → Res Json))) (fd : FieldDef) : Res (Option (Str × Json)) :=
  match lookupKey fd.name fs with
  | none => .error .attribute
  | some (_, f) => match f dynTy with | .error e => .error e | .ok j => .ok (some (fieldToProperty fd.name none, j))

theorem genUntypedTuple_loop {fs : List (Str × Val × (Ty → Res Json))} : ∀ {fds : List FieldDef} {acc : List (Str × Json)},
    genUntypedTuple fs acc fds = gLoop (gMember fs) acc fds := by
  intro fds
  induction fds with
  | nil => intro acc; rfl
  | cons fd fds ih =>
    intro acc
    simp only [genUntypedTuple, gLoop, gMember]
    cases lookupKey fd.name fs with
    | none => rfl
    | some p =>
      obtain ⟨v, f⟩ := p
      dsimp only
      cases f dynTy with
      | error e => rfl
      | ok j => exact ih

/-- An item of `genUntyped`. -/
def gAttr (p : Str × Val × (Ty → Res Json)) : Res (Option (Str × Json)) :=
  if isReserved p.1 || p.2.1.isNone then .ok none
  else match p.2.2 dynTy with | .error e => .error e | .ok j => .ok (some (fieldToProperty p.1 none, j))

theorem genUntyped_loop : ∀ {fs : List (Str × Val × (Ty → Res Json))} {acc : List (Str × Json)}, genUntyped acc fs = gLoop gAttr acc fs := by
  intro fs
  induction fs with
  | nil => intro acc; rfl
  | cons p fs ih =>
    intro acc
    obtain ⟨n, v, f⟩ := p
    simp only [genUntyped, gLoop, gAttr]
    by_cases hn : (isReserved n || v.isNone) = true
    · simp only [hn, if_true]; exact ih
    · simp only [hn]
      cases f dynTy with
      | error e => rfl
      | ok j => exact ih

theorem gLoop_map {α β : Type} {f : β → Res (Option (Str × Json))} {h : α → β} : ∀ {xs : List α} {acc : List (Str × Json)},
    gLoop f acc (xs.map h) = gLoop (fun x => f (h x)) acc xs := by
  intro xs
  induction xs with
  | nil => intro acc; rfl
  | cons x xs ih =>
    intro acc
    simp only [List.map_cons, gLoop]
    split
    · rfl
    · exact ih
    · exact ih

theorem sortByName_map {α β : Type} {h : Str × α → Str × β} (hh : ∀ p, (h p).1 = p.1) (l : List (Str × α)) :
    sortByName (l.map h) = (sortByName l).map h := by
  have ins : ∀ (x : Str × α) (l : List (Str × α)), insertByName (h x) (l.map h) = (insertByName x l).map h := by
    intro x l
    induction l with
    | nil => rfl
    | cons y l ih =>
      simp only [List.map_cons, insertByName, hh]
      split
      · rfl
      · rw [List.map_cons, ih]
  induction l with
  | nil => rfl
  | cons x l ih =>
    show insertByName (h x) (sortByName (l.map h)) = (insertByName x (sortByName l)).map h
    rw [ih, ins]

theorem RefItem.pair {wkey : Key → Res Key} {key : Key → Res Str} {f : Val → Res Val} {t : Ty} {kv : Key × Val}
    (hk : key kv.1 = .error .outOfModel ∨ wkey kv.1 = (match key kv.1 with | .error e => .error e | .ok s => .ok (.str s)))
    (hf : Ref (f kv.2) (gen env kv.2 t)) : RefItem (wPair wkey f kv) (gPair key t (kv.1, gen env kv.2)) := by
  rcases hk with hk | hk
  · left; simp only [gPair, hk]
  · cases hkk : key kv.1 with
    | error e => right; rw [hkk] at hk; simp only [wPair, gPair, hk, hkk]
    | ok s =>
      rw [hkk] at hk
      rcases hf with hf | hf
      · left; simp only [gPair, hkk, hf]
      · right
        simp only [wPair, gPair, hk, hkk, hf]
        cases gen env kv.2 t <;> rfl

theorem keyValue_ref (k : Key) : keyValue env k = .error .outOfModel ∨
    wKeyValue env k = (match keyValue env k with | .error e => .error e | .ok s => .ok (.str s)) := by
  cases k with
  | enum e m =>
    simp only [keyValue, wKeyValue]
    cases enumValue env e m with
    | error e => exact .inr rfl
    | ok s => cases s <;> first | exact .inr rfl | exact .inl rfl
  | _ => exact .inr rfl

theorem keySelf_ref (k : Key) : keySelf k = .error .outOfModel ∨
    (.ok k : Res Key) = (match keySelf k with | .error e => .error e | .ok s => .ok (.str s)) := by
  cases k with
  | str s => exact .inr rfl
  | _ => exact .inl rfl

theorem scalar_asVal (s : Scalar) : s.toJson.asVal = s.toVal := by cases s <;> rfl

theorem genSame_ref (v : Val) : Ref (.ok v) (genSame v) := by
  cases v <;> first | exact .inl rfl | exact .inr rfl

theorem genEnum_ref (n : Nat) (v : Val) : Ref (wEnum env n v) (genEnum env v n) := by
  cases hc : env.enums[n]? with
  | none => left; cases v <;> simp only [genEnum, hc]
  | some ed =>
    cases v with
    | enum e m =>
      simp only [wEnum, genEnum, hc]
      cases ed.toJson with
      | some f =>
        by_cases h : e = n
        · simp only [h, if_true]
          cases f m <;> exact .inr rfl
        · simp only [h, if_false]; exact .out
      | none =>
        cases enumValue env e m with
        | error e => exact .inr rfl
        | ok s => right; simp only [scalar_asVal]
    | _ => left; simp only [genEnum, hc]

theorem gen_ref (hpy : py.Fits) : ∀ {n : Nat} {v : Val} {t : Ty}, Bound env n t v → Ref (wgen py env n v t) (gen env v t) := by
  intro n
  induction n with
  | zero => intro v t h; exact h.elim
  | succ n ih =>
    intro v t h
    have key : ∀ u w, DuckStep env t v u w → Ref (wgen py env n w u) (gen env w u) := fun u w hs => ih (h u w hs)
    have items : ∀ u, (∀ vs x, Yields env v vs → x ∈ vs → DuckStep env t v u x) →
        Ref (match pyIter env v with | some vs => wItems (fun x => wgen py env n x u) vs | none => .error .typeError)
          (match vkids env v with | .seq fs => arrOf (mapRes (fun f => f u) fs) | _ => .error .outOfModel) := by
      intro u hs
      have seq : ∀ vs, Yields env v vs → pyIter env v = some vs → vkids env v = .seq (genSeq env vs) → Ref (match pyIter env v with
          | some vs => wItems (fun x => wgen py env n x u) vs | none => .error .typeError)
          (match vkids env v with | .seq fs => arrOf (mapRes (fun f => f u) fs) | _ => .error .outOfModel) := by
        intro vs hy hp hv
        rw [hp, hv]
        dsimp only
        rw [genSeq_eq, mapRes_map]
        exact Ref.items fun x hx => key u x (hs vs x hy hx)
      cases v with
      | list vs => exact seq vs (.items .list) rfl rfl
      | set vs => exact seq vs (.items .set) rfl rfl
      | tuple vs => exact seq vs (.items .tuple) rfl rfl
      | _ => exact .out
    cases t with
    | union ts =>
      rw [gen_union_eq]
      show Ref (match serCreate env (typeOf v) with | .error e => .error e | .ok _ => wgen py env n v (typeOf v)) _
      cases serCreate env (typeOf v) with
      | error e => exact .error
      | ok _ => exact key _ _ .union
    | annotated t ms =>
      rw [gen_annotated_eq]
      exact key _ _ .annotated
    | none => rw [gen_eq]; exact .inr rfl
    | bool | int | float | str => rw [gen_eq]; exact genSame_ref v
    | bytes => rw [gen_eq]; cases v <;> first | exact .inl rfl | exact .inr rfl
    | datetime =>
      rw [gen_eq]
      cases v with
      | datetime d =>
        show Ref (match dtSerialize d with | .error e => .error e | .ok s => .ok (.str s)) (match dtSerialize d with | .ok s => .ok (.str s) | .error e => .error e)
        cases dtSerialize d <;> exact .inr rfl
      | _ => exact .out
    | date => rw [gen_eq]; cases v <;> first | exact .inl rfl | exact .inr rfl
    | time => rw [gen_eq]; cases v <;> first | exact .inl rfl | exact .inr rfl
    | timedelta => rw [gen_eq]; cases v <;> first | exact .inl rfl | exact .inr rfl
    | uuid =>
      rw [gen_eq]
      cases v with
      | uuid m => right; show Except.ok (Val.str (py.str _)) = _; rw [hpy.uuid]; rfl
      | _ => exact .out
    | ipv4 =>
      rw [gen_eq]
      cases v with
      | ipv4 m => right; show Except.ok (Val.str (py.str _)) = _; rw [hpy.ipv4]; rfl
      | _ => exact .out
    | ipv6 =>
      rw [gen_eq]
      cases v with
      | ipv6 m s => right; show Except.ok (Val.str (py.str _)) = _; rw [hpy.ipv6]; rfl
      | _ => exact .out
    | bareList | bareSet | bareTuple => rw [gen_eq]; exact items _ fun vs x hy hx => .bare (by simp) hy hx
    | list t => rw [gen_eq]; exact items _ fun vs x hy hx => .list hy hx
    | set t => rw [gen_eq]; exact items _ fun vs x hy hx => .set hy hx
    | tuple ts =>
      rw [gen_eq]
      have seq : ∀ vs, Yields env v vs → pyIter env v = some vs → vkids env v = .seq (genSeq env vs) →
          Ref (wgen py env (n + 1) v (.tuple ts)) (genD env v (vkids env v) (.tuple ts)) := by
        intro vs hy hp hv
        rw [hv]
        simp only [wgen, hp, genD, genShape]
        rw [genSeq_eq, List.zip_map_right, mapRes_map]
        exact Ref.items fun p hp => key p.1 p.2 (.tuple hy hp)
      cases v with
      | list vs => exact seq vs (.items .list) rfl rfl
      | set vs => exact seq vs (.items .set) rfl rfl
      | tuple vs => exact seq vs (.items .tuple) rfl rfl
      | _ => exact .out
    | bareDict =>
      rw [gen_eq]
      cases v with
      | dict kvs =>
        show Ref (wLoop (wPair (wUntypedKey env kvs) (fun x => wgen py env n x dynTy)) (asPairs' []) kvs)
          (genPairs (untypedKey env (genDict env kvs)) dynTy [] (genDict env kvs))
        rw [genPairs_loop]
        have hkey : ∀ k, untypedKey env (genDict env kvs) k = .error .outOfModel ∨ wUntypedKey env kvs k =
            (match untypedKey env (genDict env kvs) k with | .error e => .error e | .ok s => .ok (.str s)) := by
          intro k
          cases kvs with
          | nil => exact .inr rfl
          | cons p r =>
            obtain ⟨k', x⟩ := p
            cases k' with
            | enum a b => exact keyValue_ref k
            | _ => exact .inr rfl
        generalize untypedKey env (genDict env kvs) = K at hkey
        rw [genDict_eq, gLoop_map]
        exact Ref.loop fun kv hkv => .pair (hkey kv.1) (key _ _ (.bareDict hkv))
      | _ => exact .out
    | dict k t =>
      rw [gen_eq]
      cases v with
      | dict kvs =>
        cases k with
        | str =>
          show Ref (wLoop (wPair .ok (fun x => wgen py env n x t)) (asPairs' []) kvs) (genPairs keySelf t [] (genDict env kvs))
          rw [genPairs_loop, genDict_eq, gLoop_map]
          exact Ref.loop fun kv hkv => .pair (keySelf_ref kv.1) (key _ _ (.dict hkv))
        | enum a =>
          show Ref (wLoop (wPair (wKeyValue env) (fun x => wgen py env n x t)) (asPairs' []) kvs) (genPairs (keyValue env) t [] (genDict env kvs))
          rw [genPairs_loop, genDict_eq, gLoop_map]
          exact Ref.loop fun kv hkv => .pair (keyValue_ref kv.1) (key _ _ (.dict hkv))
        | int | other => exact .out
      | _ => exact .out
    | literal ls =>
      rw [gen_eq]
      simp only [wgen, genD, genShape]
      split
      · exact genEnum_ref _ v
      · exact .inr rfl
      · rename_i h1 h2
        split
        · exact absurd rfl (h1 _ _ _)
        · exact absurd rfl (h2 _)
        · exact genSame_ref v
    | enum a => rw [gen_eq]; exact genEnum_ref a v
    | cls c =>
      rw [gen_eq]
      show Ref (wCls py env (wgen py env n) c v) (genCls env v (vkids env v) c)
      cases hc : env.classes[c]? with
      | none => simp only [genCls, hc]; exact .out
      | some cd =>
        cases hj : cd.toJson with
        | some f =>
          simp only [wCls, genCls, hc, hj]
          cases f v <;> exact .inr rfl
        | none =>
          cases v with
          | obj c' fs =>
            have hprops : cd.Annotated → Ref (wLoop (wField cd.kind (wgen py env n) fs) [] cd.fields)
                (genProps cd.kind (genObj env fs) [] cd.fields) := by
              intro ha
              rw [genProps_loop]
              refine Ref.loop (acc := []) fun fd hfd => ?_
              rw [genObj_eq]
              unfold wField gField
              rw [lookup_genObj]
              cases hl : lookupKey fd.name fs with
              | none => exact .inr rfl
              | some x =>
                dsimp only [Option.map_some]
                by_cases hn : x.isNone = true
                · simp only [hn, if_true]; exact .inr rfl
                · simp only [hn]
                  rcases key _ _ (.field hc hj ha hfd hl (fun h => hn (by rw [h]; rfl))) with hx | hx
                  · left; simp only [hx]; rfl
                  · right; simp only [hx]; cases gen env x fd.ty <;> rfl
            simp only [wCls, genCls, hc, hj, vkids]
            cases hk : cd.kind with
            | dataclass fr => dsimp only; rw [← hk]; exact hprops (.inl ⟨fr, hk⟩)
            | namedTuple b =>
              cases b with
              | true => dsimp only; rw [← hk]; exact hprops (.inr (.inl hk))
              | false =>
                dsimp only
                rw [genUntypedTuple_loop]
                refine Ref.loop (acc := []) fun fd hfd => ?_
                rw [genObj_eq]
                unfold wMember gMember
                rw [lookup_genObj]
                cases hl : lookupKey fd.name fs with
                | none => exact .inr rfl
                | some x =>
                  dsimp only [Option.map_some]
                  rcases key _ _ (.untypedField hc hj hk hfd hl) with hx | hx
                  · left; simp only [hx]
                  · right; simp only [hx]; cases gen env x dynTy <;> rfl
            | plain =>
              dsimp only
              by_cases hne : cd.fields = []
              · rw [hne, List.isEmpty_nil, if_pos rfl, if_pos rfl, genUntyped_loop, genObj_eq, sortByName_map (by intro p; rfl), gLoop_map]
                refine Ref.loop (acc := []) fun p hp => ?_
                unfold wAttr gAttr
                by_cases hr : (isReserved p.1 || p.2.isNone) = true
                · simp only [hr, if_true]; exact .inr rfl
                · simp only [hr]
                  have hr' := hr
                  rw [Bool.or_eq_true, not_or] at hr'
                  rcases key _ _ (.attr (n := p.1) hc hj hk hne (mem_sortByName.1 hp) (fun h => hr'.1 (isReserved_iff.2 h))
                    (fun h => hr'.2 (by rw [h]; rfl))) with hx | hx
                  · left; simp only [hx]; rfl
                  · right; simp only [hx]; cases gen env p.2 dynTy <;> rfl
              · rw [if_neg (by simpa using hne), if_neg (by simpa using hne), ← hk]
                exact hprops (.inr (.inr ⟨hk, hne⟩))
          | _ => simp only [genCls, hc, hj, vkids]; exact .out

/-! ### Results that are JSON values -/

mutual
theorem asVal_isJson : ∀ j : Json, j.asVal.IsJson
  | .null => .none
  | .bool _ => .bool
  | .int _ => .int
  | .float _ => .float
  | .str _ => .str
  | .arr xs => .list (asVals_isJson xs)
  | .obj kvs => .dict (fun kv h => (asPairs_isJson kvs kv h).1) fun kv h => (asPairs_isJson kvs kv h).2
theorem asVals_isJson : ∀ xs : List Json, ∀ v ∈ Json.asVals xs, v.IsJson
  | [], v, h => by cases h
  | x :: xs, v, h => by
    by_cases he : v = x.asVal
    · rw [he]; exact asVal_isJson x
    · exact asVals_isJson xs v ((List.mem_cons.1 h).resolve_left he)
theorem asPairs_isJson : ∀ kvs : List (Str × Json), ∀ kv ∈ Json.asPairs kvs, (∃ s, kv.1 = .str s) ∧ kv.2.IsJson
  | [], v, h => by cases h
  | (k, x) :: xs, v, h => by
    by_cases he : v = (.str k, x.asVal)
    · rw [he]; exact ⟨⟨k, rfl⟩, asVal_isJson x⟩
    · exact asPairs_isJson xs v ((List.mem_cons.1 h).resolve_left he)
end

theorem CleanParts.step {t u : Ty} {v w : Val} (h : CleanParts env t v) (hs : DuckStep env t v u w) : CleanParts env u w :=
  ⟨fun _ _ _ hp hx => h.1 _ _ _ (.step hs hp) hx, fun _ _ hp => h.2 _ _ (.step hs hp)⟩

theorem wLoop_isJson {α : Type} {f : α → Res (Option (Key × Val))} {xs : List α} {r : Val} (h : wLoop f [] xs = .ok r)
    (hf : ∀ x ∈ xs, ∀ p, f x = .ok (some p) → (∃ s, p.1 = .str s) ∧ p.2.IsJson) : r.IsJson := by
  obtain ⟨kvs, rfl, hk⟩ := wLoop_entries h
  have : ∀ kv ∈ kvs, (∃ s, kv.1 = .str s) ∧ kv.2.IsJson := by
    intro kv hkv
    rcases hk kv hkv with h | ⟨x, hx, he⟩
    · cases h
    · exact hf x hx kv he
  exact .dict (fun kv h => (this kv h).1) fun kv h => (this kv h).2

theorem wItems_isJson {f : Val → Res Val} {vs : List Val} {r : Val} (h : wItems f vs = .ok r)
    (hf : ∀ x ∈ vs, ∀ y, f x = .ok y → y.IsJson) : r.IsJson := by
  obtain ⟨rs, rfl, ha⟩ := wItems_ok h
  refine .list fun y hy => ?_
  obtain ⟨x, hx, he⟩ := ha.mem_right hy
  exact hf x hx y he

theorem toVal_isJson (s : Scalar) : s.toVal.IsJson := by cases s <;> constructor

theorem duck_plain : ∀ {n : Nat} {v r : Val} {t : Ty}, wgen py env n v t = .ok r → CleanParts env t v → r.IsJson := by
  intro n
  induction n with
  | zero => intro v r t h; cases h
  | succ n ih =>
    intro v r t h hc
    have key : ∀ {u w r}, DuckStep env t v u w → wgen py env n w u = .ok r → r.IsJson := fun hs h => ih h (hc.step hs)
    have items : ∀ u, (∀ vs x, Yields env v vs → x ∈ vs → DuckStep env t v u x) →
        (match pyIter env v with | some vs => wItems (fun x => wgen py env n x u) vs | none => .error .typeError) = .ok r → r.IsJson := by
      intro u hs h
      split at h
      · rename_i vs hy
        exact wItems_isJson h fun x hx y he => key (hs vs x (pyIter_iff.1 hy) hx) he
      · cases h
    have enum : ∀ m, (∀ c fs x, v = .obj c fs → lookupKey c!"value" fs = some x → x.IsJson) → wEnum env m v = .ok r → r.IsJson := by
      intro m hv h
      unfold wEnum at h
      split at h
      · cases h
      · split at h
        · split at h
          · split at h
            · split at h
              · cases h
              · cases h; exact asVal_isJson _
            · cases h
          · cases h
        · split at h
          · split at h
            · cases h
            · cases h; exact toVal_isJson _
          · split at h
            · rename_i hl; cases h; exact hv _ _ _ rfl hl
            · cases h
          · cases h
    have loop : ∀ {keyf : Key → Res Key} {u : Ty} {kvs : List (Key × Val)}, (∀ kv ∈ kvs, DuckStep env t v u kv.2) →
        (∀ kv ∈ kvs, ∀ k, keyf kv.1 = .ok k → ∃ s, k = .str s) →
        wLoop (wPair keyf (fun x => wgen py env n x u)) [] kvs = .ok r → r.IsJson := by
      intro keyf u kvs hs hk h
      refine wLoop_isJson h fun kv hkv p hp => ?_
      obtain ⟨k, x, h1, h2, he⟩ := wPair_ok hp
      cases he
      exact ⟨hk kv hkv k h1, key (hs kv hkv) h2⟩
    cases t with
    | none => cases h; exact .none
    | bool | int | float | str => cases h; exact hc.1 _ _ _ .here (.plain (by simp))
    | bytes =>
      simp only [wgen] at h
      split at h
      · cases h; exact .str
      · cases h
    | datetime =>
      simp only [wgen, wDateTime] at h
      split at h
      · split at h
        · cases h
        · cases h; exact .str
      · split at h
        · cases h
        · cases h; exact .str
      · exact (noAttr_ok h).elim
    | date | time =>
      simp only [wgen, wIso] at h
      split at h
      · cases h; exact .str
      · cases h; exact .str
      · cases h; exact .str
      · exact (noAttr_ok h).elim
    | timedelta =>
      simp only [wgen] at h
      split at h
      · cases h; exact .str
      · exact (noAttr_ok h).elim
    | uuid | ipv4 | ipv6 => cases h; exact .str
    | bareList | bareSet | bareTuple => exact items _ (fun vs x hy hx => .bare (by simp) hy hx) h
    | list t => exact items _ (fun vs x hy hx => .list hy hx) h
    | set t => exact items _ (fun vs x hy hx => .set hy hx) h
    | tuple ts =>
      simp only [wgen] at h
      split at h
      · rename_i vs hy
        split at h
        · cases h
        · rename_i rs hr
          cases h
          refine .list fun y hy' => ?_
          obtain ⟨p, hp, he⟩ := ((mapRes_ok_iff _ _ _).1 hr).mem_right hy'
          exact key (.tuple (pyIter_iff.1 hy) (t := p.1) (x := p.2) hp) he
      · cases h
    | bareDict =>
      rcases not_dict (v := v) with ⟨kvs, rfl⟩ | hd
      · refine loop (fun kv hkv => .bareDict hkv) (fun kv hkv k hk => ?_) h
        have tk := hc.2 _ _ .here kv hkv
        have hstr : (match keyStr env kv.1 with | .error e => .error e | .ok s => .ok (Key.str s)) = (.ok k : Res Key) → ∃ s, k = .str s := by
          intro h
          split at h
          · cases h
          · cases h; exact ⟨_, rfl⟩
        cases kvs with
        | nil => cases hkv
        | cons p l =>
          obtain ⟨k', x⟩ := p
          cases k' with
          | enum a b =>
            have hk : wKeyValue env kv.1 = .ok k := hk
            obtain ⟨e, m, he⟩ := wKeyValue_key hk
            obtain ⟨⟨s, hs⟩, _⟩ := tk.2 e m he
            rw [he] at hk
            simp only [wKeyValue, hs] at hk
            cases hk; exact ⟨s, rfl⟩
          | str s => exact hstr hk
          | int i => exact hstr hk
      · cases v <;> simp only [wgen] at h <;> first | exact (noAttr_ok h).elim | exact absurd rfl (hd _)
    | dict k t =>
      rcases not_dict (v := v) with ⟨kvs, rfl⟩ | hd
      · cases k with
        | str =>
          refine loop (fun kv hkv => .dict hkv) (fun kv hkv k hk => ?_) h
          have tk := hc.2 _ _ .here kv hkv
          cases hk
          cases hkk : kv.1 with
          | str s => exact ⟨s, rfl⟩
          | int i => cases tk.1 i hkk
          | enum e m => exact absurd rfl ((tk.2 e m hkk).2 t)
        | enum a =>
          refine loop (fun kv hkv => .dict hkv) (fun kv hkv k hk => ?_) h
          have tk := hc.2 _ _ .here kv hkv
          obtain ⟨e, m, he⟩ := wKeyValue_key hk
          obtain ⟨⟨s, hs⟩, _⟩ := tk.2 e m he
          rw [he] at hk
          simp only [wKeyValue, hs] at hk
          cases hk; exact ⟨s, rfl⟩
        | int | other => cases h
      · cases v <;> simp only [wgen] at h <;> first | exact (noAttr_ok h).elim | exact absurd rfl (hd _)
    | literal ls =>
      simp only [wgen] at h
      split at h
      · exact enum _ (fun c fs x he hl => hc.1 _ _ _ .here (by rw [he]; exact .literalValue hl)) h
      · cases h; exact .none
      · rename_i h1 h2
        cases h
        exact hc.1 _ _ _ .here (.literal (fun n k r he => h1 n k r he) fun r he => h2 r he)
    | enum a => exact enum _ (fun c fs x he hl => hc.1 _ _ _ .here (by rw [he]; exact .value hl)) h
    | annotated t ms => exact key .annotated h
    | union ts =>
      simp only [wgen] at h
      split at h
      · cases h
      · exact key .union h
    | cls c =>
      have h : wCls py env (wgen py env n) c v = .ok r := h
      cases hcd : env.classes[c]? with
      | none => simp only [wCls, hcd] at h; cases h
      | some cd =>
        cases hj : cd.toJson with
        | some f =>
          simp only [wCls, hcd, hj] at h
          split at h
          · cases h
          · cases h; exact asVal_isJson _
        | none =>
          cases v with
          | obj c' fs =>
            have hprops : cd.Annotated → r.IsJson := by
              intro ha
              rw [annotated_props ha hcd hj] at h
              refine wLoop_isJson h fun fd hfd p hp => ?_
              obtain ⟨x, hl, ⟨_, he⟩ | ⟨hn, y, hy, he⟩⟩ := wField_ok hp
              · cases he
              · cases he; exact ⟨⟨_, rfl⟩, key (.field hcd hj ha hfd hl hn) hy⟩
            cases hk : cd.kind with
            | dataclass fr => exact hprops (.inl ⟨fr, hk⟩)
            | namedTuple b =>
              cases b with
              | true => exact hprops (.inr (.inl hk))
              | false =>
                simp only [wCls, hcd, hj, hk] at h
                refine wLoop_isJson h fun fd hfd p hp => ?_
                obtain ⟨x, y, hl, hy, he⟩ := wMember_ok hp
                cases he; exact ⟨⟨_, rfl⟩, key (.untypedField hcd hj hk hfd hl) hy⟩
            | plain =>
              by_cases hne : cd.fields = []
              · simp only [wCls, hcd, hj, hk, hne] at h
                rw [List.isEmpty_nil, if_pos rfl] at h
                refine wLoop_isJson h fun q hq p hp => ?_
                rcases wAttr_ok hp with ⟨_, he⟩ | ⟨h1, h2, y, hy, he⟩
                · cases he
                · cases he; exact ⟨⟨_, rfl⟩, key (.attr hcd hj hk hne (mem_sortByName.1 hq) h1 h2) hy⟩
              · exact hprops (.inr (.inr ⟨hk, hne⟩))
          | _ =>
            simp only [wCls, hcd, hj] at h
            split at h
            · cases h
            · split at h
              · cases h; exact .dict (fun _ h => (by cases h)) fun _ h => (by cases h)
              · split at h <;> cases h

end Verif
