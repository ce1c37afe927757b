import Verif.Lemmas.Deser2
import Verif.Spec.Hashable
/-!
# C15: containers are converted element by element
-/
namespace Verif

/-- Lists: success exactly if every item parses, and the result has the parsed items in the same order. -/
theorem C15_list (env : Env) (skip : Bool) (t : Ty) (ht : Supported env t) (j : Json) (v : Val) :
    loads env skip (.list t) j = .ok v ↔
      ∃ xs vs, j = .arr xs ∧ v = .list vs ∧ All2 (fun x w => loads env skip t x = .ok w) xs vs := by
  obtain ⟨d, hd⟩ := ht
  have hl : compile env (.list t) = .ok (.list d) := by simp [compile, hd]
  rw [loads_of_compile hl]
  simp only [loads_of_compile hd]
  cases j with
  | arr xs =>
    rw [parse_list_arr]
    constructor
    · intro h
      split at h
      · rename_i vs hvs
        cases h
        exact ⟨xs, vs, rfl, rfl, (mapRes_ok_iff _ _ _).1 hvs⟩
      · cases h
    · rintro ⟨xs', vs, he, rfl, h⟩
      cases he
      rw [(mapRes_ok_iff _ _ _).2 h]
  | _ =>
    constructor
    · intro h; rw [parse_eq] at h; simp [parseD, parseListK, kidsOf] at h
    · rintro ⟨xs, vs, he, _⟩; cases he

/-- Lists: the error is the one of the first item that fails. -/
theorem C15_list_error (env : Env) (skip : Bool) (t : Ty) (ht : Supported env t) (xs : List Json) (e : Err) :
    loads env skip (.list t) (.arr xs) = .error e ↔
      ∃ pre x post, xs = pre ++ x :: post ∧ loads env skip t x = .error e ∧
        ∀ y ∈ pre, ∃ w, loads env skip t y = .ok w := by
  obtain ⟨d, hd⟩ := ht
  have hl : compile env (.list t) = .ok (.list d) := by simp [compile, hd]
  rw [loads_of_compile hl]
  simp only [loads_of_compile hd]
  rw [parse_list_arr]
  constructor
  · intro h
    split at h
    · cases h
    · rename_i e' he
      cases h
      exact (mapRes_error_iff _ _ _).1 he
  · intro h
    rw [(mapRes_error_iff _ _ _).2 h]

/-- Tuples: success exactly if the array has as many items as the type, each of which parses at its position. -/
theorem C15_tuple (env : Env) (skip : Bool) (ts : List Ty) (ht : ∀ t ∈ ts, Supported env t) (j : Json) (v : Val) :
    loads env skip (.tuple ts) j = .ok v ↔
      ∃ xs vs, j = .arr xs ∧ v = .tuple vs ∧ xs.length = ts.length ∧ vs.length = ts.length ∧
        ∀ (i : Nat) x t w, xs[i]? = some x → ts[i]? = some t → vs[i]? = some w → loads env skip t x = .ok w := by
  obtain ⟨ds, hds⟩ : ∃ ds, All2 (fun t d => compile env t = .ok d) ts ds := by
    clear j v
    induction ts with
    | nil => exact ⟨[], .nil⟩
    | cons t ts ih =>
      obtain ⟨d, hd⟩ := ht t (by simp)
      obtain ⟨ds, hds⟩ := ih (fun t h => ht t (by simp [h]))
      exact ⟨d :: ds, .cons hd hds⟩
  have hl : compile env (.tuple ts) = .ok (.tuple ds) := by simp [compile, compileL_ok.2 hds]
  have hlen := hds.length
  rw [loads_of_compile hl]
  cases j with
  | arr xs =>
    rw [parse_tuple_arr]
    by_cases hx : xs.length = ds.length
    · rw [if_neg (by simpa using hx)]
      constructor
      · intro h
        split at h
        · rename_i vs hvs
          cases h
          have ha := (mapRes_ok_iff _ _ _).1 hvs
          have hl2 := ha.length
          simp only [List.length_zip] at hl2
          refine ⟨xs, vs, rfl, rfl, by omega, by omega, ?_⟩
          intro i x t w h1 h2 h3
          obtain ⟨d, h4, h5⟩ := hds.get i t h2
          obtain ⟨w', h6, h7⟩ := ha.get i (x, d) (by simp [List.getElem?_zip_eq_some, h1, h4])
          rw [h3] at h6; cases h6
          rw [loads_of_compile h5]; exact h7
        · cases h
      · rintro ⟨xs', vs, he, rfl, h1, h2, h3⟩
        cases he
        have : mapRes (fun p : Json × Deser => parse env (fullHeap env skip) p.1 p.2) (xs.zip ds) = .ok vs := by
          rw [mapRes_ok_iff]
          refine All2.of_get (by simp [List.length_zip]; omega) ?_
          intro i p w hp hw
          rw [List.getElem?_zip_eq_some] at hp
          have hi : i < ts.length := by
            have := (List.getElem?_eq_some_iff.1 hp.1).1
            omega
          obtain ⟨d, h4, h5⟩ := hds.get i ts[i] (by simp [hi])
          rw [h4] at hp
          have := h3 i p.1 ts[i] w hp.1 (by simp [hi]) hw
          rw [loads_of_compile h5] at this
          rw [← Option.some.inj hp.2]; exact this
        rw [this]
    · rw [if_pos (by simpa using hx)]
      constructor
      · intro h; cases h
      · rintro ⟨xs', vs, he, _, h1, _⟩
        cases he; omega
  | _ =>
    constructor
    · intro h; rw [parse_eq] at h; simp [parseD, parseTupleK, kidsOf] at h
    · rintro ⟨xs, vs, he, _⟩; cases he

/-- Tuples: an array of wrong length is refused with `JsonValueError`. -/
theorem C15_tuple_length (env : Env) (skip : Bool) (ts : List Ty) (ht : Supported env (.tuple ts)) (xs : List Json)
    (h : xs.length ≠ ts.length) : loads env skip (.tuple ts) (.arr xs) = .error .jsonValue := by
  obtain ⟨d, hd⟩ := ht
  rw [loads_of_compile hd]
  simp only [compile] at hd
  split at hd
  · rename_i ds hds
    cases hd
    rw [parse_tuple_arr, if_pos]
    rw [← (compileL_ok.1 hds).length]; exact h
  · cases hd

theorem parse_dict_obj (env : Env) (H : Heap) (k : KeyTy) (d : Deser) (kvs : List (Str × Json))
    (hn : (kvs.map (·.1)).Nodup) (v : Val) :
    parse env H (.obj kvs) (.dict k d) = .ok v ↔
      ∃ out, v = .dict out ∧
        All2 (fun kv w => parseKey env k kv.1 = .ok w.1 ∧ parse env H kv.2 d = .ok w.2) kvs out := by
  rw [parse_eq]
  simp only [parseD, kidsOf, parseDictK]
  have key := fun out => parsePairs_ok (env := env) (k := k) (d := d)
    (fs := kvs.map (fun p => (p.1, p.2, parse env H p.2))) (acc := []) (out := out) (by rw [List.map_map]; exact hn) (by simp)
  constructor
  · intro h
    split at h
    · rename_i out ho
      cases h
      obtain ⟨new, h1, h2⟩ := (key out).1 ho
      simp only [List.nil_append] at h1; subst h1
      exact ⟨out, rfl, (All2.map_left _).1 h2⟩
    · cases h
  · rintro ⟨out, rfl, h⟩
    rw [(key out).2 ⟨out, by simp, (All2.map_left _).2 h⟩]

/-- Dictionaries with string keys: the result has exactly the keys of the JSON object, in the same order, each with its
parsed value. -/
theorem C15_dict_str (env : Env) (skip : Bool) (t : Ty) (ht : Supported env t) (j : Json) (hj : j.Wf) (v : Val) :
    loads env skip (.dict .str t) j = .ok v ↔
      ∃ kvs out, j = .obj kvs ∧ v = .dict out ∧
        All2 (fun kv w => w.1 = Key.str kv.1 ∧ loads env skip t kv.2 = .ok w.2) kvs out := by
  obtain ⟨d, hd⟩ := ht
  have hl : compile env (.dict .str t) = .ok (.dict .str d) := by simp [compile, checkKeyTy, hd]
  rw [loads_of_compile hl]
  simp only [loads_of_compile hd]
  cases j with
  | obj kvs =>
    cases hj with
    | obj hn _ =>
      rw [parse_dict_obj _ _ _ _ _ hn]
      constructor
      · rintro ⟨out, rfl, h⟩
        refine ⟨kvs, out, rfl, rfl, h.imp ?_⟩
        intro kv w h
        simp only [parseKey, Except.ok.injEq] at h
        exact ⟨h.1.symm, h.2⟩
      · rintro ⟨kvs', out, he, rfl, h⟩
        cases he
        refine ⟨out, rfl, h.imp ?_⟩
        intro kv w h
        simp only [parseKey, Except.ok.injEq]
        exact ⟨h.1.symm, h.2⟩
  | _ =>
    constructor
    · intro h; rw [parse_eq] at h; simp [parseD, parseDictK, kidsOf] at h
    · rintro ⟨xs, vs, he, _⟩; cases he

theorem parseKey_enum_iff {env : Env} {e : Nat} {ed : EnumDef} (he : env.enums[e]? = some ed) (hed : ed.Ok) (s : Str)
    (key : Key) :
    parseKey env (.enum e) s = .ok key ↔ ∃ m name, ed.members[m]? = some (name, .str s) ∧ key = .enum e m := by
  constructor
  · intro h
    obtain ⟨ed', m, name, h1, h2, h3⟩ := parseKey_enum_ok h
    rw [he] at h1; cases h1
    exact ⟨m, name, h2, h3⟩
  · rintro ⟨m, name, h1, rfl⟩
    have : ed.members.findIdx? (fun m => (Scalar.str s).pyEq m.2) = some m := by
      refine findIdx?_unique h1 (str_pyEq.2 rfl) ?_
      intro k y hk hy
      cases hb : (Scalar.str s).pyEq y.2 with
      | false => rfl
      | true =>
        obtain ⟨hm, e2⟩ := List.getElem?_eq_some_iff.1 h1
        obtain ⟨hk', e1⟩ := List.getElem?_eq_some_iff.1 hy
        have := List.pairwise_iff_getElem.1 hed k m hk' hm hk
        rw [e1, e2, str_pyEq.1 hb] at this
        rw [str_pyEq.2 rfl] at this; cases this
    simp [parseKey, enumLookup, he, Json.scalar, this]

/-- Dictionaries with keys from an enumeration: every key of the JSON object is the value of the resulting key, in the
same order, with its parsed value. -/
theorem C15_dict_enum (env : Env) (skip : Bool) (e : Nat) (ed : EnumDef) (he : env.enums[e]? = some ed) (hed : ed.Ok)
    (t : Ty) (ht : Supported env (.dict (.enum e) t)) (j : Json) (hj : j.Wf) (v : Val) :
    loads env skip (.dict (.enum e) t) j = .ok v ↔
      ∃ kvs out, j = .obj kvs ∧ v = .dict out ∧
        All2 (fun kv w => (∃ m name, ed.members[m]? = some (name, Scalar.str kv.1) ∧ w.1 = Key.enum e m) ∧
          loads env skip t kv.2 = .ok w.2) kvs out := by
  obtain ⟨d', hl⟩ := ht
  rw [loads_of_compile hl]
  simp only [compile] at hl
  split at hl
  · cases hl
  · split at hl
    · rename_i d hd
      cases hl
      simp only [loads_of_compile hd]
      cases j with
      | obj kvs =>
        cases hj with
        | obj hn _ =>
          rw [parse_dict_obj _ _ _ _ _ hn]
          constructor
          · rintro ⟨out, rfl, h⟩
            exact ⟨kvs, out, rfl, rfl, h.imp fun kv w h => ⟨(parseKey_enum_iff he hed _ _).1 h.1, h.2⟩⟩
          · rintro ⟨kvs', out, he', rfl, h⟩
            cases he'
            exact ⟨out, rfl, h.imp fun kv w h => ⟨(parseKey_enum_iff he hed _ _).2 h.1, h.2⟩⟩
      | _ =>
        constructor
        · intro h; rw [parse_eq] at h; simp [parseD, parseDictK, kidsOf] at h
        · rintro ⟨xs, vs, he, _⟩; cases he
    · cases hl

/-- Sets: success exactly if every item parses to a hashable object. -/
theorem C15_set_ok (env : Env) (skip : Bool) (t : Ty) (ht : Supported env t) (j : Json) :
    (∃ v, loads env skip (.set t) j = .ok v) ↔
      ∃ xs vs, j = .arr xs ∧ All2 (fun x w => loads env skip t x = .ok w) xs vs ∧ ∀ w ∈ vs, hashable env w = true := by
  obtain ⟨d, hd⟩ := ht
  have hl : compile env (.set t) = .ok (.set d) := by simp [compile, hd]
  simp only [loads_of_compile hl, loads_of_compile hd]
  cases j with
  | arr xs =>
    rw [parse_eq]
    simp only [parseD, kidsOf, parseSetK]
    constructor
    · rintro ⟨v, h⟩
      split at h
      · rename_i out ho
        obtain ⟨vs, h1, h2, _⟩ := parseSetItems_ok ho
        exact ⟨xs, vs, rfl, (All2.map_left _).1 h1, h2⟩
      · cases h
    · rintro ⟨xs', vs, he, h1, h2⟩
      cases he
      obtain ⟨out, ho⟩ := parseSetItems_total (env := env) (d := d) (fs := xs.map (parse env (fullHeap env skip)))
        ((All2.map_left _).2 h1) h2 []
      exact ⟨.set out, by rw [ho]⟩
  | _ =>
    constructor
    · rintro ⟨v, h⟩; rw [parse_eq] at h; simp [parseD, parseSetK, kidsOf] at h
    · rintro ⟨xs, vs, he, _⟩; cases he

mutual
theorem hashable_iff (env : Env) : ∀ v : Val, hashable env v = false ↔ Unhashable env v
  | .list _ => ⟨fun _ => .list, fun _ => rfl⟩
  | .set _ => ⟨fun _ => .set, fun _ => rfl⟩
  | .dict _ => ⟨fun _ => .dict, fun _ => rfl⟩
  | .tuple vs => by
    rw [hashable, hashableL_iff env vs]
    exact ⟨fun ⟨v, hv, h⟩ => .tuple hv h, fun h => (by cases h with | tuple hv h => exact ⟨_, hv, h⟩)⟩
  | .obj c fs => by
    simp only [hashable, Env.kind]
    have hf := hashableF_iff env fs
    constructor
    · intro h
      split at h
      · rename_i fr hk
        rw [Option.map_eq_some_iff] at hk
        obtain ⟨cd, hc, hk⟩ := hk
        rw [Bool.and_eq_false_iff] at h
        rcases h with h | h
        · rw [h] at hk; exact .mutable hc hk
        · obtain ⟨p, hp, h⟩ := hf.1 h; exact .member hc (by rw [hk]; simp) hp h
      · rename_i b hk
        rw [Option.map_eq_some_iff] at hk
        obtain ⟨cd, hc, hk⟩ := hk
        obtain ⟨p, hp, h⟩ := hf.1 h; exact .member hc (by rw [hk]; simp) hp h
      · cases h
    · intro h
      cases h with
      | mutable hc hk => rw [hc]; simp [hk]
      | @member _ cd _ n v hc hk hm h =>
        rw [hc]
        have := hf.2 ⟨(n, v), hm, h⟩
        cases hkd : cd.kind with
        | plain => exact absurd hkd hk
        | dataclass fr => simp [hkd, this]
        | namedTuple b => simp [hkd, this]
  | .none | .bool _ | .int _ | .float _ | .str _ | .bytes _ | .datetime _ | .date _ | .time _ | .timedelta _ | .uuid _ | .ipv4 _
  | .ipv6 _ _ | .enum _ _ => ⟨fun h => (by cases h), fun h => (by cases h)⟩
theorem hashableL_iff (env : Env) : ∀ vs : List Val, hashableL env vs = false ↔ ∃ v ∈ vs, Unhashable env v
  | [] => by simp [hashableL]
  | v :: vs => by rw [hashableL, Bool.and_eq_false_iff, hashable_iff env v, hashableL_iff env vs]; simp
theorem hashableF_iff (env : Env) : ∀ fs : List (Str × Val), hashableF env fs = false ↔ ∃ f ∈ fs, Unhashable env f.2
  | [] => by simp [hashableF]
  | (n, v) :: fs => by rw [hashableF, Bool.and_eq_false_iff, hashable_iff env v, hashableF_iff env fs]; simp
end

/-- Sets: success exactly if every item parses, to an object that can be a member of a set; instances of data classes that are not
frozen, in particular, cannot. -/
theorem C15_set_iff (env : Env) (skip : Bool) (t : Ty) (ht : Supported env t) (j : Json) :
    (∃ v, loads env skip (.set t) j = .ok v) ↔
      ∃ xs vs, j = .arr xs ∧ All2 (fun x w => loads env skip t x = .ok w) xs vs ∧ ∀ w ∈ vs, ¬ Unhashable env w := by
  have hh : ∀ w, hashable env w = true ↔ ¬ Unhashable env w := fun w => by rw [← hashable_iff]; simp
  rw [C15_set_ok env skip t ht j]
  simp only [hh]

/-- Sets: the members are exactly the parsed items up to Python equality: every member is a parsed item, every parsed
item is a member or equal to a member, and no two members are equal. -/
theorem C15_set_members (env : Env) (skip : Bool) (t : Ty) (ht : Supported env t) (xs : List Json) (vs : List Val)
    (hvs : All2 (fun x w => loads env skip t x = .ok w) xs vs) (v : Val)
    (h : loads env skip (.set t) (.arr xs) = .ok v) :
    ∃ ws, v = .set ws ∧ ws.Sublist vs ∧ (∀ x ∈ vs, x ∈ ws ∨ ∃ w ∈ ws, valEq env x w = true) ∧
      ws.Pairwise (fun a b => valEq env b a = false) := by
  obtain ⟨d, hd⟩ := ht
  have hl : compile env (.set t) = .ok (.set d) := by simp [compile, hd]
  simp only [loads_of_compile hl, loads_of_compile hd] at h hvs
  rw [parse_eq] at h
  simp only [parseD, kidsOf, parseSetK] at h
  split at h
  · rename_i out ho
    cases h
    obtain ⟨vs', h1, h2, new, h3, h4, h5, h6⟩ := parseSetItems_ok ho
    have : vs' = vs := All2.functional (fun a b c h h' => by rw [h] at h'; cases h'; rfl) ((All2.map_left _).1 h1) hvs
    subst this
    simp only [List.nil_append] at h3; subst h3
    refine ⟨out, rfl, h4, h5, ?_⟩
    rw [List.pairwise_iff_getElem]
    intro i j hi hj hij
    refine h6 (out.take j) out[j] (out.drop (j + 1)) (by simp) out[i] ?_
    simp only [List.nil_append]
    exact List.mem_take_iff_getElem.2 ⟨i, by omega, rfl⟩
  · cases h

/-- Anything but a JSON array (object for dictionaries) is refused with `JsonTypeError`. -/
theorem C15_wrong_kind (env : Env) (skip : Bool) (j : Json) (t : Ty) (ht : Supported env t)
    (h : match t with
      | .list _ | .set _ | .tuple _ => ∀ xs, j ≠ .arr xs
      | .dict _ _ => ∀ kvs, j ≠ .obj kvs
      | _ => False) : loads env skip t j = .error .jsonType := by
  obtain ⟨d, hd⟩ := ht
  rw [loads_of_compile hd, parse_eq]
  cases t <;> simp only at h <;> simp only [compile] at hd
  all_goals
    repeat' split at hd
    all_goals first | cases hd; done | skip
    all_goals cases hd; cases j <;> first | rfl | exact absurd rfl (h _)

/-! ### The hypotheses are met -/

/-- Enumeration used in examples. -/
private def exEnum : EnumDef := { module := c!"m", name := c!"Color", members := [(c!"RED", .str c!"r"), (c!"BLUE", .str c!"b")] }

example : loads ⟨[], [], id⟩ false (.list (.list .int)) (.arr [.arr [.int 1, .int 2], .arr []]) =
    .ok (.list [.list [.int 1, .int 2], .list []]) := rfl

example : loads ⟨[], [], id⟩ false (.tuple [.int, .str]) (.arr [.int 1, .str c!"x"]) = .ok (.tuple [.int 1, .str c!"x"]) := rfl

example : Supported ⟨[exEnum], [], id⟩ (.dict (.enum 0) .int) ∧ exEnum.Ok ∧
    loads ⟨[exEnum], [], id⟩ false (.dict (.enum 0) .int) (.obj [(c!"b", .int 1), (c!"r", .int 2)]) =
      .ok (.dict [(.enum 0 1, .int 1), (.enum 0 0, .int 2)]) :=
  ⟨⟨_, rfl⟩, by simp [EnumDef.Ok, exEnum, Scalar.pyEq], rfl⟩

example : loads ⟨[], [], id⟩ false (.set .int) (.arr [.int 1, .int 2, .int 1]) = .ok (.set [.int 1, .int 2]) := rfl

/-- Program used in examples: a data class that is not frozen, and one that is. -/
private def frozenEnv : Env := ⟨[], [{ module := c!"m", name := c!"A", kind := .dataclass false, fields := [{ name := c!"x", ty := .int }] },
  { module := c!"m", name := c!"B", kind := .dataclass true, fields := [{ name := c!"x", ty := .int }] }], id⟩

example : loads frozenEnv false (.set (.cls 0)) (.arr [.obj [(c!"x", .int 1)]]) = .error .typeError ∧
    loads frozenEnv false (.set (.cls 1)) (.arr [.obj [(c!"x", .int 1)]]) = .ok (.set [.obj 1 [(c!"x", .int 1)]]) ∧
    Unhashable frozenEnv (.obj 0 [(c!"x", .int 1)]) ∧ ¬ Unhashable frozenEnv (.obj 1 [(c!"x", .int 1)]) :=
  ⟨rfl, rfl, .mutable rfl rfl, fun h => by rw [← hashable_iff] at h; cases h⟩

end Verif
