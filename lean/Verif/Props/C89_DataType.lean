import Verif.Lemmas.DataType
import Verif.Lemmas.CacheSame
import Verif.Props.C11_RoundTrip
import Verif.Props.C28_C29_Cache
import Verif.Props.C53_SchemaTypes
/-!
# C89: data classes made from a list of fields
-/
namespace Verif

/-- A series of declarations is accepted if and only if each class has fields with names that are identifiers, not keywords, and all
different, and a name without null characters. -/
theorem C89_accepted_iff (cfg : BuildCfg) (env : Env) (ds : List (Str × List (Str × Ty))) (hd : NoDunder ds) :
    (∃ r, createDataTypes cfg env ds = .ok r) ↔ ∀ d ∈ ds, Declarable cfg d := by
  constructor
  · rintro ⟨⟨ts, env'⟩, h⟩
    exact (createDataTypes_ok ds env ts env' h).2.2
  · intro h
    rcases createDataTypes_cases (cfg := cfg) ds env hd with h' | ⟨pre, d, post, rfl, -, ⟨-, g⟩ | ⟨-, -, g⟩⟩
    · exact h'
    · exact (g (h d (by simp)).1).elim
    · exact ((h d (by simp)).2 g).elim

/-- A declaration that is not accepted is refused with `TypeError` if the names of its fields are not allowed, otherwise with
`ValueError`; that of the first such declaration is raised. -/
theorem C89_errors (cfg : BuildCfg) (env : Env) (pre post : List (Str × List (Str × Ty))) (d : Str × List (Str × Ty))
    (hd : NoDunder (pre ++ d :: post)) (hp : ∀ x ∈ pre, Declarable cfg x) (hx : ¬ Declarable cfg d) :
    (¬ FieldNames cfg d.2 → createDataTypes cfg env (pre ++ d :: post) = .error .typeError) ∧
      (FieldNames cfg d.2 → createDataTypes cfg env (pre ++ d :: post) = .error .valueError) := by
  rcases createDataTypes_cases (cfg := cfg) (pre ++ d :: post) env hd with ⟨⟨ts, env'⟩, h⟩ | ⟨pre', d', post', he, hp', h⟩
  · exact (hx ((createDataTypes_ok _ env ts env' h).2.2 d (by simp))).elim
  · have hx' : ¬ Declarable cfg d' := by
      rcases h with ⟨-, h⟩ | ⟨-, -, h⟩
      · exact fun g => h g.1
      · exact fun g => g.2 h
    obtain rfl : d = d' := by
      rcases List.append_eq_append_iff.1 he with ⟨as, h1, h2⟩ | ⟨as, h1, h2⟩
      · cases as with
        | nil => cases h2; rfl
        | cons a as => cases h2; exact (hx (hp' d (by simp [h1]))).elim
      · cases as with
        | nil => cases h2; rfl
        | cons a as => cases h2; exact (hx' (hp d' (by simp [h1]))).elim
    rcases h with ⟨h, g⟩ | ⟨h, g, -⟩
    · exact ⟨fun _ => h, fun g' => (g g').elim⟩
    · exact ⟨fun g' => (g' g).elim, fun _ => h⟩

/-- Each class that is made has the given name and exactly the given fields in their order, without defaults, and belongs to the module
`types`; it is the one returned by its call, and stays as it is in later calls.  Nothing else in the program changes. -/
theorem C89_made (cfg : BuildCfg) (env : Env) (ds : List (Str × List (Str × Ty))) (ts : List Ty) (env' : Env)
    (h : createDataTypes cfg env ds = .ok (ts, env')) :
    ts.length = ds.length ∧ env'.enums = env.enums ∧ env'.setOrder = env.setOrder ∧ env.classes <+: env'.classes ∧
      ∀ (i : Nat) d, ds[i]? = some d → ∃ c cd, ts[i]? = some (.cls c) ∧ env.classes.length ≤ c ∧ env'.classes[c]? = some cd ∧
        cd.module = c!"types" ∧ cd.name = d.1 ∧ cd.kind = .dataclass false ∧ cd.fields.map (fun f => (f.name, f.ty)) = d.2 ∧
        cd.toJson.isNone = true ∧ cd.fromJson.isNone = true ∧ ∀ f ∈ cd.fields, f.dflt = .missing ∧ f.strAnn = false ∧ f.fwd = false := by
  obtain ⟨rfl, rfl, -⟩ := createDataTypes_ok ds env ts env' h
  refine ⟨by simp, rfl, rfl, ⟨_, rfl⟩, fun i d hd => ?_⟩
  have hi : i < ds.length := (List.getElem?_eq_some_iff.1 hd).1
  refine ⟨env.classes.length + i, dataTypeOf d.1 d.2, by simp [hi], by omega,
    by show (env.classes ++ _)[env.classes.length + i]? = _; rw [List.getElem?_append_right (by omega)]; simp [hd], rfl, rfl, rfl, ?_, rfl, rfl, ?_⟩
  · simp [dataTypeOf, Function.comp_def]
  · intro f hf
    obtain ⟨x, -, rfl⟩ := List.mem_map.1 hf
    exact ⟨rfl, rfl, rfl⟩

/-- C89 in part: classes with different names leave a well-formed program well-formed.  Missing: classes with the same name, which are
not told apart (see below). -/
theorem C89_wellformed_partial (cfg : BuildCfg) (env : Env) (hk : env.Ok) (ds : List (Str × List (Str × Ty))) (ts : List Ty) (env' : Env)
    (hn : (ds.map (·.1)).Nodup) (hnew : ∀ d ∈ ds, (c!"types", d.1) ∉ env.enums.map EnumDef.key ++ env.classes.map ClassDef.key)
    (h : createDataTypes cfg env ds = .ok (ts, env')) : env'.Ok := by
  obtain ⟨rfl, -, g⟩ := createDataTypes_ok ds env ts env' h
  have hkey : (ds.map fun d => dataTypeOf d.1 d.2).map ClassDef.key = (ds.map (·.1)).map fun n => (c!"types", n) := by
    simp [dataTypeOf, ClassDef.key, Function.comp_def]
  refine ⟨?_, hk.enums, fun cd hc => ?_, hk.setOrder⟩
  · show (env.enums.map EnumDef.key ++ (env.classes ++ _).map ClassDef.key).Nodup
    rw [List.map_append, ← List.append_assoc, hkey]
    refine List.nodup_append.2 ⟨hk.keys, ?_, fun a ha b hb hab => ?_⟩
    · exact List.Pairwise.map _ (fun a b hab he => hab (Prod.mk.inj he).2) hn
    · simp only [List.mem_map] at hb
      obtain ⟨n, ⟨d, hd, rfl⟩, rfl⟩ := hb
      exact hnew d hd (hab ▸ ha)
  · rcases List.mem_append.1 hc with hc | hc
    · exact hk.fields cd hc
    · obtain ⟨d, hd, rfl⟩ := List.mem_map.1 hc
      simpa [dataTypeOf, Function.comp_def] using (g d hd).1.distinct

/-- Instances of the classes can be written if there are serializers for the types of their fields. -/
theorem C89_serializers (cfg : BuildCfg) (env : Env) (ds : List (Str × List (Str × Ty))) (ts : List Ty) (env' : Env)
    (h : createDataTypes cfg env ds = .ok (ts, env')) (hs : SerializableFields env ds) (c : Nat) (hl : env.classes.length ≤ c)
    (hc : c < env'.classes.length) : serCreate env' (.cls c) = .ok () := by
  obtain ⟨rfl, -, -⟩ := createDataTypes_ok ds env ts env' h
  simp only [List.length_append, List.length_map] at hc
  have hi : c - env.classes.length < ds.length := by omega
  obtain ⟨pre, d, post, rfl, rfl⟩ : ∃ pre d post, ds = pre ++ d :: post ∧ env.classes.length + pre.length = c :=
    ⟨ds.take (c - env.classes.length), ds[c - env.classes.length], ds.drop (c - env.classes.length + 1),
      by rw [List.getElem_cons_drop, List.take_append_drop], by rw [List.length_take]; omega⟩
  have := serCreate_new (hs pre d post rfl)
  simp only [List.length_append, List.length_map] at this
  have he : ({ env with classes := env.classes ++ (pre ++ d :: post).map fun d => dataTypeOf d.1 d.2 } : Env).enums =
    ({ env with classes := env.classes ++ (pre.map fun d => dataTypeOf d.1 d.2) ++ [dataTypeOf d.1 d.2] } : Env).enums := rfl
  exact serCreate_added he ⟨post.map fun d => dataTypeOf d.1 d.2, by simp⟩ this

/-- C89 in part: instances of the classes survive being written and read.  `G` are the classes for which this is claimed.  Missing:
classes with the same name, and the exceptions of C11. -/
theorem C89_roundtrip_partial (cfg : BuildCfg) (env : Env) (hk : env.Ok) (ds : List (Str × List (Str × Ty))) (ts : List Ty) (env' : Env)
    (hn : (ds.map (·.1)).Nodup) (hnew : ∀ d ∈ ds, (c!"types", d.1) ∉ env.enums.map EnumDef.key ++ env.classes.map ClassDef.key)
    (h : createDataTypes cfg env ds = .ok (ts, env')) (G : Nat → Prop)
    (hold : ∀ c, G c → c < env.classes.length → ClassInvertible env' G c)
    (hser : SerializableFields env ds)
    (hty : ∀ d ∈ ds, PlainFields env' d.2 ∧ ∀ f ∈ d.2, Invertible env' G f.2.required) (hGt : ∀ c, G c → c < env'.classes.length)
    (c : Nat) (hc : G c) (v : Val) (hv : HasTy env' v (.cls c)) (he : Encodable v) (skip : Bool) :
    ∃ j, objectToJson env' v = .ok j ∧ loads env' skip (.cls c) j = .ok v := by
  refine C11_roundtrip_partial env' (C89_wellformed_partial cfg env hk ds ts env' hn hnew h) G (fun c hc => ?_) _ (.cls hc) v hv he skip
  by_cases hlt : c < env.classes.length
  · exact hold c hc hlt
  have hl := hGt c hc
  have hs := C89_serializers cfg env ds ts env' h hser c (by omega) hl
  obtain ⟨rfl, -, -⟩ := createDataTypes_ok ds env ts env' h
  simp only [List.length_append, List.length_map] at hl
  obtain ⟨d, hd⟩ : ∃ d, ds[c - env.classes.length]? = some d := ⟨_, List.getElem?_eq_getElem (by omega)⟩
  have hm := List.mem_of_getElem? hd
  obtain ⟨h1, h2⟩ := hty d hm
  have hget : (env.classes ++ ds.map fun d => dataTypeOf d.1 d.2)[c]? = some (dataTypeOf d.1 d.2) := by
    rw [List.getElem?_append_right (by omega)]
    simp [hd]
  refine .standard (dataTypeOf d.1 d.2) hget rfl rfl (by simp [dataTypeOf]) (by simp [dataTypeOf]) hs ?_ ?_ ?_ ?_
  · simpa [dataTypeOf, writeProp, Function.comp_def] using h1.distinct
  · intro f hf
    obtain ⟨x, -, rfl⟩ := List.mem_map.1 hf
    rfl
  · intro f hf
    obtain ⟨x, hx, rfl⟩ := List.mem_map.1 hf
    exact h2 x hx
  · intro f hf hnone
    obtain ⟨x, hx, rfl⟩ := List.mem_map.1 hf
    simp [absentValue, dataTypeOf, h1.optional x hx hnone]

/-- C89 in part: what was read before has no influence on how documents are read as a class that was made.  Missing: classes with the
same name, and the exceptions of C28. -/
theorem C89_history_partial (cfg : BuildCfg) (env : Env) (hk : env.Ok) (ds : List (Str × List (Str × Ty))) (ts : List Ty) (env' : Env)
    (hn : (ds.map (·.1)).Nodup) (hnew : ∀ d ∈ ds, (c!"types", d.1) ∉ env.enums.map EnumDef.key ++ env.classes.map ClassDef.key)
    (h : createDataTypes cfg env ds = .ok (ts, env')) (t : Ty) (hg : ∀ c, Reaches env' t c → Buildable env' c)
    (skip : Bool) (calls : List Call) (hs : ∀ call ∈ calls, call.skip = skip) (j : Json) :
    (jsonToObject env' skip t j (history env' calls Heap.empty)).1 = loads env' skip t j := by
  have hk' := C89_wellformed_partial cfg env hk ds ts env' hn hnew h
  rw [C28_history_partial env' hk' calls skip t j hg fun c hc => .inl (hs c hc), C28_fresh env' hk' skip t j hg]

/-! ### Classes with the same name -/

/-- Two classes of the same name, as made by two calls. -/
def sameNames : List (Str × List (Str × Ty)) := [(c!"A", [(c!"x", .int)]), (c!"A", [(c!"y", .str)])]

/-- Classes made with the same name are not told apart, although they need not be attributes of any module: when a document has been read
as the first class, those of the second class are refused, and those of the first are read as the second class. -/
theorem C89_same_name_fails : ∃ env, createDataTypes cfg53 ⟨[], [], id⟩ sameNames = .ok ([.cls 0, .cls 1], env) ∧
    (jsonToObject env false (.cls 1) (.obj [(c!"y", .str c!"s")]) Heap.empty).1 = .ok (.obj 1 [(c!"y", .str c!"s")]) ∧
    (jsonToObject env false (.cls 1) (.obj [(c!"y", .str c!"s")])
      (history env [⟨false, .cls 0, .null⟩] Heap.empty)).1 = .error .jsonKey ∧
    (jsonToObject env false (.cls 1) (.obj [(c!"x", .int 1)])
      (history env [⟨false, .cls 0, .null⟩] Heap.empty)).1 = .ok (.obj 0 [(c!"x", .int 1)]) :=
  ⟨_, by with_unfolding_all rfl, rfl, rfl, rfl⟩

/-- So it is for all classes that are made with the same name, in all programs: when a document has been read as one of them, whether
successfully or not, all documents are read in the same way as the one and as the other, whatever their fields, and whatever the
options. -/
theorem C89_same_name (cfg : BuildCfg) (env : Env) (ds : List (Str × List (Str × Ty))) (ts : List Ty) (env' : Env)
    (h : createDataTypes cfg env ds = .ok (ts, env')) (i k : Nat) (d d' : Str × List (Str × Ty)) (hi : ds[i]? = some d)
    (hk : ds[k]? = some d') (hn : d.1 = d'.1) (t t' : Ty) (ht : ts[i]? = some t) (ht' : ts[k]? = some t') (calls : List Call)
    (hu : ∃ call ∈ calls, call.ty = t) (skip skip' : Bool) (j : Json) :
    (jsonToObject env' skip t j (history env' calls Heap.empty)).1 = (jsonToObject env' skip' t' j (history env' calls Heap.empty)).1 := by
  obtain ⟨-, -, -, -, g⟩ := C89_made cfg env ds ts env' h
  obtain ⟨c, cd, h1, -, h2, h3, h4, -⟩ := g i d hi
  obtain ⟨c', cd', h1', -, h2', h3', h4', -⟩ := g k d' hk
  rw [ht] at h1; cases h1
  rw [ht'] at h1'; cases h1'
  rw [jsonToObject_same h2 h2' (by simp [ClassDef.key, h3, h4, h3', h4', hn]) (history_left calls h2 Heap.empty hu) skip skip' j]

/-- The hypotheses are met: after a document for the first class, the second class is taken for the first. -/
example (j j' : Json) : ∃ env, createDataTypes cfg53 ⟨[], [], id⟩ sameNames = .ok ([.cls 0, .cls 1], env) ∧
    (jsonToObject env true (.cls 1) j (history env [⟨false, .cls 0, j'⟩] Heap.empty)).1 =
      (jsonToObject env false (.cls 0) j (history env [⟨false, .cls 0, j'⟩] Heap.empty)).1 := by
  obtain ⟨env, h, -⟩ := C89_same_name_fails
  exact ⟨env, h, (C89_same_name cfg53 _ sameNames _ env h 0 1 _ _ rfl rfl rfl _ _ rfl rfl _ ⟨_, .head _, rfl⟩ false true j).symm⟩

/-- Documents are read as a class that was made in the same way, whatever was read before (with the same options). -/
def C89_statement (cfg : BuildCfg) : Prop :=
  ∀ env ds ts env' calls t j, env.Ok → createDataTypes cfg env ds = .ok (ts, env') → t ∈ ts →
    (∀ c, Reaches env' t c → Buildable env' c) → (∀ call ∈ calls, call.skip = false) →
    (jsonToObject env' false t j (history env' calls Heap.empty)).1 = (jsonToObject env' false t j Heap.empty).1

theorem emptyEnv_ok : (⟨[], [], id⟩ : Env).Ok := ⟨by simp, by simp, by simp, fun _ => .refl _⟩

/-- The full statement fails. -/
theorem C89_violated : ¬ C89_statement cfg53 := by
  intro h
  obtain ⟨env, h1, h2, h3, -⟩ := C89_same_name_fails
  have := h _ _ _ _ [⟨false, .cls 0, .null⟩] (.cls 1) (.obj [(c!"y", .str c!"s")]) emptyEnv_ok h1 (by simp) ?_ (by simp)
  · rw [h2, h3] at this
    cases this
  · obtain ⟨rfl, -, -⟩ := createDataTypes_ok _ _ _ _ h1
    intro c hc
    have : c = 1 := by
      induction hc with
      | here h => cases h; rfl
      | field _ hcd _ hf hm ih =>
        subst ih
        cases hcd
        rcases List.mem_singleton.1 hf with rfl
        cases hm
    subst this
    exact ⟨_, rfl, fun _ f hf => by rcases List.mem_singleton.1 hf with rfl; exact ⟨_, rfl⟩⟩

/-! ### A concrete case -/

/-- Two classes, the second of which has a field of the first. -/
def pointAndLine : List (Str × List (Str × Ty)) :=
  [(c!"Point", [(c!"x", .int), (c!"y", .union [.int, .none])]), (c!"Line", [(c!"from_", .cls 0), (c!"to", .cls 0)])]

theorem pointAndLine_made : ∃ env', createDataTypes cfg53 ⟨[], [], id⟩ pointAndLine = .ok ([.cls 0, .cls 1], env') ∧
    env'.classes.length = 2 :=
  ⟨_, by with_unfolding_all rfl, rfl⟩

theorem pointAndLine_fields : SerializableFields ⟨[], [], id⟩ pointAndLine := by
  intro pre d post he f hf
  match pre, he with
  | [], he =>
    cases he
    simp only [List.mem_cons, List.not_mem_nil, or_false] at hf
    rcases hf with rfl | rfl <;> rfl
  | [_], he =>
    cases he
    simp only [List.mem_cons, List.not_mem_nil, or_false] at hf
    rcases hf with rfl | rfl <;> rfl
  | _ :: _ :: pre, he => have := congrArg List.length he; simp [pointAndLine] at this

/-- The hypotheses of the round trip are met by all lines. -/
example : ∃ env', createDataTypes cfg53 ⟨[], [], id⟩ pointAndLine = .ok ([.cls 0, .cls 1], env') ∧
    ∀ v, HasTy env' v (.cls 1) → Encodable v → ∀ skip, ∃ j, objectToJson env' v = .ok j ∧ loads env' skip (.cls 1) j = .ok v := by
  obtain ⟨env', h1, h4⟩ := pointAndLine_made
  refine ⟨env', h1, fun v hv he skip => ?_⟩
  refine C89_roundtrip_partial cfg53 _ emptyEnv_ok pointAndLine _ env' (by decide +kernel) (by simp) h1 (· < 2)
    (fun c _ h => by simp at h) pointAndLine_fields ?_ (fun c hc => by omega) 1 (by omega) v hv he skip
  · intro d hd
    simp only [pointAndLine, List.mem_cons, List.not_mem_nil, or_false] at hd
    rcases hd with rfl | rfl
    · refine ⟨⟨by decide +kernel, fun f hf hn => ?_⟩, fun f hf => ?_⟩ <;>
        simp only [List.mem_cons, List.not_mem_nil, or_false] at hf <;> rcases hf with rfl | rfl
      · cases hn
      · rfl
      · exact .scalar (t := .int) (by simp [scalarTys])
      · exact .scalar (t := .int) (by simp [scalarTys])
    · refine ⟨⟨by decide +kernel, fun f hf hn => ?_⟩, fun f hf => ?_⟩ <;>
        simp only [List.mem_cons, List.not_mem_nil, or_false] at hf <;> rcases hf with rfl | rfl
      · cases hn
      · cases hn
      · exact .cls (c := 0) (by omega)
      · exact .cls (c := 0) (by omega)

/-- The hypotheses of the history are met: points are read in the same way, whatever was read before as points or lines. -/
example (calls : List Call) (hs : ∀ call ∈ calls, call.skip = false) (j : Json) :
    ∃ env', createDataTypes cfg53 ⟨[], [], id⟩ pointAndLine = .ok ([.cls 0, .cls 1], env') ∧
      (jsonToObject env' false (.cls 0) j (history env' calls Heap.empty)).1 = loads env' false (.cls 0) j := by
  obtain ⟨env', h1, -⟩ := pointAndLine_made
  refine ⟨env', h1, C89_history_partial cfg53 _ emptyEnv_ok pointAndLine _ env' (by decide +kernel) (by simp) h1 _ ?_ _ _ hs j⟩
  obtain ⟨rfl, -, -⟩ := createDataTypes_ok _ _ _ _ h1
  intro c hc
  have : c = 0 := by
    induction hc with
    | here h => cases h; rfl
    | field _ hcd _ hf hm ih =>
      subst ih
      cases hcd
      simp only [ClassDef.hints, dataTypeOf, List.map_cons, List.map_nil, List.mem_cons, List.not_mem_nil, or_false] at hf
      rcases hf with rfl | rfl
      · cases hm
      · cases hm with
        | union ht hm =>
          simp only [List.mem_cons, List.not_mem_nil, or_false] at ht
          rcases ht with rfl | rfl <;> cases hm
  subst this
  refine ⟨_, rfl, fun _ f hf => ?_⟩
  simp only [ClassDef.hints, dataTypeOf, List.map_cons, List.map_nil, List.mem_cons, List.not_mem_nil, or_false] at hf
  rcases hf with rfl | rfl <;> exact ⟨_, rfl⟩

/-- There are lines: from (1, 2) to (3, None). -/
example : ∃ env', createDataTypes cfg53 ⟨[], [], id⟩ pointAndLine = .ok ([.cls 0, .cls 1], env') ∧
    objectToJson env' (.obj 1 [(c!"from_", .obj 0 [(c!"x", .int 1), (c!"y", .int 2)]), (c!"to", .obj 0 [(c!"x", .int 3), (c!"y", .none)])]) =
      .ok (.obj [(c!"from", .obj [(c!"x", .int 1), (c!"y", .int 2)]), (c!"to", .obj [(c!"x", .int 3)])]) :=
  ⟨_, by with_unfolding_all rfl, by with_unfolding_all rfl⟩

/-- A field with the name of a keyword, and names of fields that are not different, in declarations after others. -/
example : createDataTypes cfg53 ⟨[], [], id⟩ (pointAndLine ++ [(c!"A", [(c!"class", .int)])]) = .error .typeError ∧
    createDataTypes cfg53 ⟨[], [], id⟩ (pointAndLine ++ [(c!"A", [(c!"x", .int), (c!"x", .str)])]) = .error .typeError ∧
    createDataTypes cfg53 ⟨[], [], id⟩ [([Char.ofNat 0], [(c!"x", .int)])] = .error .valueError := by
  have hp : ∀ x ∈ pointAndLine, Declarable cfg53 x := by
    obtain ⟨env', h, -⟩ := pointAndLine_made
    exact (createDataTypes_ok _ _ _ _ h).2.2
  refine ⟨?_, ?_, ?_⟩
  · have hn : ¬ FieldNames cfg53 [(c!"class", .int)] := fun h => h.names _ (.head _) (.inr (by decide +kernel))
    exact (C89_errors cfg53 _ _ [] (c!"A", _) (by unfold NoDunder; decide +kernel) hp fun h => hn h.1).1 hn
  · have hn : ¬ FieldNames cfg53 [(c!"x", .int), (c!"x", .str)] := fun h => by simpa using h.distinct
    exact (C89_errors cfg53 _ _ [] (c!"A", _) (by unfold NoDunder; decide +kernel) hp fun h => hn h.1).1 hn
  · refine (C89_errors cfg53 _ [] [] (_, _) (by unfold NoDunder; decide +kernel) (by simp) fun h => h.2 (by simp)).2 ⟨?_, by simp⟩
    intro f hf
    rcases List.mem_singleton.1 hf with rfl
    rintro (h | h) <;> revert h <;> decide +kernel

end Verif
