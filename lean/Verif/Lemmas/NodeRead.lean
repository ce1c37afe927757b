import Verif.Lemmas.SchemaNode
import Verif.Spec.SchemaBuild
/-!
# Schemas that are read as nodes
-/
namespace Verif

/-! ### Kinds of values -/

/-- The type of an attribute. -/
def KwKind.ty : KwKind → Ty
  | .str => .str
  | .bool => .bool
  | .int => .int
  | .float => .float
  | .strs => .list .str
  | .bools => .list .bool
  | .ints => .list .int
  | .floats => .list .float

theorem loads_int_ok (i : Int) : loads schemaEnv false .int (.int i) = .ok (.int i) := rfl
theorem loads_str_ok (s : Str) : loads schemaEnv false .str (.str s) = .ok (.str s) := rfl
theorem loads_bool_ok (b : Bool) : loads schemaEnv false .bool (.bool b) = .ok (.bool b) := rfl

theorem loads_float_ok {x : Json} {f : PyFloat} (h : IsNumber x f) : loads schemaEnv false .float x = .ok (.float f) := by
  rcases h with rfl | ⟨i, rfl, h⟩
  · rfl
  · have : loads schemaEnv false .float (.int i) = parseFloat (.int i) := rfl
    rw [this]
    simp only [parseFloat, h]

theorem loads_list_of {t : Ty} (ht : Supported schemaEnv t) {xs : List Json} {vs : List Val}
    (h : All2 (fun x v => loads schemaEnv false t x = .ok v) xs vs) :
    loads schemaEnv false (.list t) (.arr xs) = .ok (.list vs) := by
  obtain ⟨d, hd⟩ := ht
  unfold loads
  simp only [compile, hd]
  rw [parse_list_arr]
  have : mapRes (parse schemaEnv (fullHeap schemaEnv false) · d) xs = .ok vs := by
    refine (mapRes_ok_iff _ _ _).2 (h.imp ?_)
    intro a b hab
    rw [loads_of_compile hd] at hab; exact hab
  rw [this]

/-! ### Keywords with their values -/

/-- A keyword with a string, an integer and so on. -/
def kvStr (k : Str) (kvs : List (Str × Json)) : Option Str :=
  match lookupKey k kvs with | some (.str s) => some s | _ => Option.none
def kvBool (k : Str) (kvs : List (Str × Json)) : Option Bool :=
  match lookupKey k kvs with | some (.bool s) => some s | _ => Option.none
def kvInt (k : Str) (kvs : List (Str × Json)) : Option Int :=
  match lookupKey k kvs with | some (.int s) => some s | _ => Option.none
def kvFloat (k : Str) (kvs : List (Str × Json)) : Option PyFloat :=
  match lookupKey k kvs with
  | some (.float f) => some f
  | some (.int i) => (match intToFloat i with | .ok f => some f | .error _ => Option.none)
  | _ => Option.none
def jsonStr : Json → Option Str | .str s => some s | _ => Option.none
def jsonInt : Json → Option Int | .int s => some s | _ => Option.none
def kvStrs (k : Str) (kvs : List (Str × Json)) : Option (List Str) :=
  match lookupKey k kvs with | some (.arr xs) => allSome jsonStr xs | _ => Option.none
def kvInts (k : Str) (kvs : List (Str × Json)) : Option (List Int) :=
  match lookupKey k kvs with | some (.arr xs) => allSome jsonInt xs | _ => Option.none

/-- The attribute shows the keyword. -/
def KwKind.Shows (k : Str) (kvs : List (Str × Json)) (w : Val) : KwKind → Prop
  | .str => optAttr Val.asStr w = some (kvStr k kvs)
  | .bool => optAttr Val.asBool w = some (kvBool k kvs)
  | .int => optAttr Val.asIntV w = some (kvInt k kvs)
  | .float => optAttr Val.asFloat w = some (kvFloat k kvs)
  | .strs => optAttr (Val.asList Val.asStr) w = some (kvStrs k kvs)
  | .ints => optAttr (Val.asList Val.asIntV) w = some (kvInts k kvs)
  | _ => True

theorem strs_all2 {xs : List Json} (h : ∀ y ∈ xs, ∃ s, y = .str s) :
    ∃ ss, xs = ss.map Json.str ∧ allSome jsonStr xs = some ss ∧
      All2 (fun x v => loads schemaEnv false .str x = .ok v) xs (ss.map Val.str) ∧
      allSome Val.asStr (ss.map Val.str) = some ss := by
  induction xs with
  | nil => exact ⟨[], rfl, rfl, .nil, rfl⟩
  | cons x xs ih =>
    obtain ⟨ss, h0, h1, h2, h3⟩ := ih fun y hy => h y (by simp [hy])
    obtain ⟨s, rfl⟩ := h x (by simp)
    exact ⟨s :: ss, by simp [h0], by simp [allSome, jsonStr, h1], .cons rfl h2, by simp [allSome, Val.asStr, h3]⟩

theorem ints_all2 {xs : List Json} (h : ∀ y ∈ xs, ∃ s, y = .int s) :
    ∃ ss, xs = ss.map Json.int ∧ allSome jsonInt xs = some ss ∧
      All2 (fun x v => loads schemaEnv false .int x = .ok v) xs (ss.map Val.int) ∧
      allSome Val.asIntV (ss.map Val.int) = some ss := by
  induction xs with
  | nil => exact ⟨[], rfl, rfl, .nil, rfl⟩
  | cons x xs ih =>
    obtain ⟨ss, h0, h1, h2, h3⟩ := ih fun y hy => h y (by simp [hy])
    obtain ⟨s, rfl⟩ := h x (by simp)
    exact ⟨s :: ss, by simp [h0], by simp [allSome, jsonInt, h1], .cons rfl h2, by simp [allSome, Val.asIntV, h3]⟩

theorem all2_of_each {R : α → β → Prop} {xs : List α} (h : ∀ x ∈ xs, ∃ y, R x y) : ∃ ys, All2 R xs ys := by
  induction xs with
  | nil => exact ⟨[], .nil⟩
  | cons x xs ih =>
    obtain ⟨ys, hys⟩ := ih fun y hy => h y (by simp [hy])
    obtain ⟨y, hy⟩ := h x (by simp)
    exact ⟨y :: ys, .cons hy hys⟩

/-- Values of the right kind can be read. -/
theorem KwKind.read {K : KwKind} {k : Str} {kvs : List (Str × Json)} {x : Json} (hx : lookupKey k kvs = some x) (h : K.Holds x) :
    x ≠ .null ∧ ∃ w, loads schemaEnv false K.ty x = .ok w ∧ K.Shows k kvs w := by
  cases K with
  | str => obtain ⟨s, rfl⟩ := h; exact ⟨by simp, .str s, rfl, by simp [Shows, kvStr, hx, optAttr, Val.asStr]⟩
  | bool => obtain ⟨s, rfl⟩ := h; exact ⟨by simp, .bool s, rfl, by simp [Shows, kvBool, hx, optAttr, Val.asBool]⟩
  | int => obtain ⟨s, rfl⟩ := h; exact ⟨by simp, .int s, rfl, by simp [Shows, kvInt, hx, optAttr, Val.asIntV]⟩
  | float =>
    obtain ⟨f, hf⟩ := h
    refine ⟨?_, .float f, loads_float_ok hf, ?_⟩
    · rcases hf with rfl | ⟨i, rfl, _⟩ <;> simp
    · rcases hf with rfl | ⟨i, rfl, hi⟩ <;> simp [Shows, kvFloat, hx, optAttr, Val.asFloat, *]
  | strs =>
    obtain ⟨xs, rfl, h⟩ := h
    obtain ⟨ss, _, h1, h2, h3⟩ := strs_all2 h
    exact ⟨by simp, .list (ss.map Val.str), loads_list_of ⟨_, rfl⟩ h2, by simp [Shows, kvStrs, hx, optAttr, Val.asList, h1, h3]⟩
  | ints =>
    obtain ⟨xs, rfl, h⟩ := h
    obtain ⟨ss, _, h1, h2, h3⟩ := ints_all2 h
    exact ⟨by simp, .list (ss.map Val.int), loads_list_of ⟨_, rfl⟩ h2, by simp [Shows, kvInts, hx, optAttr, Val.asList, h1, h3]⟩
  | bools =>
    obtain ⟨xs, rfl, h⟩ := h
    obtain ⟨vs, hvs⟩ := all2_of_each (R := fun x v => loads schemaEnv false .bool x = .ok v) (xs := xs) (by
      intro x hx; obtain ⟨b, rfl⟩ := h x hx; exact ⟨_, rfl⟩)
    exact ⟨by simp, .list vs, loads_list_of ⟨_, rfl⟩ hvs, trivial⟩
  | floats =>
    obtain ⟨xs, rfl, h⟩ := h
    obtain ⟨vs, hvs⟩ := all2_of_each (R := fun x v => loads schemaEnv false .float x = .ok v) (xs := xs) (by
      intro x hx; obtain ⟨b, hb⟩ := h x hx; exact ⟨_, loads_float_ok hb⟩)
    exact ⟨by simp, .list vs, loads_list_of ⟨_, rfl⟩ hvs, trivial⟩

theorem KwKind.shows_absent {K : KwKind} {k : Str} {kvs : List (Str × Json)} (hx : lookupKey k kvs = Option.none) :
    K.Shows k kvs .none := by
  cases K <;> simp [Shows, kvStr, kvBool, kvInt, kvFloat, kvStrs, kvInts, hx, optAttr]

theorem optTy_required (K : KwKind) : (optTy K.ty).required = K.ty := by cases K <;> rfl
theorem optTy_isOptional (K : KwKind) : (optTy K.ty).isOptional = true := by cases K <;> rfl
theorem optTy_alias (K : KwKind) : (optTy K.ty).alias = Option.none := by cases K <;> rfl

/-- Reading an optional attribute. -/
theorem read_attr (K : KwKind) (k : Str) (hk : fieldToProperty k Option.none = k) {kvs : List (Str × Json)}
    (h : ∀ x, lookupKey k kvs = some x → K.Holds x) :
    ∃ w, readField schemaEnv false (.dataclass false) { name := k, ty := optTy K.ty } kvs = .ok w ∧ K.Shows k kvs w := by
  have e1 : fieldProp (.dataclass false) { name := k, ty := optTy K.ty } = k := by
    simp only [fieldProp, optTy_alias]; exact hk
  have e2 : fieldTy (.dataclass false) { name := k, ty := optTy K.ty } = K.ty := optTy_required K
  have e3 : absentValue (.dataclass false) { name := k, ty := optTy K.ty } = some .none := by
    simp [absentValue, optTy_isOptional]
  unfold readField
  rw [e1, e2, e3]
  cases hx : lookupKey k kvs with
  | none => exact ⟨.none, rfl, KwKind.shows_absent hx⟩
  | some x =>
    obtain ⟨hn, w, hw, hs⟩ := KwKind.read hx (h x hx)
    refine ⟨w, ?_, hs⟩
    cases x <;> first | exact absurd rfl hn | exact hw

theorem Keywords.holds {table : List (Str × KwKind)} {others : List Str} {kvs : List (Str × Json)} (h : Keywords table others kvs)
    {k : Str} {K : KwKind} (ho : k ∉ others) (hu : (textKeywords ++ table).filter (fun p => p.1 = k) = [(k, K)]) :
    ∀ x, lookupKey k kvs = some x → K.Holds x := by
  intro x hx
  obtain ⟨K', hm, hh⟩ := h k x hx ho
  have : (k, K') ∈ (textKeywords ++ table).filter (fun p => p.1 = k) := List.mem_filter.2 ⟨hm, by simp⟩
  rw [hu, List.mem_singleton] at this
  cases this
  exact hh

theorem Keywords.attr {table : List (Str × KwKind)} {others : List Str} {kvs : List (Str × Json)} (h : Keywords table others kvs)
    (k : Str) (K : KwKind) (ho : k ∉ others) (hu : (textKeywords ++ table).filter (fun p => p.1 = k) = [(k, K)])
    (hk : fieldToProperty k Option.none = k) :
    ∃ w, readField schemaEnv false (.dataclass false) { name := k, ty := optTy K.ty } kvs = .ok w ∧ K.Shows k kvs w :=
  read_attr K k hk (h.holds ho hu)

theorem Keywords.known {table : List (Str × KwKind)} {others : List Str} {kvs : List (Str × Json)} (h : Keywords table others kvs)
    {cd : ClassDef} (hc : ∀ k ∈ others ++ (textKeywords ++ table).map (·.1), ∃ f ∈ cd.hints, fieldProp cd.kind f = k) :
    OnlyKnown cd kvs := by
  intro kv hkv
  apply hc
  cases hl : lookupKey kv.1 kvs with
  | none => exact absurd (List.mem_map_of_mem hkv) ((lookupKey_none_iff' (k := kv.1)).1 hl)
  | some x =>
    by_cases ho : kv.1 ∈ others
    · simp [ho]
    · obtain ⟨K, hm, _⟩ := h _ _ hl ho
      exact List.mem_append_right _ (List.mem_map_of_mem (f := (·.1)) hm)

/-! ### Classes that read a schema, and classes that do not -/

theorem accept {c : Nat} {cd : ClassDef} (hcd : schemaEnv.classes[c]? = some cd) {kvs : List (Str × Json)} {vs : List (Str × Val)}
    (ha : All2 (fun f w => w.1 = f.name ∧ readField schemaEnv false cd.kind f kvs = .ok w.2) cd.hints vs)
    (ho : OnlyKnown cd kvs) : loads schemaEnv false (.cls c) (.obj kvs) = .ok (.obj c vs) :=
  (loads_cls_ok_iff schemaEnv_ok false (schemaEnv_readable _ _ hcd) _ _).2 ⟨kvs, vs, rfl, rfl, ha, .inr ho⟩

/-- Title and description are texts. -/
def Texts (kvs : List (Str × Json)) : Prop := ∀ k ∈ [c!"title", c!"description"], ∀ x, lookupKey k kvs = some x → ∃ s, x = .str s

theorem Keywords.texts {table : List (Str × KwKind)} {others : List Str} {kvs : List (Str × Json)} (h : Keywords table others kvs)
    (h1 : c!"title" ∉ others) (h2 : c!"description" ∉ others)
    (u1 : (textKeywords ++ table).filter (fun p => p.1 = c!"title") = [(c!"title", .str)])
    (u2 : (textKeywords ++ table).filter (fun p => p.1 = c!"description") = [(c!"description", .str)]) : Texts kvs := by
  intro k hk x hx
  simp only [List.mem_cons, List.not_mem_nil, or_false] at hk
  rcases hk with rfl | rfl
  · exact h.holds h1 u1 x hx
  · exact h.holds h2 u2 x hx

/-- A class whose third field cannot be read. -/
theorem reject {c : Nat} {cd : ClassDef} {f : FieldDef} {fs : List FieldDef} {e : Err} {kvs : List (Str × Json)}
    (hcd : schemaEnv.classes[c]? = some cd) (hk : cd.kind = .dataclass false) (hh : cd.hints = nodeFields ++ f :: fs)
    (ht : Texts kvs) (hf : readField schemaEnv false cd.kind f kvs = .error e) :
    loads schemaEnv false (.cls c) (.obj kvs) = .error e := by
  rw [loads_cls_obj schemaEnv_ok false (schemaEnv_readable _ _ hcd), hh]
  obtain ⟨w1, h1, _⟩ := read_attr .str c!"title" (by decide) (kvs := kvs) (fun x hx => ht _ (by simp) x hx)
  obtain ⟨w2, h2, _⟩ := read_attr .str c!"description" (by decide) (kvs := kvs) (fun x hx => ht _ (by simp) x hx)
  rw [hk] at hf ⊢
  have h1 : readField schemaEnv false (.dataclass false) { name := c!"title", ty := optTy .str } kvs = .ok w1 := h1
  have h2 : readField schemaEnv false (.dataclass false) { name := c!"description", ty := optTy .str } kvs = .ok w2 := h2
  simp only [nodeFields, List.cons_append, List.nil_append, mapRes, readNamed, h1, h2, hf]

/-- The type of a class of nodes. -/
def classType : List (Nat × Str) :=
  [(1, c!"boolean"), (2, c!"integer"), (3, c!"number"), (4, c!"string"), (5, c!"array"), (6, c!"object")]

theorem read_type (T : Str) (kvs : List (Str × Json)) :
    readField schemaEnv false (.dataclass false) { name := c!"type", ty := .literal [.str T] } kvs =
      match lookupKey c!"type" kvs with
      | Option.none => .error .jsonKey
      | some .null => .error .jsonValue
      | some x => loads schemaEnv false (.literal [.str T]) x := rfl

theorem loads_type (T s : Str) :
    loads schemaEnv false (.literal [.str T]) (.str s) = if s = T then .ok (.str s) else .error .jsonType := by
  have : loads schemaEnv false (.literal [.str T]) (.str s) =
    (if litMem [.str T] (.str s) then Except.ok (.str s) else .error .jsonType) := rfl
  rw [this]
  by_cases h : s = T
  · subst h; simp [litMem, Lit.scalar, Val.scalar, Scalar.pyEq]
  · rw [if_neg h, if_neg]; simp [litMem, Lit.scalar, Val.scalar, Scalar.pyEq, h]; exact fun e => h e.symm

theorem class_type {c : Nat} {T : Str} (h : (c, T) ∈ classType) :
    ∃ cd fs, schemaEnv.classes[c]? = some cd ∧ cd.kind = .dataclass false ∧
      cd.hints = nodeFields ++ { name := c!"type", ty := .literal [.str T] } :: fs := by
  simp only [classType, List.mem_cons, List.not_mem_nil, or_false, Prod.mk.injEq] at h
  rcases h with ⟨rfl, rfl⟩ | ⟨rfl, rfl⟩ | ⟨rfl, rfl⟩ | ⟨rfl, rfl⟩ | ⟨rfl, rfl⟩ | ⟨rfl, rfl⟩ <;> exact ⟨_, _, rfl, rfl, rfl⟩

/-- A class of another type. -/
theorem reject_type {c : Nat} {T S : Str} (h : (c, T) ∈ classType) {kvs : List (Str × Json)} (ht : Texts kvs) (hs : HasType S kvs)
    (hne : S ≠ T) : loads schemaEnv false (.cls c) (.obj kvs) = .error .jsonType := by
  obtain ⟨cd, fs, h1, h2, h3⟩ := class_type h
  refine reject h1 h2 h3 ht ?_
  rw [h2, read_type T kvs, hs]
  simp only [loads_type, if_neg hne]

/-- A class with a type, when there is none. -/
theorem reject_untyped {c : Nat} {T : Str} (h : (c, T) ∈ classType) {kvs : List (Str × Json)} (ht : Texts kvs)
    (hs : lookupKey c!"type" kvs = Option.none) : loads schemaEnv false (.cls c) (.obj kvs) = .error .jsonKey := by
  obtain ⟨cd, fs, h1, h2, h3⟩ := class_type h
  refine reject h1 h2 h3 ht ?_
  rw [h2, read_type T kvs, hs]

/-- The class of references, when there is none. -/
theorem reject_ref {kvs : List (Str × Json)} (ht : Texts kvs) (hs : lookupKey c!"$ref" kvs = Option.none) :
    loads schemaEnv false (.cls 0) (.obj kvs) = .error .jsonKey := by
  refine reject (c := 0) rfl rfl rfl ht ?_
  have : readField schemaEnv false (.dataclass false) { name := c!"ref", ty := .annotated .str [.alias c!"$ref"] } kvs =
      match lookupKey c!"$ref" kvs with
      | Option.none => .error .jsonKey
      | some .null => .error .jsonValue
      | some x => loads schemaEnv false (.annotated .str [.alias c!"$ref"]) x := rfl
  refine Eq.trans this ?_
  rw [hs]

/-- The schema is read as the node. -/
def ReadAs (j : Json) (n : TNode) : Prop := ∃ v, loads schemaEnv false anyNodeTy j = .ok v ∧ toAttr v = .node n

theorem readAs_of {c : Nat} {j : Json} {v : Val} {n : TNode} (hc : c < 8) (h : loads schemaEnv false (.cls c) j = .ok v)
    (hp : ∀ i < c, loads schemaEnv false (.cls i) j = .error .jsonKey ∨ loads schemaEnv false (.cls i) j = .error .jsonType)
    (hn : toAttr v = .node n) : ReadAs j n := by
  have hs : ∀ t ∈ [Ty.cls 0, .cls 1, .cls 2, .cls 3, .cls 4, .cls 5, .cls 6, .cls 7], Supported schemaEnv t := by
    intro t ht
    simp only [List.mem_cons, List.not_mem_nil, or_false] at ht
    rcases ht with rfl | rfl | rfl | rfl | rfl | rfl | rfl | rfl <;> exact ⟨_, rfl⟩
  refine ⟨v, (C21_ok_iff schemaEnv false _ schemaEnv_untagged hs j v).2 ?_, hn⟩
  refine ⟨(List.range c).map Ty.cls, .cls c, (List.range (7 - c)).map (fun i => Ty.cls (c + 1 + i)), ?_, h, ?_⟩
  · have h8 : c = 0 ∨ c = 1 ∨ c = 2 ∨ c = 3 ∨ c = 4 ∨ c = 5 ∨ c = 6 ∨ c = 7 := by omega
    rcases h8 with rfl | rfl | rfl | rfl | rfl | rfl | rfl | rfl <;> rfl
  · intro u hu
    obtain ⟨i, hi, rfl⟩ := List.mem_map.1 hu
    exact hp i (List.mem_range.1 hi)

/-- A schema of a type. -/
theorem readAs_typed {c : Nat} {T : Str} (h : (c, T) ∈ classType) {kvs : List (Str × Json)} {v : Val} {n : TNode} (ht : Texts kvs)
    (hs : HasType T kvs) (hr : lookupKey c!"$ref" kvs = Option.none) (hl : loads schemaEnv false (.cls c) (.obj kvs) = .ok v)
    (hn : toAttr v = .node n) : ReadAs (.obj kvs) n := by
  have hc : c < 8 := by
    simp only [classType, List.mem_cons, List.not_mem_nil, or_false, Prod.mk.injEq] at h; omega
  refine readAs_of hc hl (fun i hi => ?_) hn
  by_cases h0 : i = 0
  · subst h0; exact .inl (reject_ref ht hr)
  · have : ∃ S, (i, S) ∈ classType ∧ T ≠ S := by
      have : ∀ p ∈ classType, ∀ i < p.1, i ≠ 0 → ∃ q ∈ classType, q.1 = i ∧ p.2 ≠ q.2 := by decide
      obtain ⟨⟨a, S⟩, hq, hqi, hne⟩ := this _ h i hi h0
      simp only at hqi hne
      subst hqi
      exact ⟨S, hq, hne⟩
    obtain ⟨S, hS, hne⟩ := this
    exact .inr (reject_type hS ht hs hne)

/-! ### Scalars -/

theorem Keywords.absent {table : List (Str × KwKind)} {others : List Str} {kvs : List (Str × Json)} (h : Keywords table others kvs)
    (k : Str) (ho : k ∉ others ++ (textKeywords ++ table).map (·.1)) : lookupKey k kvs = Option.none := by
  cases hl : lookupKey k kvs with
  | none => rfl
  | some x =>
    exfalso
    apply ho
    by_cases ho : k ∈ others
    · simp [ho]
    · obtain ⟨K, hm, _⟩ := h _ _ hl ho
      exact List.mem_append_right _ (List.mem_map_of_mem (f := (·.1)) hm)

theorem read_own_type {T : Str} {kvs : List (Str × Json)} (h : HasType T kvs) :
    readField schemaEnv false (.dataclass false) { name := c!"type", ty := .literal [.str T] } kvs = .ok (.str T) := by
  rw [read_type T kvs, h]
  simp only [loads_type, if_pos]

theorem bool_readAs {kvs : List (Str × Json)} (h : Keywords boolKeywords [c!"type"] kvs) (ht : HasType c!"boolean" kvs) :
    ReadAs (.obj kvs) (.bool (kvBool c!"const" kvs) (kvBool c!"default" kvs)) := by
  obtain ⟨w1, r1, s1⟩ := h.attr c!"title" .str (by decide) (by decide) (by decide)
  obtain ⟨w2, r2, s2⟩ := h.attr c!"description" .str (by decide) (by decide) (by decide)
  obtain ⟨w3, r3, s3⟩ := h.attr c!"format" .str (by decide) (by decide) (by decide)
  obtain ⟨w4, r4, s4⟩ := h.attr c!"const" .bool (by decide) (by decide) (by decide)
  obtain ⟨w5, r5, s5⟩ := h.attr c!"default" .bool (by decide) (by decide) (by decide)
  obtain ⟨w6, r6, s6⟩ := h.attr c!"examples" .bools (by decide) (by decide) (by decide)
  refine readAs_typed (c := 1) (by simp [classType]) (h.texts (by decide) (by decide) (by decide) (by decide)) ht
    (h.absent _ (by decide)) (accept rfl (vs := [(c!"title", w1), (c!"description", w2), (c!"type", .str c!"boolean"),
      (c!"format", w3), (c!"const", w4), (c!"default", w5), (c!"examples", w6)])
      (.cons ⟨rfl, r1⟩ (.cons ⟨rfl, r2⟩ (.cons ⟨rfl, read_own_type ht⟩ (.cons ⟨rfl, r3⟩ (.cons ⟨rfl, r4⟩ (.cons ⟨rfl, r5⟩
        (.cons ⟨rfl, r6⟩ .nil)))))))
      (h.known (by decide))) ?_
  have e : nodeOf 1 [(c!"title", w1), (c!"description", w2), (c!"type", .str c!"boolean"),
      (c!"format", w3), (c!"const", w4), (c!"default", w5), (c!"examples", w6)]
      (toAttrs [(c!"title", w1), (c!"description", w2), (c!"type", .str c!"boolean"),
      (c!"format", w3), (c!"const", w4), (c!"default", w5), (c!"examples", w6)]) =
      match optAttr Val.asBool w4, optAttr Val.asBool w5 with
      | some c, some d => some (.bool c d)
      | _, _ => Option.none := rfl
  simp only [toAttr]
  rw [e]
  simp only [KwKind.Shows] at s4 s5
  rw [s4, s5]

theorem int_readAs {kvs : List (Str × Json)} (h : Keywords intKeywords [c!"type"] kvs) (ht : HasType c!"integer" kvs) :
    ReadAs (.obj kvs) (.int (kvStr c!"format" kvs) (kvInt c!"const" kvs) (kvInt c!"default" kvs) (kvInts c!"enum" kvs)
      (kvInt c!"minimum" kvs) (kvInt c!"maximum" kvs)) := by
  obtain ⟨w1, r1, s1⟩ := h.attr c!"title" .str (by decide) (by decide) (by decide)
  obtain ⟨w2, r2, s2⟩ := h.attr c!"description" .str (by decide) (by decide) (by decide)
  obtain ⟨w3, r3, s3⟩ := h.attr c!"format" .str (by decide) (by decide) (by decide)
  obtain ⟨w4, r4, s4⟩ := h.attr c!"const" .int (by decide) (by decide) (by decide)
  obtain ⟨w5, r5, s5⟩ := h.attr c!"default" .int (by decide) (by decide) (by decide)
  obtain ⟨w6, r6, s6⟩ := h.attr c!"examples" .ints (by decide) (by decide) (by decide)
  obtain ⟨w7, r7, s7⟩ := h.attr c!"enum" .ints (by decide) (by decide) (by decide)
  obtain ⟨w8, r8, s8⟩ := h.attr c!"minimum" .int (by decide) (by decide) (by decide)
  obtain ⟨w9, r9, s9⟩ := h.attr c!"maximum" .int (by decide) (by decide) (by decide)
  refine readAs_typed (c := 2) (by simp [classType]) (h.texts (by decide) (by decide) (by decide) (by decide)) ht
    (h.absent _ (by decide)) (accept rfl (vs := [(c!"title", w1), (c!"description", w2), (c!"type", .str c!"integer"),
      (c!"format", w3), (c!"const", w4), (c!"default", w5), (c!"examples", w6), (c!"enum", w7), (c!"minimum", w8),
      (c!"maximum", w9)])
      (.cons ⟨rfl, r1⟩ (.cons ⟨rfl, r2⟩ (.cons ⟨rfl, read_own_type ht⟩ (.cons ⟨rfl, r3⟩ (.cons ⟨rfl, r4⟩ (.cons ⟨rfl, r5⟩
        (.cons ⟨rfl, r6⟩ (.cons ⟨rfl, r7⟩ (.cons ⟨rfl, r8⟩ (.cons ⟨rfl, r9⟩ .nil))))))))))
      (h.known (by decide))) ?_
  have e : ∀ ns, nodeOf 2 [(c!"title", w1), (c!"description", w2), (c!"type", .str c!"integer"),
      (c!"format", w3), (c!"const", w4), (c!"default", w5), (c!"examples", w6), (c!"enum", w7), (c!"minimum", w8),
      (c!"maximum", w9)] ns =
      match optAttr Val.asStr w3, optAttr Val.asIntV w4, optAttr Val.asIntV w5, optAttr (Val.asList Val.asIntV) w7,
        optAttr Val.asIntV w8, optAttr Val.asIntV w9 with
      | some f, some c, some d, some e, some lo, some hi => some (.int f c d e lo hi)
      | _, _, _, _, _, _ => Option.none := fun _ => rfl
  simp only [toAttr]
  rw [e]
  simp only [KwKind.Shows] at s3 s4 s5 s7 s8 s9
  rw [s3, s4, s5, s7, s8, s9]

theorem num_readAs {kvs : List (Str × Json)} (h : Keywords numKeywords [c!"type"] kvs) (ht : HasType c!"number" kvs) :
    ReadAs (.obj kvs) (.num (kvStr c!"format" kvs) (kvFloat c!"const" kvs) (kvFloat c!"default" kvs)
      (kvFloat c!"exclusiveMinimum" kvs) (kvFloat c!"exclusiveMaximum" kvs) (kvFloat c!"multipleOf" kvs)) := by
  obtain ⟨w1, r1, s1⟩ := h.attr c!"title" .str (by decide) (by decide) (by decide)
  obtain ⟨w2, r2, s2⟩ := h.attr c!"description" .str (by decide) (by decide) (by decide)
  obtain ⟨w3, r3, s3⟩ := h.attr c!"format" .str (by decide) (by decide) (by decide)
  obtain ⟨w4, r4, s4⟩ := h.attr c!"const" .float (by decide) (by decide) (by decide)
  obtain ⟨w5, r5, s5⟩ := h.attr c!"default" .float (by decide) (by decide) (by decide)
  obtain ⟨w6, r6, s6⟩ := h.attr c!"examples" .floats (by decide) (by decide) (by decide)
  obtain ⟨w7, r7, s7⟩ := h.attr c!"minimum" .float (by decide) (by decide) (by decide)
  obtain ⟨w8, r8, s8⟩ := h.attr c!"maximum" .float (by decide) (by decide) (by decide)
  obtain ⟨w9, r9, s9⟩ := h.attr c!"exclusiveMinimum" .float (by decide) (by decide) (by decide)
  obtain ⟨wa, ra, sa⟩ := h.attr c!"exclusiveMaximum" .float (by decide) (by decide) (by decide)
  obtain ⟨wb, rb, sb⟩ := h.attr c!"multipleOf" .float (by decide) (by decide) (by decide)
  refine readAs_typed (c := 3) (by simp [classType]) (h.texts (by decide) (by decide) (by decide) (by decide)) ht
    (h.absent _ (by decide)) (accept rfl (vs := [(c!"title", w1), (c!"description", w2), (c!"type", .str c!"number"),
      (c!"format", w3), (c!"const", w4), (c!"default", w5), (c!"examples", w6), (c!"minimum", w7), (c!"maximum", w8),
      (c!"exclusiveMinimum", w9), (c!"exclusiveMaximum", wa), (c!"multipleOf", wb)])
      (.cons ⟨rfl, r1⟩ (.cons ⟨rfl, r2⟩ (.cons ⟨rfl, read_own_type ht⟩ (.cons ⟨rfl, r3⟩ (.cons ⟨rfl, r4⟩ (.cons ⟨rfl, r5⟩
        (.cons ⟨rfl, r6⟩ (.cons ⟨rfl, r7⟩ (.cons ⟨rfl, r8⟩ (.cons ⟨rfl, r9⟩ (.cons ⟨rfl, ra⟩ (.cons ⟨rfl, rb⟩ .nil))))))))))))
      (h.known (by decide))) ?_
  have e : ∀ ns, nodeOf 3 [(c!"title", w1), (c!"description", w2), (c!"type", .str c!"number"),
      (c!"format", w3), (c!"const", w4), (c!"default", w5), (c!"examples", w6), (c!"minimum", w7), (c!"maximum", w8),
      (c!"exclusiveMinimum", w9), (c!"exclusiveMaximum", wa), (c!"multipleOf", wb)] ns =
      match optAttr Val.asStr w3, optAttr Val.asFloat w4, optAttr Val.asFloat w5, optAttr Val.asFloat w9,
        optAttr Val.asFloat wa, optAttr Val.asFloat wb with
      | some f, some c, some d, some lo, some hi, some m => some (.num f c d lo hi m)
      | _, _, _, _, _, _ => Option.none := fun _ => rfl
  simp only [toAttr]
  rw [e]
  simp only [KwKind.Shows] at s3 s4 s5 s9 sa sb
  rw [s3, s4, s5, s9, sa, sb]

theorem str_readAs {kvs : List (Str × Json)} (h : Keywords strKeywords [c!"type"] kvs) (ht : HasType c!"string" kvs) :
    ReadAs (.obj kvs) (.str (kvStr c!"format" kvs) (kvStr c!"const" kvs) (kvStr c!"default" kvs)
      (kvStrs c!"enum" kvs) (kvInt c!"maxLength" kvs)) := by
  obtain ⟨w1, r1, s1⟩ := h.attr c!"title" .str (by decide) (by decide) (by decide)
  obtain ⟨w2, r2, s2⟩ := h.attr c!"description" .str (by decide) (by decide) (by decide)
  obtain ⟨w3, r3, s3⟩ := h.attr c!"format" .str (by decide) (by decide) (by decide)
  obtain ⟨w4, r4, s4⟩ := h.attr c!"const" .str (by decide) (by decide) (by decide)
  obtain ⟨w5, r5, s5⟩ := h.attr c!"default" .str (by decide) (by decide) (by decide)
  obtain ⟨w6, r6, s6⟩ := h.attr c!"examples" .strs (by decide) (by decide) (by decide)
  obtain ⟨w7, r7, s7⟩ := h.attr c!"enum" .strs (by decide) (by decide) (by decide)
  obtain ⟨w8, r8, s8⟩ := h.attr c!"minLength" .int (by decide) (by decide) (by decide)
  obtain ⟨w9, r9, s9⟩ := h.attr c!"maxLength" .int (by decide) (by decide) (by decide)
  refine readAs_typed (c := 4) (by simp [classType]) (h.texts (by decide) (by decide) (by decide) (by decide)) ht
    (h.absent _ (by decide)) (accept rfl (vs := [(c!"title", w1), (c!"description", w2), (c!"type", .str c!"string"),
      (c!"format", w3), (c!"const", w4), (c!"default", w5), (c!"examples", w6), (c!"enum", w7), (c!"minLength", w8),
      (c!"maxLength", w9)])
      (.cons ⟨rfl, r1⟩ (.cons ⟨rfl, r2⟩ (.cons ⟨rfl, read_own_type ht⟩ (.cons ⟨rfl, r3⟩ (.cons ⟨rfl, r4⟩ (.cons ⟨rfl, r5⟩
        (.cons ⟨rfl, r6⟩ (.cons ⟨rfl, r7⟩ (.cons ⟨rfl, r8⟩ (.cons ⟨rfl, r9⟩ .nil))))))))))
      (h.known (by decide))) ?_
  have e : ∀ ns, nodeOf 4 [(c!"title", w1), (c!"description", w2), (c!"type", .str c!"string"),
      (c!"format", w3), (c!"const", w4), (c!"default", w5), (c!"examples", w6), (c!"enum", w7), (c!"minLength", w8),
      (c!"maxLength", w9)] ns =
      match optAttr Val.asStr w3, optAttr Val.asStr w4, optAttr Val.asStr w5, optAttr (Val.asList Val.asStr) w7,
        optAttr Val.asIntV w9 with
      | some f, some c, some d, some e, some m => some (.str f c d e m)
      | _, _, _, _, _ => Option.none := fun _ => rfl
  simp only [toAttr]
  rw [e]
  simp only [KwKind.Shows] at s3 s4 s5 s7 s9
  rw [s3, s4, s5, s7, s9]

theorem ref_readAs {kvs : List (Str × Json)} {r : Str} (h : Keywords [] [c!"$ref"] kvs)
    (hr : lookupKey c!"$ref" kvs = some (.str r)) : ReadAs (.obj kvs) (.ref r) := by
  obtain ⟨w1, r1, s1⟩ := h.attr c!"title" .str (by decide) (by decide) (by decide)
  obtain ⟨w2, r2, s2⟩ := h.attr c!"description" .str (by decide) (by decide) (by decide)
  have r3 : readField schemaEnv false (.dataclass false) { name := c!"ref", ty := .annotated .str [.alias c!"$ref"] } kvs =
      match lookupKey c!"$ref" kvs with
      | Option.none => .error .jsonKey
      | some .null => .error .jsonValue
      | some x => loads schemaEnv false (.annotated .str [.alias c!"$ref"]) x := rfl
  rw [hr] at r3
  have r4 : loads schemaEnv false (.annotated .str [.alias c!"$ref"]) (.str r) = .ok (.str r) := rfl
  exact readAs_of (c := 0) (by decide) (accept rfl (vs := [(c!"title", w1), (c!"description", w2), (c!"ref", .str r)])
    (.cons ⟨rfl, r1⟩ (.cons ⟨rfl, r2⟩ (.cons ⟨rfl, r3.trans r4⟩ .nil))) (h.known (by decide))) (fun i hi => by omega) rfl

/-! ### Containers -/

theorem ReadAs.obj {j : Json} {n : TNode} (h : ReadAs j n) : ∃ kvs, j = .obj kvs := by
  obtain ⟨v, hv, _⟩ := h
  obtain ⟨c, hc, hl⟩ := loads_anyNode hv
  obtain ⟨kvs, _, rfl, _⟩ := loads_node (by omega) hl
  exact ⟨kvs, rfl⟩

theorem anyNode_supported : Supported schemaEnv anyNodeTy := ⟨_, rfl⟩

/-- Keywords of an array apart from its items. -/
def arrKeywords : List (Str × KwKind) := [(c!"format", .str)]

theorem arr_readAs {kvs : List (Str × Json)} {x : Json} {n : TNode} (h : Keywords arrKeywords [c!"type", c!"items"] kvs)
    (ht : HasType c!"array" kvs) (hi : lookupKey c!"items" kvs = some x) (hn : ReadAs x n) : ReadAs (.obj kvs) (.arr n) := by
  obtain ⟨w1, r1, s1⟩ := h.attr c!"title" .str (by decide) (by decide) (by decide)
  obtain ⟨w2, r2, s2⟩ := h.attr c!"description" .str (by decide) (by decide) (by decide)
  obtain ⟨w3, r3, s3⟩ := h.attr c!"format" .str (by decide) (by decide) (by decide)
  obtain ⟨xs, rfl⟩ := hn.obj
  obtain ⟨w, hw, hn⟩ := hn
  have r4 : readField schemaEnv false (.dataclass false) { name := c!"items", ty := anyNodeTy, strAnn := true } kvs =
      match lookupKey c!"items" kvs with
      | Option.none => .error .jsonKey
      | some .null => .error .jsonValue
      | some x => loads schemaEnv false anyNodeTy x := rfl
  rw [hi] at r4
  refine readAs_typed (c := 5) (by simp [classType]) (h.texts (by decide) (by decide) (by decide) (by decide)) ht
    (h.absent _ (by decide)) (accept rfl (vs := [(c!"title", w1), (c!"description", w2), (c!"type", .str c!"array"),
      (c!"format", w3), (c!"items", w)])
      (.cons ⟨rfl, r1⟩ (.cons ⟨rfl, r2⟩ (.cons ⟨rfl, read_own_type ht⟩ (.cons ⟨rfl, r3⟩ (.cons ⟨rfl, r4.trans hw⟩ .nil)))))
      (h.known (by decide))) ?_
  have e : nodeOf 5 [(c!"title", w1), (c!"description", w2), (c!"type", .str c!"array"), (c!"format", w3), (c!"items", w)]
      (toAttrs [(c!"title", w1), (c!"description", w2), (c!"type", .str c!"array"), (c!"format", w3), (c!"items", w)]) =
      match toAttr w with
      | .node n => some (.arr n)
      | _ => Option.none := rfl
  simp only [toAttr]
  simp only [toAttrs, toAttr] at e
  simp only [toAttrs, toAttr]
  rw [e, hn]

theorem loads_dict_of {t : Ty} (ht : Supported schemaEnv t) {kvs : List (Str × Json)} {vs : List (Key × Val)}
    (hn : (kvs.map (·.1)).Nodup) (h : All2 (fun x v => v.1 = .str x.1 ∧ loads schemaEnv false t x.2 = .ok v.2) kvs vs) :
    loads schemaEnv false (.dict .str t) (.obj kvs) = .ok (.dict vs) := by
  obtain ⟨d, hd⟩ := ht
  unfold loads
  simp only [compile, checkKeyTy, hd]
  rw [parse_eq]
  simp only [parseD, kidsOf, parseDictK]
  have hn' : ((kvs.map fun p => (p.1, p.2, parse schemaEnv (fullHeap schemaEnv false) p.2)).map (·.1)).Nodup := by
    rw [List.map_map]; exact hn
  have := (parsePairs_ok (env := schemaEnv) (k := .str) (d := d) (acc := []) (out := vs) hn' (by simp)).2
    ⟨vs, rfl, (All2.map_left _).2 (h.imp ?_)⟩
  · rw [this]
  · rintro ⟨a, x⟩ ⟨b, y⟩ ⟨h1, h2⟩
    simp only at h1 h2
    rw [loads_of_compile hd] at h2
    exact ⟨by simp [parseKey, h1], h2⟩

/-- The schemas of properties are read as nodes. -/
def ReadAsD (xs : List (Str × Json)) (ns : List (Str × TNode)) : Prop := All2 (fun x n => n.1 = x.1 ∧ ReadAs x.2 n.2) xs ns

theorem readAsD_vals {xs : List (Str × Json)} {ns : List (Str × TNode)} (h : ReadAsD xs ns) :
    ∃ vs, All2 (fun x v => v.1 = Key.str x.1 ∧ loads schemaEnv false anyNodeTy x.2 = .ok v.2) xs vs ∧ toNodeDict vs = some ns := by
  induction h with
  | nil => exact ⟨[], .nil, rfl⟩
  | @cons x n xs ns h _ ih =>
    obtain ⟨vs, h1, h2⟩ := ih
    obtain ⟨x, j⟩ := x
    obtain ⟨m, n⟩ := n
    obtain ⟨he, v, hv, hn⟩ := h
    simp only at he
    subst he
    exact ⟨(.str m, v) :: vs, .cons ⟨rfl, hv⟩ h1, by simp [toNodeDict, hn, h2]⟩

/-- An attribute of type `Optional[dict[str, JsonSchemaAny]]`. -/
theorem read_dict {k : Str} {fw : Bool} (hk : fieldToProperty k Option.none = k) {kvs xs : List (Str × Json)} {ns : List (Str × TNode)}
    (hx : lookupKey k kvs = some (.obj xs)) (hn : (xs.map (·.1)).Nodup) (h : ReadAsD xs ns) :
    ∃ w, readField schemaEnv false (.dataclass false) { name := k, ty := optTy (.dict .str anyNodeTy), fwd := fw } kvs = .ok w ∧
      optDict w (toAttr w) = some (some ns) := by
  obtain ⟨vs, h1, h2⟩ := readAsD_vals h
  have e1 : fieldProp (.dataclass false) { name := k, ty := optTy (.dict .str anyNodeTy), fwd := fw } = k := hk
  have e2 : fieldTy (.dataclass false) { name := k, ty := optTy (.dict .str anyNodeTy), fwd := fw } = .dict .str anyNodeTy := rfl
  refine ⟨.dict vs, ?_, ?_⟩
  · unfold readField
    rw [e1, e2, hx]
    exact loads_dict_of anyNode_supported hn h1
  · simp only [toAttr, h2, optDict]

theorem read_dict_absent {k : Str} {fw : Bool} (hk : fieldToProperty k Option.none = k) {kvs : List (Str × Json)}
    (hx : lookupKey k kvs = Option.none) :
    readField schemaEnv false (.dataclass false) { name := k, ty := optTy (.dict .str anyNodeTy), fwd := fw } kvs = .ok .none := by
  have e1 : fieldProp (.dataclass false) { name := k, ty := optTy (.dict .str anyNodeTy), fwd := fw } = k := hk
  unfold readField
  rw [e1, hx]
  rfl

theorem obj_readAs {kvs xs : List (Str × Json)} {ns : List (Str × TNode)} (h : Keywords objKeywords [c!"type", c!"properties"] kvs)
    (ht : HasType c!"object" kvs) (hp : lookupKey c!"properties" kvs = some (.obj xs)) (hn : (xs.map (·.1)).Nodup)
    (hr : ReadAsD xs ns) :
    ReadAs (.obj kvs) (.obj (some ns) (kvBool c!"additionalProperties" kvs) (kvStrs c!"required" kvs)) := by
  obtain ⟨w1, r1, s1⟩ := h.attr c!"title" .str (by decide) (by decide) (by decide)
  obtain ⟨w2, r2, s2⟩ := h.attr c!"description" .str (by decide) (by decide) (by decide)
  obtain ⟨w3, r3, s3⟩ := h.attr c!"format" .str (by decide) (by decide) (by decide)
  obtain ⟨w4, r4, s4⟩ := read_dict (fw := true) (by decide) hp hn hr
  obtain ⟨w5, r5, s5⟩ := h.attr c!"additionalProperties" .bool (by decide) (by decide) (by decide)
  obtain ⟨w6, r6, s6⟩ := h.attr c!"required" .strs (by decide) (by decide) (by decide)
  refine readAs_typed (c := 6) (by simp [classType]) (h.texts (by decide) (by decide) (by decide) (by decide)) ht
    (h.absent _ (by decide)) (accept rfl (vs := [(c!"title", w1), (c!"description", w2), (c!"type", .str c!"object"),
      (c!"format", w3), (c!"properties", w4), (c!"additionalProperties", w5), (c!"required", w6)])
      (.cons ⟨rfl, r1⟩ (.cons ⟨rfl, r2⟩ (.cons ⟨rfl, read_own_type ht⟩ (.cons ⟨rfl, r3⟩ (.cons ⟨rfl, r4⟩ (.cons ⟨rfl, r5⟩
        (.cons ⟨rfl, r6⟩ .nil)))))))
      (h.known (by decide))) ?_
  have e : nodeOf 6 [(c!"title", w1), (c!"description", w2), (c!"type", .str c!"object"),
      (c!"format", w3), (c!"properties", w4), (c!"additionalProperties", w5), (c!"required", w6)]
      (toAttrs [(c!"title", w1), (c!"description", w2), (c!"type", .str c!"object"),
      (c!"format", w3), (c!"properties", w4), (c!"additionalProperties", w5), (c!"required", w6)]) =
      match optDict w4 (toAttr w4), optAttr Val.asBool w5, optAttr (Val.asList Val.asStr) w6 with
      | some ps, some a, some r => some (.obj ps a r)
      | _, _, _ => Option.none := rfl
  simp only [KwKind.Shows] at s5 s6
  rw [s4, s5, s6] at e
  rw [toAttr, e]

theorem oneOf_readAs {kvs : List (Str × Json)} {xs : List Json} {ns : List TNode} (h : Keywords [] [c!"oneOf"] kvs)
    (hx : lookupKey c!"oneOf" kvs = some (.arr xs)) (hr : All2 ReadAs xs ns) : ReadAs (.obj kvs) (.oneOf ns) := by
  obtain ⟨w1, r1, s1⟩ := h.attr c!"title" .str (by decide) (by decide) (by decide)
  obtain ⟨w2, r2, s2⟩ := h.attr c!"description" .str (by decide) (by decide) (by decide)
  have hv : ∃ vs, All2 (fun x v => loads schemaEnv false anyNodeTy x = .ok v) xs vs ∧ toNodes vs = some ns := by
    clear hx
    induction hr with
    | nil => exact ⟨[], .nil, rfl⟩
    | cons h _ ih =>
      obtain ⟨vs, h1, h2⟩ := ih
      obtain ⟨v, hv, hn⟩ := h
      exact ⟨v :: vs, .cons hv h1, by simp [toNodes, hn, h2]⟩
  obtain ⟨vs, h1, h2⟩ := hv
  have r3 : readField schemaEnv false (.dataclass false) { name := c!"oneOf", ty := .list anyNodeTy, fwd := true } kvs =
      match lookupKey c!"oneOf" kvs with
      | Option.none => .error .jsonKey
      | some .null => .error .jsonValue
      | some x => loads schemaEnv false (.list anyNodeTy) x := rfl
  rw [hx] at r3
  have ht := h.texts (by decide) (by decide) (by decide) (by decide)
  have hnt := h.absent c!"type" (by decide)
  refine readAs_of (c := 7) (by decide) (accept rfl (vs := [(c!"title", w1), (c!"description", w2), (c!"oneOf", .list vs)])
    (.cons ⟨rfl, r1⟩ (.cons ⟨rfl, r2⟩ (.cons ⟨rfl, r3.trans (loads_list_of anyNode_supported h1)⟩ .nil))) (h.known (by decide)))
    (fun i hi => .inl ?_) ?_
  · by_cases h0 : i = 0
    · subst h0; exact reject_ref ht (h.absent _ (by decide))
    · have : ∃ T, (i, T) ∈ classType := by
        have : ∀ i < 7, i ≠ 0 → ∃ q ∈ classType, q.1 = i := by decide
        obtain ⟨⟨a, T⟩, hq, rfl⟩ := this i hi h0
        exact ⟨T, hq⟩
      obtain ⟨T, hT⟩ := this
      exact reject_untyped hT ht hnt
  · have e : nodeOf 7 [(c!"title", w1), (c!"description", w2), (c!"oneOf", .list vs)]
        (toAttrs [(c!"title", w1), (c!"description", w2), (c!"oneOf", .list vs)]) =
        match toAttr (.list vs) with
        | .list ns => some (.oneOf ns)
        | _ => Option.none := rfl
    simp only [toAttr, h2] at e
    rw [toAttr, e]

/-! ### Documents -/

/-- The definitions of a document. -/
inductive DefsRead (kvs : List (Str × Json)) : Option (List (Str × TNode)) → Prop
  | absent : lookupKey c!"definitions" kvs = Option.none → DefsRead kvs Option.none
  | some {xs ns} : lookupKey c!"definitions" kvs = some (.obj xs) → (xs.map (·.1)).Nodup → ReadAsD xs ns → DefsRead kvs (some ns)

theorem top_read {kvs xs : List (Str × Json)} {ns : List (Str × TNode)} {ds : Option (List (Str × TNode))} {m : Str}
    (h : Keywords objKeywords [c!"type", c!"properties", c!"$schema", c!"definitions"] kvs) (ht : HasType c!"object" kvs)
    (hs : lookupKey c!"$schema" kvs = some (.str m)) (hp : lookupKey c!"properties" kvs = some (.obj xs))
    (hn : (xs.map (·.1)).Nodup) (hr : ReadAsD xs ns) (hd : DefsRead kvs ds) :
    readTop (.obj kvs) = .ok ⟨.obj (some ns) (kvBool c!"additionalProperties" kvs) (kvStrs c!"required" kvs), ds⟩ := by
  obtain ⟨w1, r1, s1⟩ := h.attr c!"title" .str (by decide) (by decide) (by decide)
  obtain ⟨w2, r2, s2⟩ := h.attr c!"description" .str (by decide) (by decide) (by decide)
  obtain ⟨w3, r3, s3⟩ := h.attr c!"format" .str (by decide) (by decide) (by decide)
  obtain ⟨w4, r4, s4⟩ := read_dict (fw := true) (by decide) hp hn hr
  obtain ⟨w5, r5, s5⟩ := h.attr c!"additionalProperties" .bool (by decide) (by decide) (by decide)
  obtain ⟨w6, r6, s6⟩ := h.attr c!"required" .strs (by decide) (by decide) (by decide)
  have r7 : readField schemaEnv false (.dataclass false) { name := c!"schema", ty := .annotated .str [.alias c!"$schema"] } kvs =
      match lookupKey c!"$schema" kvs with
      | Option.none => .error .jsonKey
      | some .null => .error .jsonValue
      | some x => loads schemaEnv false (.annotated .str [.alias c!"$schema"]) x := rfl
  rw [hs] at r7
  have r7' : loads schemaEnv false (.annotated .str [.alias c!"$schema"]) (.str m) = .ok (.str m) := rfl
  have r8 : ∃ w, readField schemaEnv false (.dataclass false) { name := c!"definitions", ty := optTy (.dict .str anyNodeTy) } kvs =
      .ok w ∧ optDict w (toAttr w) = some ds := by
    cases hd with
    | absent hd => exact ⟨.none, read_dict_absent (by decide) hd, rfl⟩
    | some h1 h2 h3 => exact read_dict (by decide) h1 h2 h3
  obtain ⟨w8, r8, s8⟩ := r8
  have hl := accept (c := 8) rfl (vs := [(c!"title", w1), (c!"description", w2), (c!"type", .str c!"object"),
      (c!"format", w3), (c!"properties", w4), (c!"additionalProperties", w5), (c!"required", w6), (c!"schema", .str m),
      (c!"definitions", w8)])
      (.cons ⟨rfl, r1⟩ (.cons ⟨rfl, r2⟩ (.cons ⟨rfl, read_own_type ht⟩ (.cons ⟨rfl, r3⟩ (.cons ⟨rfl, r4⟩ (.cons ⟨rfl, r5⟩
        (.cons ⟨rfl, r6⟩ (.cons ⟨rfl, r7.trans r7'⟩ (.cons ⟨rfl, r8⟩ .nil)))))))))
      (h.known (by decide))
  unfold readTop
  have hl : loads schemaEnv false (.cls nTop) (.obj kvs) = _ := hl
  rw [hl]
  have e : toTop (.obj 8 [(c!"title", w1), (c!"description", w2), (c!"type", .str c!"object"),
      (c!"format", w3), (c!"properties", w4), (c!"additionalProperties", w5), (c!"required", w6), (c!"schema", .str m),
      (c!"definitions", w8)]) =
      match (match optDict w4 (toAttr w4), optAttr Val.asBool w5, optAttr (Val.asList Val.asStr) w6 with
        | some ps, some a, some r => some (TNode.obj ps a r)
        | _, _, _ => Option.none), optDict w8 (toAttr w8) with
      | some n, some ds => some ⟨n, ds⟩
      | _, _ => Option.none := rfl
  simp only [KwKind.Shows] at s5 s6
  rw [s4, s5, s6, s8] at e
  simp only [e]

end Verif
