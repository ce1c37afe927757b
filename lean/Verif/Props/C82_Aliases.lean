import Verif.Lemmas.AliasesEnd
/-!
# C82: types given by name are read as the types they stand for
-/
namespace Verif

section
variable {w : AliasWorld}

/-- C82, for a deserializer that has been made: data is read as for the type with the names replaced, to a depth beyond that of the data. -/
theorem C82_created {H H' : AHeap} (hH : H.Used w) {context : Bool} {m : Nat} {o : ATy} {r : AReader}
    (hg : w.get context m o H = (.ok r, H')) {n : Nat} {t : Ty} (ht : Unfolds w n o t) (hs : ∃ d, compile w.env t = .ok d) (j : Json)
    (hj : j.levels < n) : w.Outcome H' r j (loads w.env w.skip t j) := by
  obtain ⟨d, hd⟩ := hs
  obtain ⟨h1, h2⟩ := hH.props
  obtain ⟨g, h3, h4⟩ := get_makes context m _ _ _ _ hg h1
  rw [loads_compiled hd]
  exact read_unfolds g.sane (fun s hs => h2 s (g.fresh s hs)) ht h3 h4 hd hj

/-- C82, creation: for types whose names are variables of the context the deserializers are made, recursive as they may be. -/
theorem C82_made {H : AHeap} (hH : H.Used w) (hw : w.Proper) {o : ATy} (ho : Proper w o) :
    ∃ N r H', ∀ n, N ≤ n → w.get true n o H = (.ok r, H') :=
  get_ends hw _ H hH.props.1 (Nat.lt_succ_self _) o ho

/-- C82: the call has the outcome that it has for the type with the names replaced.  Partial: the names must be variables of the context
(no expressions), the context must be given, names must not be directly within `Annotated`, and unions must not have tags. -/
theorem C82_reads_partial {H : AHeap} (hH : H.Used w) (hw : w.Proper) {o : ATy} (ho : Proper w o) {n : Nat} {t : Ty} (ht : Unfolds w n o t)
    (hs : ∃ d, compile w.env t = .ok d) (j : Json) (hj : j.levels < n) :
    ∃ N, ∀ m, N ≤ m → (w.load true m o j H).1 = some (loads w.env w.skip t j) := by
  obtain ⟨N, r, H', h1⟩ := C82_made hH hw ho
  obtain ⟨M, h2⟩ := C82_created hH (h1 N (Nat.le_refl N)) ht hs j hj
  refine ⟨max N M, fun m hm => ?_⟩
  simp only [AliasWorld.load, h1 m (by omega), h2 m (by omega)]

/-- C82, names that do not lead back to themselves by way of unions only: there is such a type for every depth, so every call ends. -/
theorem C82_total_partial {H : AHeap} (hH : H.Used w) (hw : w.Proper) (hg : w.Guarded) {o : ATy} (ho : Proper w o) (j : Json) :
    ∃ t, Unfolds w (j.levels + 1) o t ∧ ∃ N, ∀ m, N ≤ m → (w.load true m o j H).1 = some (loads w.env w.skip t j) := by
  obtain ⟨rank, hr⟩ := hg
  obtain ⟨K, hK⟩ := rank_bound rank w.vars
  obtain ⟨t, d, h1, h2⟩ := unfolds_exist hw hr (j.levels + 1) K ho fun s hs => hK s (hs.known ho)
  exact ⟨t, h1, C82_reads_partial hH hw ho h1 ⟨d, h2⟩ j (Nat.lt_succ_self _)⟩

/-- C82, calls do not affect each other: the outcome is that of a call with an empty cache. -/
theorem C82_history {H : AHeap} (hH : H.Used w) (hw : w.Proper) (hg : w.Guarded) {o : ATy} (ho : Proper w o) (j : Json) :
    ∃ v N, ∀ m, N ≤ m → (w.load true m o j H).1 = some v ∧ (w.load true m o j .empty).1 = some v := by
  obtain ⟨rank, hr⟩ := hg
  obtain ⟨K, hK⟩ := rank_bound rank w.vars
  obtain ⟨t, d, h1, h2⟩ := unfolds_exist hw hr (j.levels + 1) K ho fun s hs => hK s (hs.known ho)
  obtain ⟨N, h3⟩ := C82_reads_partial hH hw ho h1 ⟨d, h2⟩ j (Nat.lt_succ_self _)
  obtain ⟨M, h4⟩ := C82_reads_partial .fresh hw ho h1 ⟨d, h2⟩ j (Nat.lt_succ_self _)
  exact ⟨_, max N M, fun m hm => ⟨h3 m (by omega), h4 m (by omega)⟩⟩

/-- C82, without names in it a type is read as in Deserializer, with a context or without. -/
theorem C82_plain {H : AHeap} {context : Bool} {t : Ty} (hs : ∃ d, compile w.env t = .ok d) (j : Json) (n : Nat) :
    w.load context (n + 1) (.ty t) j H = (some (loads w.env w.skip t j), H) := by
  obtain ⟨d, hd⟩ := hs
  have hk : w.key (.ty t) (.ty t) = none := by unfold AliasWorld.key; split <;> rfl
  simp [AliasWorld.load, AliasWorld.get, ATy.name?, AliasWorld.evaluate, ATy.unwrap, hk, AliasWorld.create, hd, APlan.build, AliasWorld.read]

/-- `json_to_object` without a context does not find names of the caller: it looks for them in strong_typing.serialization, which (here)
does not have the name. -/
theorem C82_object_fails (library : AliasWorld) {s : Str} (h1 : s ≠ c!"typ") (h2 : s ≠ c!"module") (hv : lookupKey s library.vars = none)
    (he : library.expr s = .error .name) (n : Nat) (j : Json) (H : AHeap) :
    (library.object none (n + 2) (.text s) j H).1 = some (.error .name) ∧ (library.object none (n + 2) (.ref s) j H).1 = some (.error .name) := by
  have hs : library.eval s = .error .name := by simp only [AliasWorld.eval, if_neg h1, if_neg h2, hv, he]
  constructor
  · simp [AliasWorld.object, AliasWorld.generic, AliasWorld.load, AliasWorld.get, ATy.name?, AliasWorld.evaluate, hs]
  · simp [AliasWorld.object, AliasWorld.generic, AliasWorld.load, AliasWorld.get, ATy.name?, AliasWorld.evaluate, AliasWorld.resolve, hs]

/-- `create_deserializer` without a context does not take names. -/
theorem C82_context_fails {o : ATy} (ho : o.name?.isSome = true) (H : AHeap) (j : Json) (n : Nat) :
    (w.load false (n + 1) o j H).1 = some (.error .typeError) := by
  simp [AliasWorld.load, AliasWorld.get, ho]

/-- A name directly within `Annotated` is not read. -/
theorem C82_annotated_fails {o : ATy} (ho : o.name?.isSome = true) (context : Bool) (H : AHeap) (j : Json) (n : Nat) :
    (w.load context (n + 1) (.annotated o) j H).1 = some (.error .typeError) := by
  cases o with
  | text s => simp [AliasWorld.load, AliasWorld.get, ATy.name?, AliasWorld.evaluate, ATy.unwrap, AliasWorld.key, ATy.isClass, AliasWorld.create]
  | ref s => simp [AliasWorld.load, AliasWorld.get, ATy.name?, AliasWorld.evaluate, ATy.unwrap, AliasWorld.key, ATy.isClass, AliasWorld.create]
  | _ => cases ho

end

/-! ### The hypotheses are met -/

/-- `Tree = Union[int, list["Tree"]]`, `Forest = dict[str, "Tree"]`, `Leaf = int`. -/
def treeWorld : AliasWorld where
  env := ⟨[], [], id⟩
  skip := false
  vars := [(c!"Tree", .node .union [.ty .int, .node .list [.text c!"Tree"]]), (c!"Forest", .node (.dict .str) [.text c!"Tree"]), (c!"Leaf", .ty .int)]
  expr := fun _ => .error .name

theorem treeWorld_tree : Proper treeWorld (.text c!"Tree") := .text _ _ (by decide) (by decide) rfl

theorem treeWorld_proper : treeWorld.Proper := by
  intro s o h
  simp only [treeWorld, List.mem_cons, Prod.mk.injEq, List.not_mem_nil, or_false] at h
  rcases h with ⟨rfl, rfl⟩ | ⟨rfl, rfl⟩ | ⟨rfl, rfl⟩
  · refine ⟨.node _ _ trivial (fun o ho => ?_) (fun ts _ hts => ?_), rfl⟩
    · simp only [List.mem_cons, List.not_mem_nil, or_false] at ho
      rcases ho with rfl | rfl
      · exact .plain _ .int rfl
      · exact .node _ _ rfl (fun o ho => by simp only [List.mem_singleton] at ho; subst ho; exact treeWorld_tree) (fun _ h _ => by cases h)
    · cases hts with | cons _ h => cases h with | cons h _ => cases h
  · exact ⟨.node _ _ ⟨rfl, rfl⟩ (fun o ho => by simp only [List.mem_singleton] at ho; subst ho; exact treeWorld_tree) (fun _ h _ => by cases h), rfl⟩
  · exact ⟨.plain _ .int rfl, rfl⟩

theorem treeWorld_guarded : treeWorld.Guarded := by
  refine ⟨fun _ => 0, fun s o s' h ht => ?_⟩
  have h := lookupKey_some_mem h
  simp only [treeWorld, List.mem_cons, Prod.mk.injEq, List.not_mem_nil, or_false] at h
  rcases h with ⟨rfl, rfl⟩ | ⟨rfl, rfl⟩ | ⟨rfl, rfl⟩
  · cases ht with
    | union _ o _ ho ht =>
      simp only [List.mem_cons, List.not_mem_nil, or_false] at ho
      rcases ho with rfl | rfl <;> cases ht
  · cases ht
  · cases ht

/-- The type that the name stands for, to a depth. -/
def treeType : Nat → Ty
  | 0 => .int
  | n + 1 => .union [.int, .list (treeType n)]

theorem treeType_compile : ∀ n, ∃ d, compile treeWorld.env (treeType n) = .ok d
  | 0 => ⟨_, rfl⟩
  | n + 1 => by
    obtain ⟨d, hd⟩ := treeType_compile n
    exact ⟨.union [.int, .list d], by simp [treeType, compile, compileL, hd, discProps, Ty.isType]⟩

theorem treeWorld_unfolds : ∀ n, Unfolds treeWorld n (.text c!"Tree") (treeType n)
  | 0 => .cut _ _
  | n + 1 => by
    refine .text _ _ _ _ rfl (.union _ _ [.int, .list (treeType n)] rfl (fun p hp => ?_) rfl)
    simp only [List.zip_cons_cons, List.zip_nil_left, List.mem_cons, List.not_mem_nil, or_false] at hp
    rcases hp with rfl | rfl
    · exact .plain _ _
    · exact .node _ _ _ [treeType n] _ (by simp) rfl (fun p hp => by
        simp only [List.zip_cons_cons, List.zip_nil_left, List.mem_cons, List.not_mem_nil, or_false] at hp
        subst hp; exact treeWorld_unfolds n) rfl

/-- Data for the tree of any depth is read. -/
example (j : Json) : ∃ N, ∀ m, N ≤ m →
    (treeWorld.load true m (.text c!"Tree") j .empty).1 = some (loads treeWorld.env false (treeType (j.levels + 1)) j) :=
  C82_reads_partial .fresh treeWorld_proper treeWorld_tree (treeWorld_unfolds _) (treeType_compile _) j (Nat.lt_succ_self _)
example : (treeWorld.load true 9 (.text c!"Tree") (.arr [.int 1, .arr [.int 2, .arr []]]) .empty).1 =
    some (.ok (.list [.int 1, .list [.int 2, .list []]])) := rfl
example : ((treeWorld.get true 5 (.text c!"Forest") .empty).1.toOption.isSome) = true := rfl

/-! ### Where it does not hold -/

/-- `Tree = Union[int, "list[Tree]"]`: an expression in a text.  `Loop = Union["Loop", int]`.  `Bad = list["Missing"]`. -/
def brokenWorld : AliasWorld where
  env := ⟨[], [], id⟩
  skip := false
  vars := [(c!"Tree", .node .union [.ty .int, .ref c!"list[Tree]"]), (c!"Loop", .node .union [.ref c!"Loop", .ty .int]),
    (c!"Bad", .node .list [.ref c!"Missing"])]
  expr := fun s => if s = c!"list[Tree]" then .ok (.node .list [.node .union [.ty .int, .ref c!"list[Tree]"]]) else .error .name

theorem broken_resolve (n : Nat) : brokenWorld.resolve (n + 4) [] (.ref c!"list[Tree]") =
    .ok (.node .list [.node .union [.ty .int, .ref c!"list[Tree]"]]) := rfl

/-- A type that refers to itself within an expression: making the deserializer does not come to an end. -/
theorem C82_expression_fails : ∀ (n : Nat) (H : AHeap), (brokenWorld.get true n (.ref c!"list[Tree]") H).1 = .error .recursion
  | 0, _ | 1, _ | 2, _ | 3, _ | 4, _ => rfl
  | n + 5, H => by
    have ih := C82_expression_fails (n + 3) H
    have hi : brokenWorld.get true (n + 3) (.ty .int) H = (.ok (.leaf .int), H) := rfl
    have hl : lookupKey c!"list[Tree]" brokenWorld.vars = none := rfl
    have hu : (brokenWorld.get true (n + 4) (.node .union [.ty .int, .ref c!"list[Tree]"]) H).1 = .error .recursion := by
      generalize hg : brokenWorld.get true (n + 3) (.ref c!"list[Tree]") H = x at ih
      obtain ⟨a, H'⟩ := x
      cases ih
      rw [AliasWorld.get]
      simp [ATy.name?, AliasWorld.evaluate, ATy.unwrap, AliasWorld.key, ATy.isClass, AliasWorld.create, plainL, APlan.build,
        getAll, hi, hg]
    generalize hg : brokenWorld.get true (n + 4) (.node .union [.ty .int, .ref c!"list[Tree]"]) H = x at hu
    obtain ⟨a, H'⟩ := x
    cases hu
    have he : brokenWorld.evaluate (n + 4) (.ref c!"list[Tree]") = .ok (.node .list [.node .union [.ty .int, .ref c!"list[Tree]"]]) :=
      broken_resolve n
    rw [AliasWorld.get]
    simp [ATy.name?, he, ATy.unwrap, AliasWorld.key, ATy.isClass, AliasWorld.create, APlan.build, getAll, hg, hl]

/-- The entry for `Loop`. -/
def loopHeap : AHeap := (AHeap.empty.put c!"Loop" none).put c!"Loop" (some (.node .union [.ref c!"Loop", .leaf .int]))

/-- The same call with the module of the caller, and with the module of the library, which does not have the name. -/
example : (treeWorld.generic none 9 (.text c!"Tree") (.int 3) .empty).1 = some (.ok (.int 3)) ∧
    ({ treeWorld with vars := [] }.object none 9 (.text c!"Tree") (.int 3) .empty).1 = some (.error .name) :=
  ⟨rfl, (C82_object_fails _ (by decide) (by decide) rfl rfl 7 _ _).1⟩

/-- A name that is a member of the union that it stands for: the deserializer is made, but reading does not come to an end. -/
theorem C82_loop_fails (j : Json) : (∀ n, brokenWorld.get true (n + 5) (.text c!"Loop") .empty = (.ok (.ref c!"Loop"), loopHeap)) ∧
    ∀ n, brokenWorld.load true (n + 5) (.text c!"Loop") j .empty = (none, loopHeap) := by
  have hg : ∀ n, brokenWorld.get true (n + 5) (.text c!"Loop") .empty = (.ok (.ref c!"Loop"), loopHeap) := fun _ => rfl
  refine ⟨hg, fun n => ?_⟩
  have hr : ∀ n, brokenWorld.read loopHeap n (.ref c!"Loop") j = none ∧
      brokenWorld.read loopHeap n (.node .union [.ref c!"Loop", .leaf .int]) j = none := by
    intro n
    induction n with
    | zero => exact ⟨rfl, rfl⟩
    | succ n ih =>
      have he : loopHeap c!"Loop" = some (some (.node .union [.ref c!"Loop", .leaf .int])) := rfl
      constructor
      · simp only [AliasWorld.read, he, ih.2]
      · simp only [AliasWorld.read, List.map_cons, readNode, readFirst, ih.1]
  simp only [AliasWorld.load, hg, (hr _).1]

/-- `A` has the tag `"a"` and a date, `B` has the tag `"b"` and a text. -/
def tagWorld : AliasWorld where
  env := ⟨[], [
    { module := c!"m", name := c!"A", kind := .dataclass false, fields :=
      [{ name := c!"at", ty := .date }, { name := c!"kind", ty := .literal [.str c!"a"] }] },
    { module := c!"m", name := c!"B", kind := .dataclass false, fields :=
      [{ name := c!"at", ty := .str }, { name := c!"kind", ty := .literal [.str c!"b"] }] }], id⟩
  skip := false
  vars := [(c!"A", .ty (.cls 0)), (c!"B", .ty (.cls 1))]
  expr := fun _ => .error .name

/-- Classes given by name have no tags: `Union["A", "B"]` is not read as `Union[A, B]` is. -/
theorem C82_tags_fails : ∃ j v, loads tagWorld.env false (.union [.cls 0, .cls 1]) j = .ok v ∧
    (tagWorld.load true 9 (.node .union [.ty (.cls 0), .ty (.cls 1)]) j .empty).1 = some (.ok v) ∧
    (tagWorld.load true 9 (.node .union [.ref c!"A", .ref c!"B"]) j .empty).1 = some (.error .valueError) :=
  ⟨.obj [(c!"at", .str c!"x"), (c!"kind", .str c!"b")], _, by with_unfolding_all rfl, by with_unfolding_all rfl, by with_unfolding_all rfl⟩

/-- The variables of the evaluating function hide those of the context: a class `typ` is not read by its name. -/
theorem C82_typ_fails (w : AliasWorld) (j : Json) (n : Nat) :
    (w.load true (n + 1) (.text c!"typ") j .empty).1 = some (.error .typeError) := by
  have he : w.evaluate n (.text c!"typ") = .ok (.text c!"typ") := rfl
  have hu : (ATy.text c!"typ").unwrap = .text c!"typ" := rfl
  have hc : w.create (.text c!"typ") = .error .typeError := rfl
  have hn : (ATy.text c!"typ").name? = some c!"typ" := rfl
  simp only [AliasWorld.load, AliasWorld.get, he, hu, hc, hn]
  cases w.key (.text c!"typ") (.text c!"typ") <;> rfl

/-- An error in making a deserializer leaves an entry behind that cannot be used. -/
theorem C82_error_fails : ∃ H, brokenWorld.load true 5 (.text c!"Bad") (.arr []) .empty = (some (.error .name), H) ∧
    (brokenWorld.load true 5 (.text c!"Bad") (.arr []) H).1 = some (.error .attribute) :=
  ⟨_, rfl, rfl⟩

end Verif
