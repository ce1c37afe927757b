import Verif.Lemmas.AnnInstance
/-!
# C85: objects checked against types with names in them
-/
namespace Verif

/-- C85 in full, for an annotation that means a type in the namespace `d` of the caller: the function answers, and the answer is whether
the object is of that type. -/
def C85_statement (w : AnnWorld) (P : Objects) (lib : Nat) (d : Str → Option AnnObj) (o : AnnObj) (v : AnnVal) : Prop :=
  ∀ t, w.Means d o t → ∃ b, w.checkObj P lib o v = .ok b ∧ (b = true ↔ P.Belongs v t)

/-- C85 in part: names that the library knows, and that stand for classes.  Missing are names of the caller, names of types that are not
classes, texts in `list` etc., `|`, `Annotated` and `Literal` (all refused or answered wrongly, see below), and tuples of fixed length,
for which see `C85_loose`. -/
theorem C85_partial {w : AnnWorld} {P : Objects} {lib : Nat} {d : Str → Option AnnObj} (hd : w.KnownTo lib d) {o : AnnObj}
    (ho : w.Asked d False o) (v : AnnVal) : C85_statement w P lib d o v := by
  intro t ht
  obtain ⟨b, h1, h2⟩ := checkObj_decides (P := P) hd ho ht v
  exact ⟨b, h1, h2.trans ⟨belongs_exact ho ht, belongs_mono fun _ _ _ => trivial⟩⟩

/-- With tuples of fixed length there is an answer as well; it is for tuples that may be shorter or longer than the type says. -/
theorem C85_loose {w : AnnWorld} {P : Objects} {lib : Nat} {d : Str → Option AnnObj} (hd : w.KnownTo lib d) {o : AnnObj}
    (ho : w.Asked d True o) {t : AnnObj} (ht : w.Means d o t) (v : AnnVal) :
    ∃ b, w.checkObj P lib o v = .ok b ∧ (b = true ↔ P.BelongsBy (fun _ _ => True) v t) := checkObj_decides hd ho ht v

/-- No object of the type is turned down. -/
theorem C85_complete {w : AnnWorld} {P : Objects} {lib : Nat} {d : Str → Option AnnObj} (hd : w.KnownTo lib d) {o : AnnObj}
    (ho : w.Asked d True o) {t : AnnObj} (ht : w.Means d o t) {v : AnnVal} (hv : P.Belongs v t) : w.checkObj P lib o v = .ok true := by
  obtain ⟨b, h1, h2⟩ := C85_loose (P := P) hd ho ht v
  rw [h1, h2.2 (belongs_mono (fun _ _ _ => trivial) hv)]

/-- It does not matter whether a class is written by its name: an annotation and its meaning get the same answer. -/
theorem C85_quotes {w : AnnWorld} {P : Objects} {lib : Nat} {d : Str → Option AnnObj} (hd : w.KnownTo lib d) {o t : AnnObj}
    (ho : w.Asked d True o) (ht : w.Means d o t) (ht' : w.Asked d True t) (v : AnnVal) : w.checkObj P lib o v = w.checkObj P lib t v := by
  obtain ⟨b, h1, h2⟩ := C85_loose (P := P) hd ho ht v
  obtain ⟨n, hn⟩ := ht
  obtain ⟨b', h1', h2'⟩ := C85_loose (P := P) hd ht' ⟨n, meaning_again hn⟩ v
  rw [h1, h1']
  have := h2.trans h2'.symm
  cases b <;> cases b' <;> simp_all

/-! ### Type-like objects -/

/-- `is_type_like` accepts every annotation that means a type, except that it is a text. -/
theorem C85_typeLike {w : AnnWorld} {d : Str → Option AnnObj} {o t : AnnObj} (h : w.Means d o t) :
    o.isTypeLike = true ↔ ∀ s, o ≠ .text s := by
  obtain ⟨n, h⟩ := h
  cases n with
  | zero => cases h
  | succ n =>
    cases o with
    | form f => cases f <;> first | (cases h; done) | simp [AnnObj.isTypeLike, AnnObj.isType]
    | text s => simp [AnnObj.isTypeLike, AnnObj.isType]
    | none | module | const => cases h
    | _ => simp [AnnObj.isTypeLike, AnnObj.isType]

/-- The meaning of an annotation is type-like. -/
theorem C85_typeLike_meaning {w : AnnWorld} {d : Str → Option AnnObj} {o t : AnnObj} (h : w.Means d o t) : t.isTypeLike = true := by
  obtain ⟨n, h⟩ := h
  exact (C85_typeLike ⟨n, meaning_again h⟩).2 fun s hs => (meaning_settled h s).1 hs

/-! ### Where the claim fails -/

/-- A program: module 0 is the library (inspection.py), which has names of its own, such as `DataclassField`; module 1 is the caller's.
Of the texts that are not names there is only `list[int]`. -/
def askAnn : AnnWorld where
  parse s := some (if s = c!"list[int]" then .index (.name c!"list") [.name c!"int"] else .name s)
  builtins := [(c!"int", .cls 1), (c!"list", .form (.builtin .list))]
  modules := [[(c!"DataclassField", .cls 7)], [(c!"Node", .cls 0), (c!"DataclassField", .cls 0)]]
  classes _ := ⟨1, [], [], []⟩
  strCls := 2
  isEnum _ := false

/-- The caller's names. -/
def askNames (n : Str) : Option AnnObj := firstOf [askAnn.inModule 1, fun n => lookupKey n askAnn.builtins] n

/-- Object `k` is an instance of class `k` only. -/
def askObjects : Objects := ⟨fun v c => match v with | .inst k => k == c | _ => false, fun _ _ => false⟩

/-- A class of the caller is not found by its name. -/
theorem C85_context_fails : ¬ C85_statement askAnn askObjects 0 askNames (.ref c!"Node") (.inst 0) ∧
    askAnn.checkObj askObjects 0 (.ref c!"Node") (.inst 0) = .error .name := by
  have h : askAnn.checkObj askObjects 0 (.ref c!"Node") (.inst 0) = .error .name := by simp only [AnnWorld.checkObj]; rfl
  refine ⟨fun hs => ?_, h⟩
  obtain ⟨b, h1, -⟩ := hs (.cls 0) ⟨3, rfl⟩
  rw [h] at h1; cases h1

/-- A class of the library is taken instead of the caller's class of the same name. -/
theorem C85_hidden_fails : ¬ C85_statement askAnn askObjects 0 askNames (.ref c!"DataclassField") (.inst 0) ∧
    askAnn.checkObj askObjects 0 (.ref c!"DataclassField") (.inst 0) = .ok false := by
  have h : askAnn.checkObj askObjects 0 (.ref c!"DataclassField") (.inst 0) = .ok false := by simp only [AnnWorld.checkObj]; rfl
  refine ⟨fun hs => ?_, h⟩
  obtain ⟨b, h1, h2⟩ := hs (.cls 0) ⟨3, rfl⟩
  rw [h] at h1; cases h1
  exact absurd (h2.2 (.cls rfl)) (by simp)

/-- A text known to both that stands for a type which is not a class: no object is of that type. -/
theorem C85_generic_fails : (¬ C85_statement askAnn askObjects 0 askNames (.ref c!"list[int]") (.list [])) ∧
    ∀ v, askAnn.checkObj askObjects 0 (.ref c!"list[int]") v = .ok false := by
  have h : ∀ v, askAnn.checkObj askObjects 0 (.ref c!"list[int]") v = .ok false := by intro v; simp only [AnnWorld.checkObj]; rfl
  refine ⟨fun hs => ?_, h⟩
  obtain ⟨b, h1, h2⟩ := hs (.gen (.builtin .list) [.cls 1]) ⟨4, rfl⟩
  rw [h] at h1; cases h1
  exact absurd (h2.2 (.list (.inl rfl) (by simp))) (by simp)

/-- The name of a variable of the function: no object is of that type, whatever the name stands for. -/
theorem C85_variable_fails (w : AnnWorld) (P : Objects) (lib : Nat) (v : AnnVal) (n : Str)
    (hn : n ∈ [c!"obj", c!"typ", c!"fwd", c!"identifier"]) (hp : w.parse n = some (.name n)) :
    w.checkObj P lib (.ref n) v = .ok false := by
  simp only [AnnWorld.checkObj, AnnWorld.refInstance, AnnWorld.evalText, hp, annEval]
  simp only [List.mem_cons, List.not_mem_nil, or_false] at hn
  rcases hn with rfl | rfl | rfl | rfl
  · cases v <;> rfl
  · rfl
  · rfl
  · rfl

/-- The text `None` within a type of module typing: `None` itself is not of that type. -/
theorem C85_none_fails (w : AnnWorld) (P : Objects) (lib : Nat) (hp : w.parse c!"None" = some .none) (d : Str → Option AnnObj) :
    ¬ C85_statement w P lib d (.ref c!"None") .none := by
  intro hs
  have h : w.checkObj P lib (.ref c!"None") .none = .ok false := by
    simp only [AnnWorld.checkObj, AnnWorld.refInstance, AnnWorld.evalText, hp, annEval]; rfl
  obtain ⟨b, h1, h2⟩ := hs .noneType ⟨1, by rw [meaning_ref]; exact textMeaning_iff.2 ⟨_, _, hp, rfl, .inl ⟨rfl, rfl⟩⟩⟩
  rw [h] at h1; cases h1
  exact absurd (h2.2 .noneType) (by simp)

/-- `list["Node"]`, other than `List["Node"]`, has a text as its argument; any list but the empty one raises `TypeError`. -/
theorem C85_text_fails (w : AnnWorld) (P : Objects) (lib : Nat) (s : Str) (v : AnnVal) (vs : List AnnVal) :
    w.checkObj P lib (.gen (.builtin .list) [.text s]) (.list (v :: vs)) = .error .typeError := by
  simp [AnnWorld.checkObj, AnnWorld.checkColl, AnnWorld.checkEach, allRes, AnnObj.isType]

/-- Unions written with `|`, `Annotated` and `Literal` raise `TypeError`, whatever the object. -/
theorem C85_forms_fail (w : AnnWorld) (P : Objects) (lib : Nat) (d : Str → Option AnnObj) (f : AnnForm) (hf : f = .pipe ∨ f = .annotated ∨ f = .literal)
    (os : List AnnObj) (v : AnnVal) : w.checkObj P lib (.gen f os) v = .error .typeError ∧
    ((∃ t, w.Means d (.gen f os) t) → ¬ C85_statement w P lib d (.gen f os) v) := by
  have h : w.checkObj P lib (.gen f os) v = .error .typeError := by
    rcases hf with rfl | rfl | rfl <;> simp [AnnWorld.checkObj, AnnObj.isType]
  refine ⟨h, fun ⟨t, ht⟩ hs => ?_⟩
  obtain ⟨b, h1, -⟩ := hs t ht
  rw [h] at h1; cases h1

/-- In a union the order matters: if a member raises, later ones are not tried, although an object of an earlier one passes. -/
theorem C85_order_fails (w : AnnWorld) (P : Objects) (lib c : Nat) (os : List AnnObj) (v : AnnVal) (hv : P.isInst v c = true) :
    w.checkObj P lib (.gen .union [.gen .literal os, .cls c]) v = .error .typeError ∧
    w.checkObj P lib (.gen .union [.cls c, .gen .literal os]) v = .ok true := by
  simp [AnnWorld.checkObj, AnnWorld.checkAny, AnnObj.isType, Objects.isInstanceOf, hv]

/-- `typing.List` without argument is not a type for lists, although `typing.Tuple` is one for tuples. -/
theorem C85_bare_fails (w : AnnWorld) (P : Objects) (lib : Nat) (d : Str → Option AnnObj) :
    ¬ C85_statement w P lib d (.form (.typing .list)) (.list []) := by
  intro hs
  obtain ⟨b, h1, -⟩ := hs (.form (.typing .list)) ⟨1, rfl⟩
  simp [AnnWorld.checkObj, AnnVal.isColl] at h1

/-! ### Examples -/

/-- Names that both know. -/
def askShared (n : Str) : Option AnnObj := if n = c!"int" then some (.cls 1) else none

theorem askShared_known : askAnn.KnownTo 0 askShared := by
  intro n o h
  unfold askShared at h
  split at h
  · rename_i hn; subst hn; cases h; exact ⟨by decide, rfl⟩
  · cases h

/-- `Dict[str, List["int"]]` or nothing. -/
def askType : AnnObj := .gen .union [.gen (.typing .dict) [.cls 2, .gen (.typing .list) [.ref c!"int"]], .noneType]

theorem askType_asked : askAnn.Asked askShared False askType := by
  refine .union fun o ho => ?_
  rcases List.mem_cons.1 ho with rfl | ho
  · exact .dict (.inr rfl) .cls (.list (.inr rfl) (.ref (e := .name c!"int") (o := .cls 1) rfl rfl (.inr (.inl ⟨1, rfl⟩))))
  · rw [List.mem_singleton.1 ho]; exact .noneType

example (v : AnnVal) : C85_statement askAnn askObjects 0 askShared askType v := C85_partial askShared_known askType_asked v

example : askAnn.Means askShared askType (.gen .union [.gen (.typing .dict) [.cls 2, .gen (.typing .list) [.cls 1]], .noneType]) := ⟨5, rfl⟩

example (v : AnnVal) := C85_quotes (P := askObjects) askShared_known (o := .gen (.typing .list) [.ref c!"int"]) (t := .gen (.typing .list) [.cls 1])
  (.list (.inr rfl) (.ref (e := .name c!"int") (o := .cls 1) rfl rfl (.inr (.inl ⟨1, rfl⟩)))) ⟨4, rfl⟩ (.list (.inr rfl) .cls) v

/-- A tuple that is too short passes. -/
example : askAnn.Asked askShared True (.gen (.typing .tuple) [.cls 1, .ref c!"int"]) ∧
    askAnn.checkObj askObjects 0 (.gen (.typing .tuple) [.cls 1, .ref c!"int"]) (.tuple [.inst 1]) = .ok true := by
  refine ⟨.tuple trivial (.inr rfl) fun o ho => ?_, ?_⟩
  · rcases List.mem_cons.1 ho with rfl | ho
    · exact .cls
    · rw [List.mem_singleton.1 ho]; exact .ref (e := .name c!"int") (o := .cls 1) rfl rfl (.inr (.inl ⟨1, rfl⟩))
  · simp [AnnWorld.checkObj, AnnWorld.checkColl, AnnWorld.checkZip, AnnObj.isType, andRes]; rfl

example := C85_order_fails askAnn askObjects 0 1 [.const 5] (.inst 1) rfl

/-- A type that is asked for by its name, and one that is not type-like. -/
example : AnnObj.isTypeLike (.ref c!"int") = true ∧ AnnObj.isTypeLike (.text c!"int") = false ∧
    askAnn.Means askShared (.text c!"int") (.cls 1) := ⟨rfl, rfl, ⟨3, rfl⟩⟩

example : askAnn.checkObj askObjects 0 askType (.dict [(.inst 2, .list [.inst 1, .inst 1])]) = .ok true := by
  simp [askType, AnnWorld.checkObj, AnnWorld.checkAny, AnnWorld.checkColl, AnnWorld.checkPairs, AnnWorld.checkEach, allRes, andRes]; rfl

end Verif
