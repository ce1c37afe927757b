import Verif.Lemmas.Seed
/-!
# C75: reading does not depend on the hash seed
-/
namespace Verif

/-- Whether the deserializer of a type can be created, and the error if it cannot, do not depend on the hash seed. -/
theorem C75_created (env : Env) (hk : env.Ok) (order : List Str → List Str) (ho : SetOrder order) (t : Ty) :
    (Supported (env.reseed order) t ↔ Supported env t) ∧
    ∀ e, compile (env.reseed order) t = .error e ↔ compile env t = .error e :=
  ⟨supported_reseed hk ho, fun _ => compile_error_iff_reseed hk ho⟩

/-- If no union has more than one tag, then the outcome of reading (the value or the error) does not depend on the hash seed.
Partial: see `C75_enum_fails`. -/
theorem C75_outcome_partial (env : Env) (hk : env.Ok) (order : List Str → List Str) (ho : SetOrder order) (good : Nat → Prop)
    (hg : FieldsSatisfy env good (OneTagged env good)) (t : Ty) (ht : OneTagged env good t) (skip : Bool) (j : Json) :
    loads (env.reseed order) skip t j = loads env skip t j := ht.read_eq hk ho hg skip j

/-- Unions with several tags: if each is read under its own name and has no member of an enumeration as its value, and no such
union is part of a union without tag, then it does not depend on the hash seed whether data is accepted, nor which value is read.
Partial: the conditions are necessary (`C75_enum_fails`, `C75_name_fails`, `C75_nested_fails`), and the error may depend on
the hash seed (`C75_error_fails`). -/
theorem C75_value_partial (env : Env) (hk : env.Ok) (order : List Str → List Str) (ho : SetOrder order) (good calm : Nat → Prop)
    (hg : FieldsSatisfy env good (OneTagged env good)) (hc : FieldsSatisfy env calm (Seedproof env good calm)) (t : Ty)
    (ht : Seedproof env good calm t) (skip : Bool) (j : Json) (hj : j.Wf) (v : Val) :
    loads (env.reseed order) skip t j = .ok v ↔ loads env skip t j = .ok v :=
  ⟨seedproof_read (env := env.reseed order) (order := env.setOrder) (hk.reseed ho) hk.setOrder (hg.reseed fun _ h => h.reseed)
      (hc.reseed fun _ h => h.reseed) skip _ ht.reseed (Nat.lt_succ_self _) hj v,
    seedproof_read hk ho hg hc skip _ ht (Nat.lt_succ_self _) hj v⟩

/-! ### The hypotheses are met -/

private def str1 (s : Str) : Ty := .literal [.str s]

/-- Two classes with the tags `kind` and `sound`, a class with a list of them, and a class without tags. -/
private def cat : ClassDef :=
  { module := c!"m", name := c!"Cat", kind := .dataclass false, fields :=
    [{ name := c!"kind", ty := str1 c!"cat" }, { name := c!"lives", ty := .int }, { name := c!"sound", ty := str1 c!"meow" }] }
private def dog : ClassDef :=
  { module := c!"m", name := c!"Dog", kind := .dataclass false, fields :=
    [{ name := c!"kind", ty := str1 c!"dog" }, { name := c!"sound", ty := str1 c!"woof" }] }
private def zoo : ClassDef :=
  { module := c!"m", name := c!"Zoo", kind := .dataclass false, fields :=
    [{ name := c!"pets", ty := .list (.union [.cls 0, .cls 1]) }, { name := c!"id", ty := .union [.int, .str] }] }
private def petEnv : Env := ⟨[], [cat, dog, zoo], id⟩
private theorem petEnv_ok : petEnv.Ok :=
  ⟨by decide +kernel, by simp [petEnv], by simp [petEnv, cat, dog, zoo], fun _ => .refl _⟩
private theorem rev_order : SetOrder List.reverse := fun _ => List.reverse_perm _

/-- No class in unions without tag. -/
private theorem none_good : FieldsSatisfy petEnv (fun _ => False) (OneTagged petEnv fun _ => False) := fun _ _ h => h.elim

private theorem pets_proof : Seedproof petEnv (fun _ => False) (fun _ => True) (.union [.cls 0, .cls 1]) := by
  refine .tagged ⟨c!"kind", mem_discProps.1 (by decide +kernel)⟩ (fun _ _ => trivial) ?_
  intro q c cd f hq hc hcd hf hn
  have hq' : q ∈ [c!"kind", c!"sound"] := mem_discProps.2 hq
  simp only [List.mem_cons, Ty.cls.injEq, List.not_mem_nil, or_false] at hc hq'
  rcases hc with rfl | rfl <;> cases hcd
  · have hf : f ∈ cat.fields := hf
    simp only [cat, List.mem_cons, List.not_mem_nil, or_false] at hf
    rcases hf with rfl | rfl | rfl
    · exact ⟨rfl, hn ▸ rfl, fun ls e m h => by cases h; simp⟩
    · subst hn; rcases hq' with h | h <;> cases h
    · exact ⟨rfl, hn ▸ rfl, fun ls e m h => by cases h; simp⟩
  · have hf : f ∈ dog.fields := hf
    simp only [dog, List.mem_cons, List.not_mem_nil, or_false] at hf
    rcases hf with rfl | rfl
    · exact ⟨rfl, hn ▸ rfl, fun ls e m h => by cases h; simp⟩
    · exact ⟨rfl, hn ▸ rfl, fun ls e m h => by cases h; simp⟩

private theorem all_calm : FieldsSatisfy petEnv (fun _ => True) (Seedproof petEnv (fun _ => False) fun _ => True) := by
  intro c cd _ hcd
  right
  have hm : cd ∈ [cat, dog, zoo] := List.mem_of_getElem? hcd
  simp only [List.mem_cons, List.not_mem_nil, or_false] at hm
  intro f hf
  rcases hm with rfl | rfl | rfl
  · have hf : f ∈ cat.fields := hf
    simp only [cat, List.mem_cons, List.not_mem_nil, or_false] at hf
    rcases hf with rfl | rfl | rfl
    · exact .steady .literal
    · exact .steady (.scalar (t := .int) (by simp [scalarTys]))
    · exact .steady .literal
  · have hf : f ∈ dog.fields := hf
    simp only [dog, List.mem_cons, List.not_mem_nil, or_false] at hf
    rcases hf with rfl | rfl <;> exact .steady .literal
  · have hf : f ∈ zoo.fields := hf
    simp only [zoo, List.mem_cons, List.not_mem_nil, or_false] at hf
    rcases hf with rfl | rfl
    · exact .list pets_proof
    · refine .steady (.union (ts := [.int, .str]) ?_ ?_)
      · intro p q hp; have := mem_discProps.2 hp; cases this
      · simp only [List.mem_cons, List.not_mem_nil, or_false]
        rintro t (rfl | rfl) <;> exact .scalar (by simp [scalarTys])

private def zooData : Json :=
  .obj [(c!"pets", .arr [.obj [(c!"kind", .str c!"dog"), (c!"sound", .str c!"woof")]]), (c!"id", .str c!"x")]

private theorem zooData_wf : zooData.Wf := by
  refine .obj (by decide +kernel) ?_
  simp only [List.mem_cons, List.not_mem_nil, or_false]
  rintro kv (rfl | rfl)
  · refine .arr ?_
    simp only [List.mem_cons, List.not_mem_nil, or_false]
    rintro x rfl
    refine .obj (by decide +kernel) ?_
    simp only [List.mem_cons, List.not_mem_nil, or_false]
    rintro kv (rfl | rfl) <;> exact .str
  · exact .str

/-- A class with a list of a union with two tags. -/
example : loads (petEnv.reseed List.reverse) false (.cls 2) zooData =
    .ok (.obj 2 [(c!"pets", .list [.obj 1 [(c!"kind", .str c!"dog"), (c!"sound", .str c!"woof")]]), (c!"id", .str c!"x")]) :=
  (C75_value_partial petEnv petEnv_ok _ rev_order _ _ none_good all_calm (.cls 2) (.cls trivial) false zooData zooData_wf _).2 rfl

/-- The order does differ. -/
example : petEnv.setOrder (discProps petEnv [.cls 0, .cls 1]) = [c!"kind", c!"sound"] ∧
    (petEnv.reseed List.reverse).setOrder (discProps petEnv [.cls 0, .cls 1]) = [c!"sound", c!"kind"] := by decide +kernel

/-- One tag: also the error is the same. -/
private def owl : ClassDef :=
  { module := c!"m", name := c!"Owl", kind := .plain, fields := [{ name := c!"kind", ty := str1 c!"owl" }] }
private def owlEnv : Env := ⟨[], [cat, owl], id⟩
private theorem owlEnv_ok : owlEnv.Ok := ⟨by decide +kernel, by simp [owlEnv], by simp [owlEnv, cat, owl], fun _ => .refl _⟩
private theorem owl_good : FieldsSatisfy owlEnv (fun _ => True) (OneTagged owlEnv fun _ => True) := by
  intro c cd _ hcd
  right
  have hm : cd ∈ [cat, owl] := List.mem_of_getElem? hcd
  simp only [List.mem_cons, List.not_mem_nil, or_false] at hm
  intro f hf
  rcases hm with rfl | rfl
  · have hf : f ∈ cat.fields := hf
    simp only [cat, List.mem_cons, List.not_mem_nil, or_false] at hf
    rcases hf with rfl | rfl | rfl
    · exact .literal
    · exact .scalar (t := .int) (by simp [scalarTys])
    · exact .literal
  · have hf : f ∈ owl.fields := hf
    simp only [owl, List.mem_cons, List.not_mem_nil, or_false] at hf
    subst hf; exact .literal
example (j : Json) : loads (owlEnv.reseed List.reverse) true (.dict .str (.union [.cls 0, .cls 1])) j =
    loads owlEnv true (.dict .str (.union [.cls 0, .cls 1])) j := by
  refine C75_outcome_partial owlEnv owlEnv_ok _ rev_order _ owl_good _ (.dict (.union ?_ ?_)) true j
  · intro p q hp hq
    have hp : p ∈ [c!"kind"] := mem_discProps.2 hp
    have hq : q ∈ [c!"kind"] := mem_discProps.2 hq
    rw [List.mem_singleton] at hp hq
    rw [hp, hq]
  · simp only [List.mem_cons, List.not_mem_nil, or_false]
    rintro t (rfl | rfl) <;> exact .cls trivial
example : loads owlEnv true (.dict .str (.union [.cls 0, .cls 1])) (.obj [(c!"a", .obj [(c!"kind", .str c!"owl"), (c!"z", .null)])]) =
    .ok (.dict [(.str c!"a", .obj 1 [(c!"kind", .str c!"owl")])]) := rfl

/-! ### What does not hold -/

/-- Two classes with the tags `kind`, and `color` whose values are members of an enumeration. -/
private def colors : EnumDef := { module := c!"m", name := c!"Color", members := [(c!"RED", .str c!"red"), (c!"BLUE", .str c!"blue")] }
private def car : ClassDef :=
  { module := c!"m", name := c!"Car", kind := .dataclass false, fields :=
    [{ name := c!"kind", ty := str1 c!"car" }, { name := c!"color", ty := .literal [.enum 0 0] }] }
private def bus : ClassDef :=
  { module := c!"m", name := c!"Bus", kind := .dataclass false, fields :=
    [{ name := c!"kind", ty := str1 c!"bus" }, { name := c!"color", ty := .literal [.enum 0 1] }] }
private def thing : ClassDef :=
  { module := c!"m", name := c!"Thing", kind := .dataclass false, fields :=
    [{ name := c!"kind", ty := .str }, { name := c!"color", ty := .str }] }
private def carEnv : Env := ⟨[colors], [car, bus, thing], id⟩
private theorem carEnv_ok : carEnv.Ok := by
  refine ⟨by decide +kernel, ?_, by simp [carEnv, car, bus, thing], fun _ => .refl _⟩
  intro ed hed
  simp only [carEnv, List.mem_singleton] at hed
  subst hed
  unfold EnumDef.Ok
  decide +kernel
private def carData : Json := .obj [(c!"kind", .str c!"car"), (c!"color", .str c!"red")]

/-- A tag whose values are members of an enumeration: data that is accepted in one process is refused in the other. -/
theorem C75_enum_fails : ∃ (env : Env) (order : List Str → List Str) (ts : List Ty) (j : Json) (v : Val), env.Ok ∧ SetOrder order ∧
    (∃ p, IsTag env ts p) ∧ loads env false (.union ts) j = .ok v ∧ loads (env.reseed order) false (.union ts) j = .error .jsonType :=
  ⟨carEnv, List.reverse, [.cls 0, .cls 1], carData, _, carEnv_ok, rev_order, ⟨c!"kind", mem_discProps.1 (by decide +kernel)⟩, rfl, rfl⟩

/-- The same data is read as objects of different classes in two processes. -/
theorem C75_object_fails : ∃ (env : Env) (order : List Str → List Str) (t : Ty) (j : Json) (v w : Val), env.Ok ∧ SetOrder order ∧
    loads env false t j = .ok v ∧ loads (env.reseed order) false t j = .ok w ∧ v ≠ w :=
  ⟨carEnv, List.reverse, .union [.list (.union [.cls 0, .cls 1]), .list (.cls 2)], .arr [carData],
    .list [.obj 0 [(c!"kind", .str c!"car"), (c!"color", .enum 0 0)]],
    .list [.obj 2 [(c!"kind", .str c!"car"), (c!"color", .str c!"red")]], carEnv_ok, rev_order, rfl, rfl, by
      intro h; simp at h⟩

/-- A union without tag (of lists of the union with tags): plain string tags do not help, since the error decides whether the
next member of the union is tried. -/
private def note : ClassDef :=
  { module := c!"m", name := c!"Note", kind := .dataclass false, fields :=
    [{ name := c!"kind", ty := .str }, { name := c!"sound", ty := .list .str }] }
private def noteEnv : Env := ⟨[], [cat, dog, note], id⟩
private theorem noteEnv_ok : noteEnv.Ok :=
  ⟨by decide +kernel, by simp [noteEnv], by simp [noteEnv, cat, dog, note], fun _ => .refl _⟩

theorem C75_nested_fails : ∃ (env : Env) (order : List Str → List Str) (t : Ty) (j : Json) (v : Val), env.Ok ∧ SetOrder order ∧
    env.enums = [] ∧ loads env false t j = .ok v ∧ loads (env.reseed order) false t j = .error .typeError :=
  ⟨noteEnv, List.reverse, .union [.list (.union [.cls 0, .cls 1]), .list (.cls 2)],
    .arr [.obj [(c!"kind", .str c!"cat"), (c!"sound", .arr [])]], _, noteEnv_ok, rev_order, rfl, rfl, rfl⟩

/-- A tag with another name in JSON (`class_` is read from `class`, but looked up as `class_`). -/
private def ship : ClassDef :=
  { module := c!"m", name := c!"Ship", kind := .dataclass false, fields :=
    [{ name := c!"kind", ty := str1 c!"ship" }, { name := c!"class_", ty := str1 c!"a" }] }
private def boat : ClassDef :=
  { module := c!"m", name := c!"Boat", kind := .dataclass false, fields :=
    [{ name := c!"kind", ty := str1 c!"boat" }, { name := c!"class_", ty := str1 c!"b" }] }
private def shipEnv : Env := ⟨[], [ship, boat], id⟩
private theorem shipEnv_ok : shipEnv.Ok :=
  ⟨by decide +kernel, by simp [shipEnv], by simp [shipEnv, ship, boat], fun _ => .refl _⟩

theorem C75_name_fails : ∃ (env : Env) (order : List Str → List Str) (ts : List Ty) (j : Json) (v : Val), env.Ok ∧ SetOrder order ∧
    env.enums = [] ∧ (∃ p, IsTag env ts p) ∧ loads env true (.union ts) j = .ok v ∧
    loads (env.reseed order) true (.union ts) j = .error .jsonType :=
  ⟨shipEnv, List.reverse, [.cls 0, .cls 1],
    .obj [(c!"kind", .str c!"ship"), (c!"class", .str c!"a"), (c!"class_", .str c!"b")], _, shipEnv_ok, rev_order, rfl,
    ⟨c!"kind", mem_discProps.1 (by decide +kernel)⟩, rfl, rfl⟩

/-- The error may depend on the hash seed, even where the value does not. -/
theorem C75_error_fails : ∃ (env : Env) (order : List Str → List Str) (good calm : Nat → Prop) (t : Ty) (j : Json), env.Ok ∧
    SetOrder order ∧ FieldsSatisfy env good (OneTagged env good) ∧ FieldsSatisfy env calm (Seedproof env good calm) ∧
    Seedproof env good calm t ∧ loads env false t j = .error .jsonKey ∧ loads (env.reseed order) false t j = .error .jsonType :=
  ⟨petEnv, List.reverse, _, _, .union [.cls 0, .cls 1], .obj [(c!"sound", .str c!"woof"), (c!"kind", .str c!"cat")], petEnv_ok, rev_order,
    none_good, all_calm, pets_proof, rfl, rfl⟩

end Verif
