import Verif.Model.Modules
import Verif.Props.C40_Docstring
import Verif.Lemmas.RebuildAll
/-!
# C67: contents of modules, and exceptions and texts of documentation
-/
namespace Verif

/-! ### Listing the members of a module -/

/-- The attributes that `p` holds of, each once, in the order of their names. -/
structure Listing (p : Str × ModObj → Prop) (attrs l : List (Str × ModObj)) : Prop where
  mem : ∀ a, a ∈ l ↔ a ∈ attrs ∧ p a
  names : (l.map Prod.fst).Nodup
  order : l.Pairwise fun a b => strLe a.1 b.1 = true

theorem getMembers_listing (p : ModObj → Bool) (m : PyModule) (hn : (m.attrs.map Prod.fst).Nodup) :
    Listing (fun a => p a.2 = true) m.attrs (getMembers p m) where
  mem a := by rw [getMembers, mem_sortByName, List.mem_filter]
  names := sortByName_keys_nodup (List.Nodup.sublist (List.Sublist.map _ List.filter_sublist) hn)
  order := sortByName_sorted _

/-- C67: the classes of a module are listed in the order of the attributes that have them as value, as often as there are such
attributes, and classes of other modules are left out. -/
theorem C67_classes (m : PyModule) (hn : (m.attrs.map Prod.fst).Nodup) :
    ∃ l, getModuleClasses m = l.map Prod.snd ∧ Listing (fun a => ∃ id e, a.2 = .cls id m.name e) m.attrs l := by
  refine ⟨_, rfl, ?_⟩
  have h := getMembers_listing (fun | .cls _ mod _ => mod = m.name | _ => false) m hn
  refine ⟨fun a => (h.mem a).trans ?_, h.names, h.order⟩
  refine and_congr_right fun _ => ?_
  obtain ⟨n, o⟩ := a
  cases o <;> simp

/-- C67: the same for functions. -/
theorem C67_functions (m : PyModule) (hn : (m.attrs.map Prod.fst).Nodup) :
    ∃ l, getModuleFunctions m = l.map Prod.snd ∧ Listing (fun a => ∃ id, a.2 = .func id m.name) m.attrs l := by
  refine ⟨_, rfl, ?_⟩
  have h := getMembers_listing (fun | .func _ mod => mod = m.name | _ => false) m hn
  refine ⟨fun a => (h.mem a).trans ?_, h.names, h.order⟩
  refine and_congr_right fun _ => ?_
  obtain ⟨n, o⟩ := a
  cases o <;> simp

private theorem nodup_snd {l : List (Str × ModObj)} (hn : (l.map Prod.fst).Nodup)
    (h : ∀ a ∈ l, ∀ b ∈ l, a.2 = b.2 → a.1 = b.1) : (l.map Prod.snd).Nodup := by
  induction l with
  | nil => simp
  | cons x l ih =>
    rw [List.map_cons, List.nodup_cons] at hn ⊢
    refine ⟨?_, ih hn.2 fun a ha b hb => h a (by simp [ha]) b (by simp [hb])⟩
    intro hm
    obtain ⟨y, hy, he⟩ := List.mem_map.1 hm
    have := h y (by simp [hy]) x (by simp) he
    exact hn.1 (this ▸ List.mem_map.2 ⟨y, hy, rfl⟩)

/-- C67: a class is listed once if it is the value of one attribute only.  Missing: classes with a second name, see below. -/
theorem C67_once_partial (m : PyModule) (hn : (m.attrs.map Prod.fst).Nodup)
    (h : ∀ a ∈ m.attrs, ∀ b ∈ m.attrs, a.2 = b.2 → a.1 = b.1) : (getModuleClasses m).Nodup ∧ (getModuleFunctions m).Nodup := by
  obtain ⟨l, h1, h2⟩ := C67_classes m hn
  obtain ⟨k, h3, h4⟩ := C67_functions m hn
  rw [h1, h3]
  exact ⟨nodup_snd h2.names fun a ha b hb => h a ((h2.mem a).1 ha).1 b ((h2.mem b).1 hb).1,
    nodup_snd h4.names fun a ha b hb => h a ((h4.mem a).1 ha).1 b ((h4.mem b).1 hb).1⟩

/-- A class with two names is listed twice. -/
theorem C67_alias_fails : getModuleClasses ⟨c!"m", [(c!"B", .cls 0 c!"m" false), (c!"A", .cls 0 c!"m" false)]⟩ =
    [.cls 0 c!"m" false, .cls 0 c!"m" false] := rfl

/-- C67: exceptions are listed by name, whether they are declared in the module or imported. -/
theorem C67_exceptions (m : PyModule) (hn : (m.attrs.map Prod.fst).Nodup) :
    Listing (fun a => ∃ id mod, a.2 = .cls id mod true) m.attrs (getExceptions m) := by
  have h := getMembers_listing isException m hn
  refine ⟨fun a => ?_, h.names, h.order⟩
  rw [getExceptions, h.mem]
  refine and_congr_right fun _ => ?_
  obtain ⟨n, o⟩ := a
  cases o <;> simp [isException]

/-- `get_exceptions` is said to return the classes declared in a module, but an imported class is among them. -/
theorem C67_imported_fails : getExceptions ⟨c!"m", [(c!"E", .cls 0 c!"n" true)]⟩ = [(c!"E", .cls 0 c!"n" true)] := rfl

/-! ### Exceptions in documentation -/

/-- The exception that a name stands for in documentation: the exception of the module by that name, or else the built-in
exception. -/
def NamesExc (builtins m : PyModule) (n : Str) (o : ModObj) : Prop :=
  (∃ id mod, o = .cls id mod true) ∧
    ((n, o) ∈ m.attrs ∨ (n, o) ∈ builtins.attrs ∧ ∀ id mod, (n, ModObj.cls id mod true) ∉ m.attrs)

private theorem lookup_foldl (n : Str) : ∀ (l : List (Str × ModObj)) (d : List (Str × ModObj)), (l.map Prod.fst).Nodup →
    lookupKey n (l.foldl (fun d a => upsert a.1 a.2 d) d) = (lookupKey n l).or (lookupKey n d)
  | [], d, _ => by simp [lookupKey]
  | a :: l, d, h => by
    rw [List.map_cons, List.nodup_cons] at h
    rw [List.foldl_cons, lookup_foldl n l _ h.2, lookupKey_upsert]
    obtain ⟨k, v⟩ := a
    by_cases hk : k = n
    · subst hk
      have : lookupKey k l = none := lookupKey_none_iff'.2 h.1
      simp [this, lookupKey]
    · simp [lookupKey, hk]

theorem excContext_iff (builtins m : PyModule) (hb : (builtins.attrs.map Prod.fst).Nodup) (hn : (m.attrs.map Prod.fst).Nodup)
    (n : Str) (o : ModObj) : lookupKey n (excContext builtins m) = some o ↔ NamesExc builtins m n o := by
  have h1 := C67_exceptions builtins hb
  have h2 := C67_exceptions m hn
  rw [excContext, List.foldl_append, lookup_foldl n _ _ h2.names, lookup_foldl n _ _ h1.names]
  have e1 : ∀ {o}, lookupKey n (getExceptions builtins) = some o ↔ (n, o) ∈ builtins.attrs ∧ ∃ id mod, o = .cls id mod true :=
    fun {o} => ⟨fun h => (h1.mem _).1 (lookupKey_some_mem h), fun h => lookupKey_of_mem h1.names ((h1.mem (n, o)).2 h)⟩
  have e2 : ∀ {o}, lookupKey n (getExceptions m) = some o ↔ (n, o) ∈ m.attrs ∧ ∃ id mod, o = .cls id mod true :=
    fun {o} => ⟨fun h => (h2.mem _).1 (lookupKey_some_mem h), fun h => lookupKey_of_mem h2.names ((h2.mem (n, o)).2 h)⟩
  unfold NamesExc
  cases hm : lookupKey n (getExceptions m) with
  | some x =>
    obtain ⟨hx1, id, mod, rfl⟩ := e2.1 hm
    constructor
    · intro h; cases h; exact ⟨⟨id, mod, rfl⟩, .inl hx1⟩
    · rintro ⟨ho, h | ⟨_, h⟩⟩
      · have := e2.2 ⟨h, ho⟩
        rw [hm] at this
        exact this
      · exact absurd hx1 (h id mod)
  | none =>
    have hno : ∀ id mod, (n, ModObj.cls id mod true) ∉ m.attrs := fun id mod h => by
      rw [e2.2 ⟨h, id, mod, rfl⟩] at hm; cases hm
    rw [Option.none_or]
    have : lookupKey n ([] : List (Str × ModObj)) = none := rfl
    rw [this, Option.or_none, e1]
    constructor
    · rintro ⟨h, ho⟩; exact ⟨ho, .inr ⟨h, hno⟩⟩
    · rintro ⟨⟨id, mod, rfl⟩, h | h⟩
      · exact absurd h (hno id mod)
      · exact ⟨h.1, id, mod, rfl⟩

private theorem raises_ok {ctx : List (Str × ε)} : ∀ {ps : List (Str × Str)} {rs : List (Str × Option ε)},
    assignRaises ctx ps = .ok rs → ps.map Prod.fst = rs.map Prod.fst ∧ ∀ r ∈ rs, ∃ o, r.2 = some o ∧ lookupKey r.1 ctx = some o
  | [], rs, h => by cases h; simp
  | (n, d) :: ps, rs, h => by
    simp only [assignRaises] at h
    cases hl : lookupKey n ctx with
    | none => rw [hl] at h; cases h
    | some o =>
      rw [hl] at h
      cases hr : assignRaises ctx ps with
      | error e => rw [hr] at h; cases h
      | ok rs' =>
        rw [hr] at h
        cases h
        obtain ⟨h1, h2⟩ := raises_ok hr
        refine ⟨by simp [h1], ?_⟩
        intro r hm
        rcases List.mem_cons.1 hm with rfl | hm
        · exact ⟨o, rfl, hl⟩
        · exact h2 r hm

private theorem raises_error {ctx : List (Str × ε)} : ∀ {ps : List (Str × Str)} {p : Str × Str}, p ∈ ps →
    lookupKey p.1 ctx = none → assignRaises ctx ps = .error .typeError
  | (n, d) :: ps, p, hm, hl => by
    simp only [assignRaises]
    cases hn : lookupKey n ctx with
    | none => rfl
    | some o =>
      rcases List.mem_cons.1 hm with rfl | hm
      · rw [hn] at hl; cases hl
      · simp only; rw [raises_error hm hl]; rfl

/-- C67: when documentation is parsed, each exception in it is the one that its name stands for in the module. -/
theorem C67_raises (t : DocTarget τ) (builtins m : PyModule) (hb : (builtins.attrs.map Prod.fst).Nodup)
    (hn : (m.attrs.map Prod.fst).Nodup) (doc : Option Str) (r : TypedDoc τ ModObj)
    (h : parseType t (some (excContext builtins m)) doc = .ok r) :
    r.doc.raises.map Prod.fst = r.raiseTypes.map Prod.fst ∧ ∀ n o, (n, o) ∈ r.raiseTypes → ∃ x, o = some x ∧ NamesExc builtins m n x := by
  unfold parseType at h
  cases hd : getDocstring t doc with
  | none => rw [hd] at h; cases h; simp
  | some text =>
    rw [hd] at h
    simp only at h
    cases h1 : parseText text with
    | error e => rw [h1] at h; cases h
    | ok d =>
      rw [h1] at h
      simp only [Except.bind] at h
      cases h2 : checkDoc t d false with
      | error e => rw [h2] at h; cases h
      | ok u =>
        rw [h2] at h
        simp only at h
        cases h3 : assignTypes t d with
        | error e => rw [h3] at h; cases h
        | ok ty =>
          rw [h3] at h
          simp only at h
          cases h4 : assignRaises (excContext builtins m) d.raises with
          | error e => rw [h4] at h; cases h
          | ok rs =>
            rw [h4] at h
            cases h
            obtain ⟨h5, h6⟩ := raises_ok h4
            refine ⟨h5, fun n o hm => ?_⟩
            obtain ⟨x, hx, hl⟩ := h6 _ hm
            exact ⟨x, hx, (excContext_iff builtins m hb hn n x).1 hl⟩

/-- C67: parsing does not succeed if a name in the documentation stands for no exception. -/
theorem C67_raises_unknown (t : DocTarget τ) (builtins m : PyModule) (hb : (builtins.attrs.map Prod.fst).Nodup)
    (hn : (m.attrs.map Prod.fst).Nodup) (text : Str) (hd : hasDefaultDoc t text = false) (d : Docstring)
    (hp : parseText text = .ok d) (n s : Str) (hm : (n, s) ∈ d.raises) (hno : ∀ o, ¬ NamesExc builtins m n o) :
    ∃ e, parseType t (some (excContext builtins m)) (some text) = .error e := by
  have hl : lookupKey n (excContext builtins m) = none := by
    cases h : lookupKey n (excContext builtins m) with
    | none => rfl
    | some o => exact absurd ((excContext_iff builtins m hb hn n o).1 h) (hno o)
  unfold parseType
  simp only [getDocstring, hd, Bool.false_eq_true, if_false, hp, Except.bind]
  cases h2 : checkDoc t d false with
  | error e => exact ⟨e, rfl⟩
  | ok u =>
    simp only
    cases h3 : assignTypes t d with
    | error e => exact ⟨e, rfl⟩
    | ok ty => exact ⟨.typeError, by simp only; rw [raises_error hm hl]; rfl⟩

/-- A name that the module gives to something else still stands for the built-in exception. -/
theorem C67_shadow_fails :
    let builtins : PyModule := ⟨c!"builtins", [(c!"ValueError", .cls 0 c!"builtins" true)]⟩
    let m : PyModule := ⟨c!"m", [(c!"ValueError", .other 1)]⟩
    lookupKey c!"ValueError" m.attrs = some (.other 1) ∧ NamesExc builtins m c!"ValueError" (.cls 0 c!"builtins" true) := by
  refine ⟨rfl, ⟨_, _, rfl⟩, .inr ⟨by simp, ?_⟩⟩
  intro id mod h
  simp at h

/-! ### New modules -/

/-- C67: a module is made iff there is none by the name; it becomes known by its name, has no classes, functions or exceptions,
and no other module is touched. -/
theorem C67_create (fresh : Nat) (name : Str) (modules : List (Str × PyModule)) :
    ((∃ m, (name, m) ∈ modules) → createModule fresh name modules = .error .key) ∧
    ((∀ m, (name, m) ∉ modules) → ∃ modules' m, createModule fresh name modules = .ok (modules', m) ∧ m.name = name ∧
      lookupKey name modules' = some m ∧ (∀ n, n ≠ name → lookupKey n modules' = lookupKey n modules) ∧
      getModuleClasses m = [] ∧ getModuleFunctions m = [] ∧ getExceptions m = []) := by
  constructor
  · rintro ⟨m, hm⟩
    unfold createModule
    rw [if_pos]
    rw [Option.isSome_iff_ne_none, Ne, lookupKey_none_iff']
    exact fun h => h (List.mem_map.2 ⟨_, hm, rfl⟩)
  · intro h
    have hl : lookupKey name modules = none := by
      cases hl : lookupKey name modules with
      | none => rfl
      | some m => exact absurd (lookupKey_some_mem hl) (h m)
    refine ⟨_, _, by unfold createModule; rw [hl]; rfl, rfl, ?_, ?_, rfl, rfl, rfl⟩
    · rw [lookupKey_upsert, if_pos rfl]
    · intro n hne
      rw [lookupKey_upsert, if_neg (Ne.symm hne)]

/-! ### Presence of documentation -/

/-- C67: a type has documentation iff there is a text that is not empty. -/
theorem C67_has_docstring (t : DocTarget τ) (doc : Option Str) :
    hasDocstring t doc = true ↔ ∃ text, getDocstring t doc = some text ∧ text ≠ [] := by
  cases doc with
  | none => simp [hasDocstring, getDocstring]
  | some d =>
    by_cases h : hasDefaultDoc t d = true
    · simp [hasDocstring, getDocstring, h]
    · simp [hasDocstring, getDocstring, h]

/-- C67: parsing documentation that is not there gives nothing. -/
theorem C67_no_docstring (t : DocTarget τ) (context : Option (List (Str × ε))) (doc : Option Str) (h : hasDocstring t doc = false) :
    ∃ r, parseType t context doc = .ok r ∧ r.doc = {} ∧ r.paramTypes = [] ∧ r.returnType = none ∧ r.raiseTypes = [] := by
  cases hd : getDocstring t doc with
  | none => exact ⟨{ doc := {} }, by unfold parseType; rw [hd], rfl, rfl, rfl, rfl⟩
  | some text =>
    have ht : text = [] := by
      cases text with
      | nil => rfl
      | cons c r =>
        have := (C67_has_docstring t doc).2 ⟨_, hd, by simp⟩
        rw [this] at h; cases h
    subst ht
    refine ⟨{ doc := {} }, ?_, rfl, rfl, rfl, rfl⟩
    have hp : parseText [] = .ok {} := by decide +kernel
    unfold parseType
    rw [hd]
    simp only [hp, Except.bind]
    have hc : checkDoc t {} false = .ok () := by
      cases t <;> simp [checkDoc, checkDataclassDoc, checkFunctionDoc]
    have ha : assignTypes t {} = .ok ([], none) := by
      cases t <;> simp [assignTypes, assignParams, Except.map]
    rw [hc, ha]
    cases context <;> rfl

/-- The documentation has no entries. -/
def Docstring.IsBare (d : Docstring) : Prop := d.params = [] ∧ d.returns = none ∧ d.raises = [] ∧ d.seeAlso = []

private theorem full_cases (d : Docstring) : d.full = if optTrue d.short then some d.descText else none := by
  obtain ⟨s, l, _, _, _, _⟩ := d
  cases s with
  | none => rfl
  | some s =>
    cases l with
    | none => cases s <;> simp [Docstring.full, Docstring.descText, optTrue]
    | some l => cases s <;> cases l <;> simp [Docstring.full, Docstring.descText, optTrue]

/-- C67: the full description is the text that is written in front of all entries, and all of the text if there is no entry; there
is none without a short description. -/
theorem C67_full (d : Docstring) : (d.full = none ↔ d.short = none ∨ d.short = some []) ∧
    ∀ s, d.full = some s → ∃ rest, d.str = s ++ rest ∧ (d.IsBare ∧ rest = [] ∨ ¬ d.IsBare ∧ ∃ r, rest = '\n' :: '\n' :: ':' :: r) := by
  rw [full_cases]
  constructor
  · cases hs : d.short with
    | none => simp [optTrue]
    | some s => cases s <;> simp [optTrue]
  · intro s h
    by_cases ht : optTrue d.short = true
    · rw [if_pos ht] at h
      cases h
      refine ⟨_, by simp only [Docstring.str, ht, Bool.true_or, if_true]; rfl, ?_⟩
      obtain ⟨sh, lo, ps, rt, rs, se⟩ := d
      cases ps with
      | cons p ps => exact .inr ⟨fun h => by simp [Docstring.IsBare] at h, by simp [Docstring.fieldLines, paramStr]⟩
      | nil =>
        cases rt with
        | some r => exact .inr ⟨fun h => by simp [Docstring.IsBare] at h, by simp [Docstring.fieldLines, returnsStr]⟩
        | none =>
          cases rs with
          | cons p ps => exact .inr ⟨fun h => by simp [Docstring.IsBare] at h, by simp [Docstring.fieldLines, raisesStr]⟩
          | nil =>
            cases se with
            | cons p ps => exact .inr ⟨fun h => by simp [Docstring.IsBare] at h, by simp [Docstring.fieldLines, seeStr]⟩
            | nil => exact .inl ⟨⟨rfl, rfl, rfl, rfl⟩, by simp⟩
    · rw [if_neg ht] at h; cases h

/-- C67: descriptions that can be written are read back from the full description.  Missing: descriptions that cannot be
written, see `C40_long_colon_fails` and below. -/
theorem C67_full_read_partial (d : Docstring) (hd : d.DescOk) (s : Str) (hs : d.full = some s) :
    parseText s = .ok { short := d.short, long := d.long } := by
  have h1 : ({ short := d.short, long := d.long } : Docstring).full = some s := hs
  obtain ⟨rest, hr, h | h⟩ := (C67_full _).2 s h1
  · rw [h.2, List.append_nil] at hr
    rw [← hr]
    exact C40_roundtrip _ ⟨⟨hd.1, hd.2⟩, by constructor <;> simp⟩
  · exact absurd ⟨rfl, rfl, rfl, rfl⟩ h.1

/-- A long description without a short one is not part of the full description. -/
theorem C67_long_only_fails : ∃ t d, parseText t = .ok d ∧ d.long = some c!"b" ∧ d.full = none :=
  ⟨c!"\n \n\nb", { long := some c!"b" }, by decide +kernel, by decide +kernel, by decide +kernel⟩

/-! ### Examples -/

/-- `builtins`, with two exceptions and a function. -/
def exBuiltins : PyModule :=
  ⟨c!"builtins", [(c!"abs", .other 1), (c!"ValueError", .cls 2 c!"builtins" true), (c!"KeyError", .cls 3 c!"builtins" true)]⟩

/-- A module that declares an exception, a class and two functions, and imports a class and a function. -/
def exModule : PyModule :=
  ⟨c!"app", [(c!"run", .func 10 c!"app"), (c!"Failure", .cls 11 c!"app" true), (c!"Account", .cls 12 c!"app" false),
    (c!"KeyError", .cls 13 c!"app" true), (c!"wraps", .func 14 c!"functools"), (c!"Path", .cls 15 c!"pathlib" false),
    (c!"close", .func 16 c!"app")]⟩

example : (exModule.attrs.map Prod.fst).Nodup ∧ (exBuiltins.attrs.map Prod.fst).Nodup ∧
    ∀ a ∈ exModule.attrs, ∀ b ∈ exModule.attrs, a.2 = b.2 → a.1 = b.1 := by decide

example : getModuleClasses exModule = [.cls 12 c!"app" false, .cls 11 c!"app" true, .cls 13 c!"app" true] ∧
    getModuleFunctions exModule = [.func 16 c!"app", .func 10 c!"app"] := by decide

/-- Documentation with an exception of the module, one that hides a built-in exception, and one that is built in. -/
def exRaises : Str := c!"Runs.\n\n:raises Failure: On failure.\n:raises KeyError: On a key.\n:raises ValueError: On a value."

example : ∃ r, parseType (τ := Nat) (.function [] none) (some (excContext exBuiltins exModule)) (some exRaises) = .ok r ∧
    r.raiseTypes = [(c!"Failure", some (.cls 11 c!"app" true)), (c!"KeyError", some (.cls 13 c!"app" true)),
      (c!"ValueError", some (.cls 2 c!"builtins" true))] := ⟨_, by with_unfolding_all rfl, rfl⟩

/-- A name that stands for no exception. -/
example : hasDefaultDoc (τ := Nat) (.function [] none) c!"Runs.\n\n:raises Path: Never." = false ∧
    (∃ d, parseText c!"Runs.\n\n:raises Path: Never." = .ok d ∧ (c!"Path", c!"Never.") ∈ d.raises) ∧
    ∀ o, ¬ NamesExc exBuiltins exModule c!"Path" o := by
  refine ⟨rfl, ⟨{ short := some c!"Runs.", raises := [(c!"Path", c!"Never.")] }, by decide +kernel, by simp⟩, ?_⟩
  rintro o ⟨⟨id, mod, rfl⟩, h | h⟩
  · simp [exModule] at h
  · simp [exBuiltins] at h

example : hasDocstring (τ := Nat) (.dataclass c!"A" [] []) (some c!"A(x: int)") = false ∧
    hasDocstring (τ := Nat) (.dataclass c!"A" [] []) (some c!"A thing.") = true ∧
    hasDocstring (τ := Nat) .other (some []) = false := by decide

example : ({ short := some c!"a", long := some c!"b", returns := some c!"c" } : Docstring).full = some c!"a\n\nb" := rfl

end Verif
