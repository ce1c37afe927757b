import Verif.Lemmas.AnnExact
/-!
# C80: reader and writer take texts in annotations for the same types

An annotation that is a text, or has texts in it, is evaluated by `typing.get_type_hints` when an object is read, and by
`evaluate_type` when it is written.  Both give the type that is meant, if the names stand for the same where the class that is written
is defined as where the annotation is written.
-/
namespace Verif

/-- The reader takes an annotation for the type that is meant, in the names of the module of the class, then of the class, then of the
built-in ones.  (`Means` leaves out `None` in place of a type other than as a text.) -/
theorem C80_reader {w : AnnWorld} {b : AnnClass} {o t : AnnObj} (h : w.Means
      (firstOf [w.inModule b.module, fun n => lookupKey n b.vars, fun n => lookupKey n w.builtins]) o t) :
    ∃ N, ∀ n, N ≤ n → w.hint n b o = .ok t := by
  refine hint_means (fun n o hn => ?_) h
  unfold AnnWorld.hintLook
  simp only [firstOf] at hn
  cases h1 : w.inModule b.module n with
  | some o' => rw [h1] at hn; exact hn
  | none =>
    rw [h1] at hn
    cases h2 : lookupKey n b.vars with
    | some o' => rw [h2] at hn; exact hn
    | none =>
      rw [h2] at hn
      cases h3 : lookupKey n w.builtins with
      | some o' => rw [h3] at hn; exact hn
      | none => rw [h3] at hn; cases hn

/-- The writer makes a writer for the type that is meant, if all texts are seen. -/
theorem C80_writer_partial {w : AnnWorld} {m : Nat} {d : Str → Option AnnObj} {o t : AnnObj}
    (hd : ∀ n x, d n = some x → n ≠ c!"typ" ∧ n ≠ c!"module" ∧ firstOf [w.inModule m, fun n => lookupKey n w.builtins] n = some x)
    (hs : w.Seen d true o) (h : w.Means d o t) :
    ∃ x, WriterFor t x ∧ ∃ N, ∀ n, N ≤ n → w.getWriter n (some m) o = .ok x := by
  refine getWriter_seen (fun o' n x hn => ?_) hs _ _ (fun _ => rfl) h
  obtain ⟨h1, h2, h3⟩ := hd n x hn
  unfold AnnWorld.evalLook
  rw [if_neg h1, if_neg h2]
  simp only [firstOf] at h3
  cases h4 : w.inModule m n with
  | some o' => rw [h4] at h3; exact h3
  | none =>
    rw [h4] at h3
    cases h5 : lookupKey n w.builtins with
    | some o' => rw [h5] at h3; exact h3
    | none => rw [h5] at h3; cases h3

/-- And only then: for an annotation that means a type in names that the writer knows, there is a writer exactly if all texts are seen;
otherwise every attempt fails. -/
theorem C80_writer_iff {w : AnnWorld} {m : Nat} {d : Str → Option AnnObj} {o t : AnnObj}
    (hd : ∀ n x, d n = some x → n ≠ c!"typ" ∧ n ≠ c!"module" ∧ firstOf [w.inModule m, fun n => lookupKey n w.builtins] n = some x)
    (h : w.Means d o t) :
    ((∃ x, WriterFor t x ∧ ∃ N, ∀ n, N ≤ n → w.getWriter n (some m) o = .ok x) ↔ w.Seen d true o) ∧
      (¬ w.Seen d true o → ∀ n, ∃ e, w.getWriter n (some m) o = .error e) := by
  have hl : ∀ o n x, d n = some x → w.evalLook m o n = some x := fun o' n x hn => by
    obtain ⟨h1, h2, h3⟩ := hd n x hn
    unfold AnnWorld.evalLook
    rw [if_neg h1, if_neg h2]
    simp only [firstOf] at h3
    cases h4 : w.inModule m n with
    | some o => rw [h4] at h3; exact h3
    | none =>
      rw [h4] at h3
      simp only at h3 ⊢
      cases h5 : lookupKey n w.builtins with
      | some o => rw [h5] at h3; exact h3
      | none => rw [h5] at h3; cases h3
  obtain ⟨j, hj⟩ := h
  refine ⟨⟨fun ⟨x, _, N, hN⟩ => seen_of_getWriter hl j (.inl rfl) hj (hN N (Nat.le_refl N)), fun hs => C80_writer_partial hd hs ⟨j, hj⟩⟩,
    fun hs n => ?_⟩
  cases hw : w.getWriter n (some m) o with
  | error e => exact ⟨e, rfl⟩
  | ok x => exact absurd (seen_of_getWriter hl j (.inl rfl) hj hw) hs

/-- Reader and writer of a class have the same fields in the same order, with the types that the annotations mean, if the names in the
annotations of each base stand for the same as in the module of the class. -/
theorem C80_fields_partial {w : AnnWorld} {c : Nat}
    (h : ∀ b ∈ (w.classes c).mro, ∀ f ∈ (w.classes b).own, ∃ d t,
      w.Shared (w.classes b) (w.classes c).module d ∧ w.Means d f.2 t ∧ w.Seen d true f.2) :
    ∃ fs ws, (∃ N, ∀ n, N ≤ n → w.readFields n c = .ok fs ∧ w.writeFields n c = .ok ws) ∧
      All2 (fun (f : Str × AnnObj) (x : Str × Writer) => f.1 = x.1 ∧ WriterFor f.2 x.2) fs ws ∧
      ∀ f ∈ fs, ∃ b ∈ (w.classes c).mro, ∃ o, (f.1, o) ∈ (w.classes b).own ∧
        ∃ d, w.Shared (w.classes b) (w.classes c).module d ∧ w.Means d o f.2 := by
  obtain ⟨fs, h1, N, hN⟩ := hintsOfAll_good (c := c) (w.classes c).mro.reverse (fun b hb p hp => by
    have hb := List.mem_reverse.1 hb
    obtain ⟨d, t, hd, hm, hs⟩ := h b hb p hp
    exact ⟨t, hint_means (Shared.hintLook hd) hm, rfl, ⟨b, hb, hp, d, hd, hm⟩,
      getWriter_seen (Shared.evalLook hd) hs _ _ (fun _ => rfl) hm⟩) .nil
  obtain ⟨ws, h2, M, hM⟩ := writers_good h1
  refine ⟨fs, ws, ⟨max N M, fun n hn => ⟨hN n (by omega), hM n (by omega)⟩⟩, h2, fun f hf => ?_⟩
  obtain ⟨p, _, hp, ⟨b, hb, ho, hd⟩, _⟩ := h1.mem_right hf
  exact ⟨b, hb, p.2, hp ▸ ho, hd⟩

/-- The names of module `m` and the built-in ones, but for the variables of `evaluate_type` and what is hidden by variables of the class. -/
def namesOf (w : AnnWorld) (m : Nat) (b : AnnClass) (n : Str) : Option AnnObj :=
  if n = c!"typ" ∨ n = c!"module" then none
  else match w.inModule m n with
    | some o => some o
    | none => if n ∈ b.vars.map Prod.fst then none else lookupKey n w.builtins

/-- So if the class and its bases are in one module, it is enough that the annotations have a meaning in the names of the module that
are not hidden by variables of the class. -/
theorem C80_one_module_partial {w : AnnWorld} {c : Nat} (hm : ∀ b ∈ (w.classes c).mro, (w.classes b).module = (w.classes c).module)
    (h : ∀ b ∈ (w.classes c).mro, ∀ f ∈ (w.classes b).own, ∃ t, w.Means (namesOf w (w.classes c).module (w.classes b)) f.2 t ∧
      w.Seen (namesOf w (w.classes c).module (w.classes b)) true f.2) :
    ∃ fs ws, (∃ N, ∀ n, N ≤ n → w.readFields n c = .ok fs ∧ w.writeFields n c = .ok ws) ∧
      All2 (fun (f : Str × AnnObj) (x : Str × Writer) => f.1 = x.1 ∧ WriterFor f.2 x.2) fs ws := by
  obtain ⟨fs, ws, h1, h2, _⟩ := C80_fields_partial (w := w) (c := c) (fun b hb f hf => by
    obtain ⟨t, ht, hs⟩ := h b hb f hf
    refine ⟨_, t, fun n o hn => ?_, ht, hs⟩
    unfold namesOf at hn
    split at hn
    · cases hn
    · rename_i h0
      refine ⟨fun e => h0 (.inl e), fun e => h0 (.inr e), ?_⟩
      simp only [firstOf, hm b hb]
      cases h3 : w.inModule (w.classes c).module n with
      | some o' => rw [h3] at hn; exact ⟨hn, hn⟩
      | none =>
        rw [h3] at hn
        simp only at hn
        split at hn
        · cases hn
        · rename_i h4
          have h5 : lookupKey n (w.classes b).vars = none := lookupKey_none_iff'.2 h4
          simp only [h5, hn, and_self])
  exact ⟨fs, ws, h1, h2⟩

/-! ### A program -/

/-- Two modules; both have a class `B`, the first has classes `typ`, `module`, and enumeration `E`. -/
def annWorld (classes : Nat → AnnClass) : AnnWorld where
  parse s :=
    if s = c!"None" then some .none
    else if s = c!"'B'" then some (.text c!"B")
    else if s = c!"list['B']" then some (.index (.name c!"list") [.text c!"B"])
    else if s = c!"dict[str, B]" then some (.index (.name c!"dict") [.name c!"str", .name c!"B"])
    else some (.name s)
  builtins := [(c!"int", .cls 100), (c!"str", .cls 101), (c!"list", .form (.builtin .list)), (c!"dict", .form (.builtin .dict))]
  modules := [[(c!"B", .cls 2), (c!"typ", .cls 3), (c!"module", .cls 4), (c!"E", .cls 5), (c!"D", .cls 7)], [(c!"B", .cls 6)]]
  classes := classes
  strCls := 101
  isEnum c := c = 5

/-- Class 0 with the given annotations, in the first module; class 1, derived from it, in module `m`, with field `y: int`. -/
def annClasses (vars own : List (Str × AnnObj)) (m : Nat) : Nat → AnnClass
  | 0 => ⟨0, vars, own, [0]⟩
  | 1 => ⟨m, [], [(c!"y", .cls 100)], [1, 0]⟩
  | _ => ⟨0, [], [], []⟩

/-- ``a: "list['B']"``, `b: "dict[str, B]"`, `c: list["D"]`: the hypotheses hold for class 1 in the first module. -/
def annGood : AnnWorld :=
  annWorld (annClasses [] [(c!"a", .text c!"list['B']"), (c!"b", .text c!"dict[str, B]"), (c!"c", .gen (.builtin .list) [.text c!"D"])] 0)

example : ∃ fs ws, (∃ N, ∀ n, N ≤ n → annGood.readFields n 1 = .ok fs ∧ annGood.writeFields n 1 = .ok ws) ∧
    All2 (fun (f : Str × AnnObj) (x : Str × Writer) => f.1 = x.1 ∧ WriterFor f.2 x.2) fs ws := by
  have hB : annGood.Seen (namesOf annGood 0 ⟨0, [], [], []⟩) true (.text c!"B") :=
    .text (e := .name c!"B") (o := .cls 2) rfl rfl (fun _ => ⟨(by intro h; cases h), (by intro h; cases h)⟩) .cls
  have hD : annGood.Seen (namesOf annGood 0 ⟨0, [], [], []⟩) true (.text c!"D") :=
    .text (e := .name c!"D") (o := .cls 7) rfl rfl (fun _ => ⟨(by intro h; cases h), (by intro h; cases h)⟩) .cls
  refine C80_one_module_partial (w := annGood) (c := 1) (fun b hb => ?_) (fun b hb f hf => ?_)
  · rcases List.mem_cons.1 hb with rfl | hb
    · rfl
    · rcases List.mem_cons.1 hb with rfl | hb
      · rfl
      · cases hb
  · rcases List.mem_cons.1 hb with rfl | hb
    · rcases List.mem_cons.1 hf with rfl | hf
      · exact ⟨.cls 100, ⟨1, rfl⟩, .cls⟩
      · cases hf
    · rcases List.mem_cons.1 hb with rfl | hb
      · rcases List.mem_cons.1 hf with rfl | hf
        · exact ⟨.gen (.builtin .list) [.cls 2], ⟨4, rfl⟩, .text (e := .index (.name c!"list") [.text c!"B"])
            (o := .gen (.builtin .list) [.text c!"B"]) rfl rfl (fun _ => ⟨(by intro h; cases h), (by intro h; cases h)⟩)
            (.list (.inl rfl) hB)⟩
        rcases List.mem_cons.1 hf with rfl | hf
        · exact ⟨.gen (.builtin .dict) [.cls 101, .cls 2], ⟨4, rfl⟩,
            .text (e := .index (.name c!"dict") [.name c!"str", .name c!"B"])
            (o := .gen (.builtin .dict) [.cls 101, .cls 2]) rfl rfl (fun _ => ⟨(by intro h; cases h), (by intro h; cases h)⟩)
            (.dict (.inl rfl) (.inl rfl) .cls)⟩
        rcases List.mem_cons.1 hf with rfl | hf
        · exact ⟨.gen (.builtin .list) [.cls 7], ⟨4, rfl⟩, .list (.inl rfl) hD⟩
        · cases hf
      · cases hb

/-! ### Where the code does otherwise -/

/-- `Annotated["B", …]` means a type in the names that the writer knows, but the text is not seen. -/
example (n : Nat) : ∃ e, annGood.getWriter n (some 0) (.gen .annotated [.ref c!"B", .const 0]) = .error e := by
  refine (C80_writer_iff (d := namesOf annGood 0 ⟨0, [], [], []⟩) (t := .gen .annotated [.cls 2, .const 0]) ?_ ⟨4, rfl⟩).2 ?_ n
  · intro n x hn
    unfold namesOf at hn
    split at hn
    · cases hn
    · rename_i h
      refine ⟨fun h' => h (.inl h'), fun h' => h (.inr h'), ?_⟩
      simp only [firstOf]
      cases h1 : annGood.inModule 0 n with
      | some o => rw [h1] at hn; exact hn
      | none => rw [h1] at hn; simp only [List.map_nil, List.not_mem_nil, if_false] at hn; simp only [hn]
  · intro h
    cases h with
    | annotated h => cases h
    | tuple h => rcases h with h | h <;> cases h

/-- Class 0 with one field `x`. -/
def annOne (o : AnnObj) : AnnWorld := annWorld (annClasses [] [(c!"x", o)] 1)

/-- The name of a class is `typ`: this is the annotation itself, a text, in `evaluate_type`. -/
theorem C80_typ_fails (n : Nat) : (annOne (.text c!"typ")).readFields (n + 2) 0 = .ok [(c!"x", .cls 3)] ∧
    (annOne (.text c!"typ")).writeFields (n + 2) 0 = .error .typeError := ⟨rfl, rfl⟩

/-- The name of a class is `module`: this is the module in `evaluate_type`. -/
theorem C80_module_fails (n : Nat) : (annOne (.text c!"module")).readFields (n + 2) 0 = .ok [(c!"x", .cls 4)] ∧
    (annOne (.text c!"module")).writeFields (n + 2) 0 = .error .typeError := ⟨rfl, rfl⟩

/-- An inherited field: the writer looks for names in the module of the derived class, where another class has the same name … -/
theorem C80_inherited_fails (n : Nat) : (annOne (.text c!"B")).readFields (n + 2) 1 = .ok [(c!"x", .cls 2), (c!"y", .cls 100)] ∧
    (annOne (.text c!"B")).writeFields (n + 2) 1 = .ok [(c!"x", .cls 6), (c!"y", .cls 100)] := ⟨rfl, rfl⟩

/-- … or none. -/
theorem C80_inherited_name_fails (n : Nat) : (annOne (.text c!"D")).readFields (n + 2) 1 = .ok [(c!"x", .cls 7), (c!"y", .cls 100)] ∧
    (annOne (.text c!"D")).writeFields (n + 2) 1 = .error .name := ⟨rfl, rfl⟩

/-- A text of a text: `x: "B"` in a module with `from __future__ import annotations`. -/
theorem C80_twice_fails (n : Nat) : (annOne (.text c!"'B'")).readFields (n + 3) 0 = .ok [(c!"x", .cls 2)] ∧
    (annOne (.text c!"'B'")).writeFields (n + 3) 0 = .error .typeError := ⟨rfl, rfl⟩

/-- `x: None`, as a text or not. -/
theorem C80_none_fails (n : Nat) :
    ((annOne (.text c!"None")).readFields (n + 2) 0 = .ok [(c!"x", .noneType)] ∧
      (annOne (.text c!"None")).writeFields (n + 2) 0 = .error .typeError) ∧
    ((annOne .none).readFields (n + 2) 0 = .ok [(c!"x", .noneType)] ∧
      (annOne .none).writeFields (n + 2) 0 = .error .typeError) := ⟨⟨rfl, rfl⟩, rfl, rfl⟩

/-- `x: Annotated["B", …]`. -/
theorem C80_annotated_fails (n : Nat) :
    (annOne (.gen .annotated [.ref c!"B", .const 0])).readFields (n + 3) 0 = .ok [(c!"x", .gen .annotated [.cls 2, .const 0])] ∧
      (annOne (.gen .annotated [.ref c!"B", .const 0])).writeFields (n + 3) 0 = .error .typeError := ⟨rfl, rfl⟩

/-- `x: dict["E", int]`, where `E` is an enumeration. -/
theorem C80_key_fails (n : Nat) :
    (annOne (.gen (.builtin .dict) [.text c!"E", .cls 100])).readFields (n + 3) 0 =
      .ok [(c!"x", .gen (.builtin .dict) [.cls 5, .cls 100])] ∧
    (annOne (.gen (.builtin .dict) [.text c!"E", .cls 100])).writeFields (n + 3) 0 = .error .typeError := ⟨rfl, rfl⟩

/-- A default value of a field hides a built-in name from the reader: `str: "str" = "x"`. -/
theorem C80_hidden_fails (n : Nat) :
    (annWorld (annClasses [(c!"str", .text c!"x")] [(c!"str", .text c!"str")] 0)).readFields (n + 2) 0 = .error .name ∧
    (annWorld (annClasses [(c!"str", .text c!"x")] [(c!"str", .text c!"str")] 0)).writeFields (n + 2) 0 = .ok [(c!"str", .cls 101)] :=
  ⟨rfl, rfl⟩

/-- The name of a class that is defined in the class is known to the reader only. -/
theorem C80_nested_fails (n : Nat) :
    (annWorld (annClasses [(c!"Inner", .cls 9)] [(c!"x", .text c!"Inner")] 0)).readFields (n + 2) 0 = .ok [(c!"x", .cls 9)] ∧
    (annWorld (annClasses [(c!"Inner", .cls 9)] [(c!"x", .text c!"Inner")] 0)).writeFields (n + 2) 0 = .error .name :=
  ⟨rfl, rfl⟩

end Verif
