import Verif.Lemmas.DuckRefines
/-!
# C81: objects that do not have the declared type

Serializers do not test types, so that an object of another type is written if it has what the serializer uses.
-/
namespace Verif

variable {py : Builtins} {env : Env}

theorem wdumps_of_create {t : Ty} (hs : serCreate env t = .ok ()) (n : Nat) (v : Val) : wdumps py env n t v = wgen py env n v t := by
  simp only [wdumps, hs]

/-- Whatever the object and the type, calls are nested to a bounded depth, and the outcome is then settled; it is outside the model
only if this is so for a part (or a method of the program is not modelled). -/
theorem C81_settled (py : Builtins) (env : Env) (t : Ty) (v : Val) :
    ∃ N, (∀ n ≥ N, wdumps py env n t v = wdumps py env N t v) ∧
      (wdumps py env N t v = .error .outOfModel → serCreate env t = .error .outOfModel ∨
        ∃ u w, DuckPart env t v u w ∧ (Outside py env u w ∨ DuckFails env u w .outOfModel)) := by
  obtain ⟨N, hN⟩ := bound (env := env) v t
  refine ⟨N, fun n hn => ?_, fun h => ?_⟩
  · simp only [wdumps, bound_stable hN hn]
  · unfold wdumps at h
    split at h
    · rename_i he; cases h; exact .inl he
    · obtain ⟨u, w, h1, h2 | ⟨_, h2⟩⟩ := duck_error N h (.inr hN)
      · exact .inr ⟨u, w, h1, .inr h2⟩
      · exact .inr ⟨u, w, h1, .inl h2⟩

/-- An object is written as type `t` exactly if each part that is visited has what the serializer for its place uses.  Partial: it is
not enough for a refusal that the object does not have the type, see the theorems below. -/
theorem C81_exact_partial (py : Builtins) (env : Env) (t : Ty) (v : Val) (hs : serCreate env t = .ok ()) (hi : InModel py env t v) :
    (∃ n r, wdumps py env n t v = .ok r) ↔ CanDuck env t v := by
  simp only [wdumps_of_create hs]
  constructor
  · rintro ⟨n, r, h⟩ u w e hp hf
    obtain ⟨m, r', h'⟩ := duck_written hp h
    exact duck_fails hf m r' h'
  · intro hc
    obtain ⟨N, hN⟩ := bound (env := env) v t
    cases h : wgen py env N v t with
    | ok r => exact ⟨N, r, h⟩
    | error e =>
      obtain ⟨u, w, h1, h2 | ⟨_, h2⟩⟩ := duck_error N h (.inr hN)
      · exact absurd h2 (hc u w e h1)
      · exact absurd h2 (hi u w h1)

/-- The exception is the one of a part that fails. -/
theorem C81_raises (py : Builtins) (env : Env) (n : Nat) (t : Ty) (v : Val) (e : Err) (h : wdumps py env n t v = .error e)
    (he : e ≠ .outOfModel) : serCreate env t = .error e ∨ ∃ u w, DuckPart env t v u w ∧ DuckFails env u w e := by
  unfold wdumps at h
  split at h
  · rename_i hs; cases h; exact .inl hs
  · obtain ⟨u, w, h1, h2 | ⟨h2, _⟩⟩ := duck_error n h (.inl he)
    · exact .inr ⟨u, w, h1, h2⟩
    · exact absurd h2 he

/-- Where the serializers of Serializer are defined, in particular for all objects of the declared type, the outcome is the same. -/
theorem C81_agrees (py : Builtins) (env : Env) (hpy : py.Fits) (t : Ty) (v : Val) (hd : dumps env t v ≠ .error .outOfModel) :
    ∃ N, ∀ n ≥ N, wdumps py env n t v = (match dumps env t v with | .error e => .error e | .ok j => .ok j.asVal) := by
  obtain ⟨N, hN⟩ := bound (env := env) v t
  refine ⟨N, fun n hn => ?_⟩
  unfold dumps at hd
  simp only [wdumps, dumps]
  cases hs : serCreate env t with
  | error e => rfl
  | ok _ =>
    rw [hs] at hd
    rcases gen_ref hpy (hN.le hn) with h | h
    · exact absurd h hd
    · exact h

/-- What is returned is JSON if this is so for all objects that are passed on as they are, and keys become strings. -/
theorem C81_json_partial (py : Builtins) (env : Env) (n : Nat) (t : Ty) (v r : Val) (hc : CleanParts env t v)
    (h : wdumps py env n t v = .ok r) : r.IsJson := by
  unfold wdumps at h
  split at h
  · cases h
  · exact duck_plain h hc

/-! ### What is not refused -/

/-- In place of a `bool`, `int`, `float` or `str`, any object is passed on as it is. -/
theorem C81_scalar_fails (py : Builtins) (env : Env) (n : Nat) (t : Ty) (ht : t ∈ [Ty.bool, .int, .float, .str]) (v : Val) :
    wdumps py env (n + 1) t v = .ok v := by
  simp only [List.mem_cons, List.not_mem_nil, or_false] at ht
  rcases ht with rfl | rfl | rfl | rfl <;> rfl

/-- In place of `None`, any object is dropped. -/
theorem C81_none_fails (py : Builtins) (env : Env) (n : Nat) (v : Val) : wdumps py env (n + 1) .none v = .ok .none := rfl

/-- Literals are not compared with the object, which is passed on. -/
theorem C81_literal_fails (py : Builtins) (env : Env) (n : Nat) (s : Str) (v : Val) :
    wdumps py env (n + 1) (.literal [.str s]) v = .ok v := rfl

/-- Items of a tuple that has more of them than the type are dropped, without an exception. -/
theorem C81_tuple_fails (py : Builtins) (env : Env) (n : Nat) (ts : List Ty) (vs : List Val) :
    wdumps py env n (.tuple ts) (.tuple vs) = wdumps py env n (.tuple ts) (.tuple (vs.take ts.length)) := by
  have hz : ∀ (ts : List Ty) (vs : List Val), ts.zip (vs.take ts.length) = ts.zip vs := by
    intro ts
    induction ts with
    | nil => intro vs; rfl
    | cons t ts ih =>
      intro vs
      cases vs with
      | nil => rfl
      | cons v vs => simp [ih]
  cases n with
  | zero => rfl
  | succ n => simp only [wdumps, wgen, pyIter, hz]

/-- A string in place of a list of strings is written as the list of its characters. -/
theorem C81_text_fails (py : Builtins) (env : Env) (n : Nat) (s : Str) :
    wdumps py env (n + 2) (.list .str) (.str s) = .ok (.list (s.map fun c => .str [c])) := by
  have : ∀ vs : List Val, mapRes (fun x => wgen py env (n + 1) x .str) vs = .ok vs := by
    intro vs
    induction vs with
    | nil => rfl
    | cons v vs ih =>
      have : wgen py env (n + 1) v .str = .ok v := rfl
      simp only [mapRes, this, ih]
  show (match mapRes (fun x => wgen py env (n + 1) x .str) (s.map fun c => Val.str [c]) with
    | .error e => .error e | .ok rs => .ok (Val.list rs)) = Except.ok (ε := Err) _
  rw [this]

/-- The class of an instance makes no difference, if there is no method `to_json`: its attributes are written as those of the class
that is expected. -/
theorem C81_class_fails (py : Builtins) (env : Env) (n c : Nat) (cd : ClassDef) (hc : env.classes[c]? = some cd) (hj : cd.toJson = none)
    (a b : Nat) (fs : List (Str × Val)) : wdumps py env n (.cls c) (.obj a fs) = wdumps py env n (.cls c) (.obj b fs) := by
  cases n with
  | zero => rfl
  | succ n => simp only [wdumps, wgen, wCls, hc, hj]

/-- A date with a time in place of a date is written with its time. -/
theorem C81_date_fails (py : Builtins) (env : Env) (n : Nat) (d : PyDateTime) :
    wdumps py env (n + 1) .date (.datetime d) = .ok (.str (dateTimeIso d)) := rfl

/-- A key of a dictionary with keys that should be strings is passed on as it is. -/
theorem C81_key_fails (py : Builtins) (env : Env) (n : Nat) (k : Key) (v : Val) :
    wdumps py env (n + 2) (.dict .str .int) (.dict [(k, v)]) = .ok (.dict [(k, v)]) := rfl

/-! ### The hypotheses are met -/

/-- A program with two data classes. -/
private def duckEnv : Env := ⟨[], [
  { module := c!"m", name := c!"A", kind := .dataclass false, fields := [{ name := c!"x", ty := .int }, { name := c!"y", ty := .list .str }] },
  { module := c!"m", name := c!"B", kind := .dataclass false, fields := [{ name := c!"x", ty := .str }, { name := c!"y", ty := .str },
    { name := c!"z", ty := .str }] }], id⟩

private def duckPy : Builtins := ⟨fun
  | .uuid n => uuidStr n
  | .ipv4 n => ipv4Str n
  | .ipv6 n s => ipv6StrScope n s
  | _ => [], fun _ _ => false⟩

/-- `B("1", "ab", "-")` written as an `A`. -/
private def duckObj : Val := .obj 1 [(c!"x", .str c!"1"), (c!"y", .str c!"ab"), (c!"z", .str c!"-")]

/-- An instance of another class is written, with all types wrong. -/
example : duckPy.Fits ∧ serCreate duckEnv (.cls 0) = .ok () ∧ wdumps duckPy duckEnv 5 (.cls 0) duckObj =
    .ok (.dict [(.str c!"x", .str c!"1"), (.str c!"y", .list [.str c!"a", .str c!"b"])]) :=
  ⟨⟨fun _ => rfl, fun _ => rfl, fun _ _ => rfl⟩, by decide +kernel, rfl⟩

/-- A number has no `x`, a list of numbers has no `isoformat`. -/
example : wdumps duckPy duckEnv 5 (.cls 0) (.int 1) = .error .attribute ∧
    wdumps duckPy duckEnv 5 (.list .date) (.list [.int 1]) = .error .attribute ∧
    wdumps duckPy duckEnv 5 (.list .int) (.int 1) = .error .typeError := ⟨rfl, rfl, rfl⟩

theorem duck_scalar_step {u u' : Ty} {w w' : Val} (h : DuckStep env u w u' w') (hu : u ∈ [Ty.int, .str]) : False := by
  simp only [List.mem_cons, List.not_mem_nil, or_false] at hu
  rcases hu with rfl | rfl <;> cases h <;> rename_i h _ _ <;> simp at h

/-- Both hypotheses of `C81_exact_partial` and the condition it gives are met by a list of texts in place of numbers. -/
example : InModel duckPy duckEnv (.list .int) (.list [.str c!"1"]) ∧ CanDuck duckEnv (.list .int) (.list [.str c!"1"]) ∧
    CleanParts duckEnv (.list .int) (.list [.str c!"1"]) ∧
    wdumps duckPy duckEnv 3 (.list .int) (.list [.str c!"1"]) = .ok (.list [.str c!"1"]) := by
  have parts : ∀ u w, DuckPart duckEnv (.list .int) (.list [.str c!"1"]) u w →
      (u = .list .int ∧ w = .list [.str c!"1"]) ∨ (u = .int ∧ w = .str c!"1") := by
    intro u w h
    cases h with
    | here => exact .inl ⟨rfl, rfl⟩
    | step hs h =>
      cases hs with
      | list hy hx =>
        cases hy with
        | items hy =>
          cases hy
          cases List.mem_singleton.1 hx
          cases h with
          | here => exact .inr ⟨rfl, rfl⟩
          | step hs _ => exact (duck_scalar_step hs (by simp)).elim
      | bare ht => simp at ht
  refine ⟨fun u w h => ?_, fun u w e h => ?_, ⟨fun u w x h hx => ?_, fun u kvs h => ?_⟩, rfl⟩
  · rcases parts u w h with ⟨rfl, rfl⟩ | ⟨rfl, rfl⟩ <;> intro h <;> cases h <;> rename_i h _ <;> simp at h
  · rcases parts u w h with ⟨rfl, rfl⟩ | ⟨rfl, rfl⟩ <;> intro h <;> cases h
    · rename_i h; cases h
    · rename_i h; exact h _ (.items .list)
    · rename_i h _; simp at h
    · rename_i h; cases h
    · rename_i h _; simp at h
  · rcases parts u w h with ⟨rfl, rfl⟩ | ⟨rfl, rfl⟩ <;> cases hx
    · rename_i h; simp at h
    · exact .str
  · rcases parts _ _ h with ⟨_, h⟩ | ⟨_, h⟩ <;> cases h

/-- What is returned need not be JSON: the data class has a date where a string is expected. -/
theorem C81_json_fails : ∃ (env : Env) (t : Ty) (v r : Val), (∀ py, wdumps py env 3 t v = .ok r) ∧ ¬ r.IsJson := by
  refine ⟨duckEnv, .list .str, .list [.date ⟨2024, 1, 1⟩], .list [.date ⟨2024, 1, 1⟩], fun _ => rfl, fun h => ?_⟩
  cases h with
  | list h => cases h (.date ⟨2024, 1, 1⟩) (by simp)

end Verif
