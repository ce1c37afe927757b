import Verif.Spec.Stored
import Verif.Lemmas.GenInv
import Verif.Props.C11_RoundTrip
import Verif.Props.C13_PlainJson
import Verif.Props.C46_JsonText
/-!
# C69: objects survive being stored as text

The conversion of C11 and the text of C46 one after the other; integers of more than 4300 digits have no text.
-/
namespace Verif

/-- The numbers of a document are those of the value that it was written for. -/
theorem C69_numbers (env : Env) (t : Ty) (v : Val) (j : Json) (h : dumps env t v = .ok j) :
    (∀ i, Json.HasInt i j → Holds env (Json.HasInt i) v) ∧ (∀ f, Json.HasFloat f j → Holds env (Json.HasFloat f) v) := by
  have key : ∀ N : Json → Prop, (¬ N .null) → (∀ s, ¬ N (.str s)) → (∀ js, N (.arr js) → ∃ j ∈ js, N j) →
      (∀ kvs, N (.obj kvs) → ∃ kv ∈ kvs, N kv.2) → N j → Holds env N v := by
    intro N h1 h2 h3 h4
    refine GenInv.dumps (G := fun v j => N j → Holds env N v) ?_ h
    exact
      { null := fun _ h => absurd h h1
        str := fun _ s h => absurd h (h2 s)
        scalar := fun _ _ hs h => .scalar hs h
        arr := fun _ js ih h => by obtain ⟨x, hx, hn⟩ := h3 js h; exact ih x hx hn
        obj := fun _ kvs _ ih h => by obtain ⟨x, hx, hn⟩ := h4 kvs h; exact ih x hx hn
        member := fun e m s hs h => by
          unfold enumValue at hs
          split at hs
          · cases hs
          · rename_i ed he
            split at hs
            · cases hs
            · rename_i p hp
              obtain ⟨name, s'⟩ := p
              cases hs
              exact .member he hp h
        enum := fun ed he f e m j hf hj h => .enumHook he hf hj h
        cls := fun cd hc f v j hf hj h => .hook hc hf hj h
        listItem := fun _ _ _ hm ih h => .list hm (ih h)
        setItem := fun _ _ _ hm ih h => .set hm (ih h)
        tupleItem := fun _ _ _ hm ih h => .tuple hm (ih h)
        dictItem := fun _ _ _ hm ih h => .dict hm (ih h)
        field := fun _ _ _ _ hm ih h => .field hm (ih h) }
  refine ⟨fun i => key _ ?_ ?_ ?_ ?_, fun f => key _ ?_ ?_ ?_ ?_⟩
  · intro h; cases h
  · intro s h; cases h
  · intro js h; cases h with | arr hx h => exact ⟨_, hx, h⟩
  · intro js h; cases h with | obj hx h => exact ⟨_, hx, h⟩
  · intro h; cases h
  · intro s h; cases h
  · intro js h; cases h with | arr hx h => exact ⟨_, hx, h⟩
  · intro js h; cases h with | obj hx h => exact ⟨_, hx, h⟩

/-- Whatever text an object is stored as is restored as the object: for types and values as in `C11_roundtrip_partial`, and
floats that are read back from their text. -/
theorem C69_restored_partial (env : Env) (hk : env.Ok) (hh : env.HooksWf) (G : Nat → Prop) (hG : ∀ c, G c → ClassInvertible env G c)
    (t : Ty) (ht : Invertible env G t) (v : Val) (hv : HasTy env v t) (he : Encodable v) (skip : Bool) (io : FloatIO)
    (hio : ∀ neg m e, Holds env (Json.HasFloat (.fin neg m e)) v → io.Faithful (.fin neg m e)) (s : Str) (h : Stored env io v s) :
    Restored env io skip t s v := by
  obtain ⟨j, h1, h2⟩ := h
  obtain ⟨j', h1', h3⟩ := C11_roundtrip_partial env hk G hG t ht v hv he skip
  rw [h1] at h1'
  cases h1'
  refine ⟨j, C46_lossless io j s (C13_distinct env hh _ _ j h1) ?_ h2, h3⟩
  exact fun neg m e hf => hio neg m e ((C69_numbers env _ v j h1).2 _ hf)

/-- Every object with numbers that can be written has a text, from which it is restored. -/
theorem C69_stored_partial (env : Env) (hk : env.Ok) (hh : env.HooksWf) (G : Nat → Prop) (hG : ∀ c, G c → ClassInvertible env G c)
    (t : Ty) (ht : Invertible env G t) (v : Val) (hv : HasTy env v t) (he : Encodable v) (skip : Bool) (io : FloatIO)
    (hs : Storable env io v) : ∃ s, Stored env io v s ∧ Restored env io skip t s v := by
  obtain ⟨j, h1, _⟩ := C11_roundtrip_partial env hk G hG t ht v hv he skip
  obtain ⟨s, h2⟩ := (C46_raises_iff io j).1.2 fun i hi => hs.ints i ((C69_numbers env _ v j h1).1 i hi)
  exact ⟨s, ⟨j, h1, h2⟩, C69_restored_partial env hk hh G hG t ht v hv he skip io hs.floats s ⟨j, h1, h2⟩⟩

/-- Objects of a type that are stored as the same text are equal. -/
theorem C69_injective_partial (env : Env) (hk : env.Ok) (hh : env.HooksWf) (G : Nat → Prop)
    (hG : ∀ c, G c → ClassInvertible env G c) (t : Ty) (ht : Invertible env G t) (io : FloatIO) (v w : Val)
    (hv : HasTy env v t) (hev : Encodable v) (hsv : Storable env io v) (hw : HasTy env w t) (hew : Encodable w)
    (hsw : Storable env io w) (s : Str) (h : Stored env io v s) (h' : Stored env io w s) : v = w := by
  obtain ⟨j, h1, h2⟩ := C69_restored_partial env hk hh G hG t ht v hv hev false io hsv.floats s h
  obtain ⟨j', h1', h2'⟩ := C69_restored_partial env hk hh G hG t ht w hw hew false io hsw.floats s h'
  rw [h1] at h1'
  cases h1'
  rw [h2] at h2'
  exact Except.ok.inj h2'

private theorem dumpAll_lines {env : Env} {io : FloatIO} : ∀ {vs : List Val} {file out : Str}, dumpAll env io vs file = .ok out →
    ∃ lines, out = file ++ lines.flatMap (· ++ ['\n']) ∧ All2 (Stored env io) vs lines
  | [], file, out, h => by
    simp only [dumpAll] at h; cases h
    exact ⟨[], by simp, .nil⟩
  | v :: vs, file, out, h => by
    simp only [dumpAll] at h
    split at h
    · cases h
    · rename_i j hj
      split at h
      · cases h
      · rename_i file' hf
        obtain ⟨s, hs, rfl⟩ := (C46_file io j file file').1 hf
        obtain ⟨lines, rfl, h2⟩ := dumpAll_lines h
        exact ⟨s :: lines, by simp, .cons ⟨j, hj, hs⟩ h2⟩

/-- Objects written to a file one after the other with `json_dump` are restored from its lines: there are as many lines as objects,
each ends with a line break and has no other control character, and each is restored as the object at that place. -/
theorem C69_lines_partial (env : Env) (hk : env.Ok) (hh : env.HooksWf) (G : Nat → Prop) (hG : ∀ c, G c → ClassInvertible env G c)
    (t : Ty) (ht : Invertible env G t) (io : FloatIO) (skip : Bool) (vs : List Val)
    (hvs : ∀ v ∈ vs, HasTy env v t ∧ Encodable v ∧ Storable env io v) :
    ∃ lines, dumpAll env io vs [] = .ok (lines.flatMap (· ++ ['\n'])) ∧ (∀ l ∈ lines, ∀ c ∈ l, 32 ≤ c.toNat) ∧
      All2 (fun v l => Restored env io skip t l v) vs lines := by
  have hall : ∀ vs : List Val, (∀ v ∈ vs, HasTy env v t ∧ Encodable v ∧ Storable env io v) → ∀ file, ∃ out, dumpAll env io vs file = .ok out := by
    intro vs
    induction vs with
    | nil => intro _ file; exact ⟨file, rfl⟩
    | cons v vs ih =>
      intro h file
      obtain ⟨h1, h2, h3⟩ := h v List.mem_cons_self
      obtain ⟨s, ⟨j, hj, hs⟩, _⟩ := C69_stored_partial env hk hh G hG t ht v h1 h2 skip io h3
      obtain ⟨out, ho⟩ := ih (fun w hw => h w (List.mem_cons_of_mem _ hw)) (file ++ s ++ ['\n'])
      refine ⟨out, ?_⟩
      simp only [dumpAll, hj, (C46_file io j file _).2 ⟨s, hs, rfl⟩, ho]
  obtain ⟨out, ho⟩ := hall vs hvs []
  obtain ⟨lines, rfl, hl⟩ := dumpAll_lines ho
  refine ⟨lines, ho, ?_, ?_⟩
  · intro l hl' c hc
    obtain ⟨v, hv, j, hj, hs⟩ := hl.mem_right hl'
    exact C46_no_control io j l (fun neg m e hf => (hvs v hv).2.2.floats neg m e ((C69_numbers env _ v j hj).2 _ hf)) hs c hc
  · clear ho
    induction hl with
    | nil => exact .nil
    | cons h _ ih =>
      obtain ⟨h1, h2, h3⟩ := hvs _ List.mem_cons_self
      exact .cons (C69_restored_partial env hk hh G hG t ht _ h1 h2 skip io h3.floats _ h) (ih fun w hw => hvs w (List.mem_cons_of_mem _ hw))

/-- An integer of 4301 digits is written as JSON, but has no text. -/
theorem C69_long_integer_fails (env : Env) (io : FloatIO) :
    objectToJson env (.int (10 ^ 4300)) = .ok (.int (10 ^ 4300)) ∧ jsonDumpString io (.int (10 ^ 4300)) = .error .valueError := by
  refine ⟨rfl, (C46_raises_iff io _).2.2 fun h => ?_⟩
  have := h _ .int
  rw [Int.natAbs_pow] at this
  exact absurd this (Nat.lt_irrefl _)

/-! ### The hypotheses are met -/

/-- `@dataclass class Node: value: int; next: Optional["Node"] = None` -/
private def exNode : ClassDef :=
  { module := c!"m", name := c!"Node", kind := .dataclass false, fields :=
    [{ name := c!"value", ty := .int }, { name := c!"next", ty := .union [.cls 0, .none], dflt := .value .none }] }
private def exEnv : Env := ⟨[], [exNode], id⟩

private theorem exOk : exEnv.Ok := by
  refine ⟨by simp [exEnv, ClassDef.key], by simp [exEnv], by simp [exEnv, exNode], fun _ => .refl _⟩

private theorem exHooks : exEnv.HooksWf :=
  ⟨fun cd hc f v j hf => by simp [exEnv] at hc; subst hc; simp [exNode] at hf, fun ed he => by simp [exEnv] at he⟩

private theorem exClasses : ∀ c, c = 0 → ClassInvertible exEnv (· = 0) c := by
  rintro c rfl
  refine .standard exNode rfl rfl rfl (by simp [exNode]) (by simp [exNode]) rfl (by decide) ?_ ?_ ?_
  · intro f hf
    simp only [exNode, List.mem_cons, List.not_mem_nil, or_false] at hf
    rcases hf with rfl | rfl <;> rfl
  · intro f hf
    simp only [exNode, List.mem_cons, List.not_mem_nil, or_false] at hf
    rcases hf with rfl | rfl
    · exact .scalar (t := .int) (by simp [scalarTys])
    · exact .cls rfl
  · intro f hf hno
    simp only [exNode, List.mem_cons, List.not_mem_nil, or_false] at hf
    rcases hf with rfl | rfl
    · cases hno
    · rfl

/-- A chain of nodes. -/
private def exVal : List Int → Val
  | [] => .none
  | i :: is => .obj 0 [(c!"value", .int i), (c!"next", exVal is)]

private theorem exVal_ty : ∀ is, HasTy exEnv (exVal is) (.union [.cls 0, .none])
  | [] => .union (t := .none) (by simp) .none
  | i :: is => by
    refine .union (t := .cls 0) (by simp) (.cls (cd := exNode) rfl rfl ?_)
    intro k f w hf hw
    match k with
    | 0 => cases hf; cases hw; exact .int
    | 1 => cases hf; cases hw; exact exVal_ty is
    | _ + 2 => cases hf

private theorem exVal_encodable : ∀ is, Encodable (exVal is)
  | [] => .leaf rfl (by simp [exVal]) (by simp [exVal]) (by simp [exVal])
  | i :: is => by
    refine .obj ?_
    intro kv hkv
    simp only [List.mem_cons, List.not_mem_nil, or_false] at hkv
    rcases hkv with rfl | rfl
    · exact .leaf rfl (by simp) (by simp) (by simp)
    · exact exVal_encodable is

private theorem exVal_holds {N : Json → Prop} (h0 : ¬ N .null) : ∀ is, Holds exEnv N (exVal is) → ∃ i ∈ is, N (.int i)
  | [], h => by
    cases h with
    | scalar hs hn => cases hs; exact absurd hn h0
    | hook hc hf => simp [exEnv] at hc; subst hc; simp [exNode] at hf
  | i :: is, h => by
    generalize hv : exVal (i :: is) = v at h
    cases h with
    | scalar hs => subst hv; cases hs
    | hook hc hf => simp [exEnv] at hc; subst hc; simp [exNode] at hf
    | field hkv h =>
      simp only [exVal, Val.obj.injEq] at hv
      obtain ⟨_, rfl⟩ := hv
      simp only [List.mem_cons, List.not_mem_nil, or_false] at hkv
      rcases hkv with rfl | rfl
      · cases h with
        | scalar hs hn => cases hs; exact ⟨i, by simp, hn⟩
        | hook hc hf => simp [exEnv] at hc; subst hc; simp [exNode] at hf
      · obtain ⟨k, hk, hn⟩ := exVal_holds h0 is h
        exact ⟨k, by simp [hk], hn⟩
    | _ => cases hv

/-- Chains of nodes are written to a file and restored from it, whatever their length and number. -/
example (io : FloatIO) (chains : List (List Int)) (h : ∀ is ∈ chains, ∀ i ∈ is, i.natAbs < 10 ^ 4300) :
    ∃ lines, dumpAll exEnv io (chains.map exVal) [] = .ok (lines.flatMap (· ++ ['\n'])) ∧ (∀ l ∈ lines, ∀ c ∈ l, 32 ≤ c.toNat) ∧
      All2 (fun v l => Restored exEnv io false (.union [.cls 0, .none]) l v) (chains.map exVal) lines := by
  refine C69_lines_partial exEnv exOk exHooks (· = 0) exClasses _ ?_ io false _ ?_
  · refine .union (by rw [← discProps_nil_iff]; rfl) ?_ ?_
    · intro t ht
      simp only [List.mem_cons, List.not_mem_nil, or_false] at ht
      rcases ht with rfl | rfl
      · exact .cls rfl
      · exact .scalar (by simp [scalarTys])
    · intro i k t u hik ht hu
      match i, k with
      | 0, 1 => cases ht; cases hu; exact .kinds (by decide)
      | 0, 0 => omega
      | _, k + 2 => simp at hu
      | i + 1, 0 => omega
      | i + 1, 1 => omega
  · intro v hv
    obtain ⟨is, his, rfl⟩ := List.mem_map.1 hv
    refine ⟨exVal_ty is, exVal_encodable is, ?_, ?_⟩
    · intro i hi
      obtain ⟨k, hk, hn⟩ := exVal_holds (by intro h; cases h) is hi
      cases hn
      exact h is his i hk
    · intro neg m e hf
      obtain ⟨k, _, hn⟩ := exVal_holds (by intro h; cases h) is hf
      cases hn

end Verif
