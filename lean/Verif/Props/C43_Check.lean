import Verif.Lemmas.Inspection
import Verif.Lemmas.Core
/-!
# C43: `check_recursive` tests the predicate on every nested member
-/
namespace Verif

/-- C43 in full for the first form: the answer is whether `p` holds for all members. -/
def C43_statement (env : Env) (p : Ty → Val → Bool) (obj : Val) : Prop :=
  ∃ b, checkRecursive env obj (some p) none none = .ok b ∧
    (b = true ↔ ∀ u t v, OwnTy obj u → PartOf env u obj t v → p t v = true)

/-- The members of a value of a declared type. -/
def AllParts (env : Env) (p : Ty → Val → Bool) (t : Ty) (v : Val) : Prop := ∀ t' v', PartOf env t v t' v' → p t' v' = true

theorem checkFields_decides {env : Env} {p : Ty → Val → Bool} {hint : FieldDef → Ty} (fds : List FieldDef)
    (fs : List (Str × Val)) (hn : (fds.map FieldDef.name).Nodup) (hnames : fs.map Prod.fst = fds.map FieldDef.name)
    (h : ∀ (i : Nat) f w, fds[i]? = some f → fs[i]? = some w → Decides (check env p w.2 (hint f)) (AllParts env p f.ty w.2)) :
    Decides (checkFields hint (checkObj env p fs) fds)
      (∀ (i : Nat) f w, fds[i]? = some f → fs[i]? = some w → AllParts env p f.ty w.2) := by
  have hlen : fs.length = fds.length := by simpa using congrArg List.length hnames
  have hlook : ∀ (i : Nat) f w, fds[i]? = some f → fs[i]? = some w →
      lookupKey f.name (checkObj env p fs) = some (check env p w.2) := by
    intro i f w hf hw
    rw [checkObj_eq]
    apply lookupKey_of_mem
    · simpa [List.map_map, Function.comp_def, hnames] using hnames ▸ hn
    · have h1 : (fs.map Prod.fst)[i]? = some w.1 := by simp [hw]
      rw [hnames] at h1
      simp only [List.getElem?_map, hf, Option.map_some, Option.some.injEq] at h1
      exact List.mem_map.2 ⟨w, List.mem_of_getElem? hw, by rw [h1]⟩
  have hall : Decides (checkFields hint (checkObj env p fs) fds)
      (∀ f ∈ fds, ∀ (i : Nat) w, fds[i]? = some f → fs[i]? = some w → AllParts env p f.ty w.2) := by
    refine Decides.all (fun f hf => ?_)
    obtain ⟨i, hi⟩ := List.getElem?_of_mem hf
    have hlt : i < fds.length := by
      rcases Nat.lt_or_ge i fds.length with h | h
      · exact h
      · rw [List.getElem?_eq_none h] at hi; cases hi
    have hw : fs[i]? = some fs[i] := List.getElem?_eq_getElem (by omega)
    rw [hlook i f _ hi hw]
    refine (h i f _ hi hw).congr ⟨fun ha j w hj hjw => ?_, fun ha => ha i _ hi hw⟩
    have hij : i = j := by
      have hj' : j < fds.length := by
        rcases Nat.lt_or_ge j fds.length with h | h
        · exact h
        · rw [List.getElem?_eq_none h] at hj; cases hj
      refine (List.getElem_inj (h₀ := by simpa using hlt) (h₁ := by simpa using hj') hn).1 ?_
      have e1 : fds[i] = f := by rw [List.getElem?_eq_getElem hlt] at hi; exact Option.some.inj hi
      have e2 : fds[j] = f := by rw [List.getElem?_eq_getElem hj'] at hj; exact Option.some.inj hj
      simp [e1, e2]
    subst hij
    rw [hw] at hjw; cases hjw
    exact ha
  exact hall.congr ⟨fun ha i f w hf hw => ha f (List.mem_of_getElem? hf) i w hf hw, fun ha f _ i w hf hw => ha i f w hf hw⟩

theorem zip_decides {env : Env} {p : Ty → Val → Bool} : ∀ (ts : List Ty) (vs : List Val),
    (∀ (i : Nat) v t, vs[i]? = some v → ts[i]? = some t → Decides (check env p v t) (AllParts env p t v)) →
    Decides (checkZip ts (vs.map (check env p)))
      (∀ (i : Nat) t v, ts[i]? = some t → vs[i]? = some v → AllParts env p t v)
  | [], _, _ => ⟨true, by simp [checkZip, allRes], by simp⟩
  | _ :: _, [], _ => ⟨true, by simp [checkZip, allRes], by simp⟩
  | t :: ts, v :: vs, h => by
    have ih := zip_decides ts vs (fun i w u hw hu => h (i + 1) w u (by simpa using hw) (by simpa using hu))
    obtain ⟨b, hb, hP⟩ := h 0 v t rfl rfl
    have split : (∀ (i : Nat) u w, (t :: ts)[i]? = some u → (v :: vs)[i]? = some w → AllParts env p u w) ↔
        AllParts env p t v ∧ ∀ (i : Nat) u w, ts[i]? = some u → vs[i]? = some w → AllParts env p u w := by
      constructor
      · intro ha
        exact ⟨ha 0 t v rfl rfl, fun i u w hu hw => ha (i + 1) u w (by simpa using hu) (by simpa using hw)⟩
      · rintro ⟨h1, h2⟩ i u w hu hw
        cases i with
        | zero => simp at hu hw; subst hu; subst hw; exact h1
        | succ i => exact h2 i u w (by simpa using hu) (by simpa using hw)
    cases b with
    | false =>
      refine ⟨false, by simp [checkZip, allRes, hb], ?_⟩
      rw [split, ← hP]; simp
    | true =>
      obtain ⟨b', hb', hP'⟩ := ih
      refine ⟨b', ?_, ?_⟩
      · simp only [checkZip] at hb'
        simp [checkZip, allRes, hb, hb']
      · rw [split, hP', ← hP]; simp

/-- The checker, for values of a declared type that it looks into. -/
theorem check_decides (env : Env) (G : Nat → Prop) (hG : CheckEnv env G) (p : Ty → Val → Bool) {v : Val} {t : Ty}
    (hv : HasTy env v t) (ht : CheckTy G t) : Decides (check env p v t) (AllParts env p t v) := by
  have single : ∀ {t v}, check env p v t = .ok (p t v) → (∀ t' v', PartOf env t v t' v' ↔ t' = t ∧ v' = v) →
      Decides (check env p v t) (AllParts env p t v) := by
    intro t v h1 h2
    refine ⟨p t v, h1, ?_⟩
    unfold AllParts
    constructor
    · intro h t' v' hp
      obtain ⟨rfl, rfl⟩ := (h2 t' v').1 hp
      exact h
    · intro h; exact h t v ((h2 t v).2 ⟨rfl, rfl⟩)
  have sc : ∀ {t v}, ScalarTy t → ∀ t' v', PartOf env t v t' v' ↔ t' = t ∧ v' = v := by
    intro t v hs t' v'
    constructor
    · intro h; cases hs <;> (cases h; exact ⟨rfl, rfl⟩)
    · rintro ⟨rfl, rfl⟩; exact .scalar hs
  induction hv with
  | none => exact single rfl (sc .none)
  | bool => exact single rfl (sc .bool)
  | int => exact single rfl (sc .int)
  | float => exact single rfl (sc .float)
  | str => exact single rfl (sc .str)
  | bytes => exact single rfl (sc .bytes)
  | datetime => exact single rfl (sc .datetime)
  | date => exact single rfl (sc .date)
  | time => exact single rfl (sc .time)
  | timedelta => exact single rfl (sc .timedelta)
  | uuid => exact single rfl (sc .uuid)
  | ipv4 => cases ht with | scalar _ h _ => exact absurd rfl h
  | ipv6 => cases ht with | scalar _ _ h => exact absurd rfl h
  | bareList => cases ht with | scalar h => cases h
  | bareSet => cases ht with | scalar h => cases h
  | bareTuple => cases ht with | scalar h => cases h
  | bareDict => cases ht with | scalar h => cases h
  | annotated => cases ht with | scalar h => cases h
  | literal => cases ht with | scalar h => cases h
  | @list vs t _ ih =>
    have ht' : CheckTy G t := by cases ht with | list h => exact h | scalar h => cases h
    simp only [check, checkD, checkSeq_eq, allRes_map]
    refine (Decides.all (fun w hw => ih w hw ht')).congr ⟨?_, ?_⟩
    · intro h t' v' hp; cases hp with | list hw hp => exact h _ hw t' v' hp | scalar h => cases h
    · intro h w hw t' v' hp; exact h t' v' (.list hw hp)
  | @set vs t _ _ _ ih =>
    have ht' : CheckTy G t := by cases ht with | set h => exact h | scalar h => cases h
    simp only [check, checkD, checkSeq_eq, allRes_map]
    refine (Decides.all (fun w hw => ih w hw ht')).congr ⟨?_, ?_⟩
    · intro h t' v' hp; cases hp with | set hw hp => exact h _ hw t' v' hp | scalar h => cases h
    · intro h w hw t' v' hp; exact h t' v' (.set hw hp)
  | @dict kvs k t _ _ _ ih =>
    have ht' : CheckTy G t := by cases ht with | dict h => exact h | scalar h => cases h
    simp only [check, checkD, checkDict_eq, allRes_map]
    refine (Decides.all (fun w hw => ih w hw ht')).congr ⟨?_, ?_⟩
    · intro h t' v' hp; cases hp with | dict hw hp => exact h _ hw t' v' hp | scalar h => cases h
    · intro h w hw t' v' hp; exact h t' v' (.dict hw hp)
  | @tuple vs ts hl _ ih =>
    have ht' : ∀ t ∈ ts, CheckTy G t := by cases ht with | tuple h => exact h | scalar h => cases h
    simp only [check, checkD, checkSeq_eq]
    refine (zip_decides ts vs (fun i v t hv ht => ih i v t hv ht (ht' t (List.mem_of_getElem? ht)))).congr ⟨?_, ?_⟩
    · intro h t' v' hp; cases hp with | tuple i h1 h2 hp => exact h i _ _ h1 h2 t' v' hp | scalar h => cases h
    · intro h i t v h1 h2 t' v' hp; exact h t' v' (.tuple i h1 h2 hp)
  | @union v ts =>
    refine single (check_union env p v ts) (fun t' v' => ⟨?_, ?_⟩)
    · intro h; cases h with | union => exact ⟨rfl, rfl⟩ | scalar h => cases h
    · rintro ⟨rfl, rfl⟩; exact .union
  | @enum e m =>
    refine single rfl (fun t' v' => ⟨?_, ?_⟩)
    · intro h; cases h with | enum => exact ⟨rfl, rfl⟩ | scalar h => cases h
    · rintro ⟨rfl, rfl⟩; exact .enum
  | @cls c cd fs hc hnames _ ih =>
    have hg : G c := by cases ht with | cls h => exact h | scalar h => cases h
    have hk := hG.typed c cd hg hc
    have hh : cd.hints = cd.fields := by
      unfold ClassDef.hints
      cases hkd : cd.kind with
      | namedTuple b => cases b with | false => exact absurd hkd hk | true => rfl
      | _ => rfl
    rw [hh] at ih
    have key : ∀ hint : FieldDef → Ty, (∀ f ∈ cd.fields, hint f = f.ty) →
        Decides (checkFields hint (checkObj env p fs) cd.fields) (AllParts env p (.cls c) (.obj c fs)) := by
      intro hint hhint
      refine (checkFields_decides cd.fields fs (hG.names c cd hg hc) hnames (fun i f w hf hw => ?_)).congr ⟨?_, ?_⟩
      · have hm := List.mem_of_getElem? hf
        rw [hhint f hm]
        exact ih i f w hf hw (hG.fields c cd hg hc f hm)
      · intro h t' v' hp
        cases hp with
        | scalar h => cases h
        | field i h1 _ h3 h4 hp =>
          rw [hc] at h1; cases h1
          exact h i _ _ h3 h4 t' v' hp
        | untyped h1 h2 =>
          rw [hc] at h1; cases h1
          exact absurd h2 hk
      · intro h i f w hf hw t' v' hp
        exact h t' v' (.field i hc hk hf hw hp)
    simp only [check, checkD, hc]
    cases hkd : cd.kind with
    | namedTuple b =>
      have hb : b = true := by cases b with | false => exact absurd hkd hk | true => rfl
      subst hb
      simp only [CKids.asTuple, tupleItems, hc, hkd, Option.isSome_some, if_true, hh]
      exact key _ (fun f hf => stripAnn_id (hG.noAnn c cd hg hc hkd f hf))
    | dataclass b => simp only [if_true, hh]; exact key _ (fun _ _ => rfl)
    | plain => simp only [if_true, hh]; exact key _ (fun _ _ => rfl)
  | @untyped c cd fs hc hkd hf =>
    have hk : cd.kind ≠ .namedTuple false := by rw [hkd]; simp
    have hh : cd.hints = [] := by simp [ClassDef.hints, hkd, hf]
    refine ⟨true, by simp [check, checkD, hc, hkd, hh, checkFields, allRes], ?_⟩
    simp only [true_iff]
    intro t' v' hp
    cases hp with
    | scalar h => cases h
    | field i h1 _ h3 => rw [hc] at h1; cases h1; simp [hf] at h3
    | untyped h1 h2 => rw [hc] at h1; cases h1; exact absurd h2 hk

theorem own_unique {v : Val} {u : Ty} (h : OwnTy v u) : u = classOf v := by cases h <;> rfl

/-- C43 in part: the full statement for well-typed objects that the checker looks into: scalars except IP addresses, members
of enumerations, and instances of classes whose fields have, at any depth, declared types without `Annotated`, `Literal`, IP
addresses and containers without item types.  Missing are these types and containers at the top, see `C43_violated`. -/
theorem C43_partial (env : Env) (G : Nat → Prop) (hG : CheckEnv env G) (p : Ty → Val → Bool) (obj : Val)
    (hv : HasTy env obj (classOf obj)) (ht : CheckTy G (classOf obj)) : C43_statement env p obj := by
  obtain ⟨b, h1, h2⟩ := check_decides env G hG p hv ht
  refine ⟨b, h1, h2.trans ⟨?_, ?_⟩⟩
  · intro h u t v hu hp
    rw [own_unique hu] at hp
    exact h t v hp
  · intro h t v hp; exact h _ t v (classOf_own obj) hp

/-- The second form, under the same conditions: `value_pred` is tested on the members whose type satisfies `type_pred`. -/
theorem C43_type_pred_partial (env : Env) (G : Nat → Prop) (hG : CheckEnv env G) (tp : Ty → Bool) (vp : Val → Bool)
    (obj : Val) (hv : HasTy env obj (classOf obj)) (ht : CheckTy G (classOf obj)) :
    ∃ b, checkRecursive env obj none (some tp) (some vp) = .ok b ∧
      (b = true ↔ ∀ u t v, OwnTy obj u → PartOf env u obj t v → tp t = true → vp v = true) := by
  obtain ⟨b, h1, h2⟩ := C43_partial env G hG (fun t v => !tp t || vp v) obj hv ht
  refine ⟨b, h1, h2.trans ⟨?_, ?_⟩⟩
  · intro h u t v hu hp htp
    have := h u t v hu hp
    simpa [htp] using this
  · intro h u t v hu hp
    cases htp : tp t with
    | false => simp [htp]
    | true => simp [h u t v hu hp htp]

/-- The third form, under the same conditions: `value_pred` alone is tested on all members. -/
theorem C43_value_pred_partial (env : Env) (G : Nat → Prop) (hG : CheckEnv env G) (vp : Val → Bool) (obj : Val)
    (hv : HasTy env obj (classOf obj)) (ht : CheckTy G (classOf obj)) :
    ∃ b, checkRecursive env obj none none (some vp) = .ok b ∧
      (b = true ↔ ∀ u t v, OwnTy obj u → PartOf env u obj t v → vp v = true) :=
  C43_partial env G hG (fun _ v => vp v) obj hv ht

/-- Combinations of predicates that are refused, whatever the object. -/
theorem C43_refused (env : Env) (obj : Val) (p : Ty → Val → Bool) (tp : Ty → Bool) (vp : Val → Bool) :
    checkRecursive env obj (some p) (some tp) (some vp) = .error .typeError ∧
    checkRecursive env obj (some p) none (some vp) = .error .typeError ∧
    (∀ q, checkRecursive env obj q (some tp) none = .error .typeError) :=
  ⟨rfl, rfl, fun q => by cases q <;> rfl⟩

/-- A data class with a field of type `Annotated[int, ...]`. -/
def annotatedEnv : Env where
  enums := []
  classes := [{ module := c!"m", name := c!"C", kind := .dataclass false,
                fields := [{ name := c!"x", ty := .annotated .int [.other] }] }]

/-- The full statement is false: the items of a list are not tested, nor are IP addresses, and an annotated field raises
`TypeError`. -/
theorem C43_violated :
    (∀ env, ¬ C43_statement env (fun _ _ => false) (.list [.int 1])) ∧
    (∀ env n, ¬ C43_statement env (fun _ _ => false) (.ipv4 n)) ∧
    (∃ env obj, HasTy env obj (classOf obj) ∧ ∀ p, checkRecursive env obj (some p) none none = .error .typeError) := by
  refine ⟨fun env => ?_, fun env n => ?_, ?_⟩
  · rintro ⟨b, h1, h2⟩
    cases h1
    have := h2.1 rfl _ _ _ .list (.bareList (w := .int 1) (by simp) .int (.scalar .int))
    cases this
  · rintro ⟨b, h1, h2⟩
    cases h1
    have := h2.1 rfl _ _ _ .ipv4 (.scalar .ipv4)
    cases this
  · refine ⟨annotatedEnv, .obj 0 [(c!"x", .int 1)], ?_, fun p => rfl⟩
    refine .cls rfl rfl ?_
    intro i f w hf hw
    match i with
    | 0 => cases hf; cases hw; exact .annotated .int
    | i + 1 => simp at hw

/-! ### Examples -/

/-- A recursive data class `Node` with fields `value: int` and `children: list[Node]`. -/
def nodeEnv : Env where
  enums := []
  classes := [{ module := c!"m", name := c!"Node", kind := .dataclass false,
                fields := [{ name := c!"value", ty := .int }, { name := c!"children", ty := .list (.cls 0) }] }]

/-- A node without children. -/
def leaf (n : Int) : Val := .obj 0 [(c!"value", .int n), (c!"children", .list [])]

/-- A node with two children. -/
def tree : Val := .obj 0 [(c!"value", .int 1), (c!"children", .list [leaf 2, leaf 3])]

example : CheckEnv nodeEnv (fun c => c = 0) where
  names := by rintro c cd rfl h; cases h; decide
  fields := by
    rintro c cd rfl h f hf; cases h
    simp at hf
    rcases hf with rfl | rfl
    · exact .scalar .int (by simp) (by simp)
    · exact .list (.cls rfl)
  typed := by rintro c cd rfl h; cases h; simp
  noAnn := by rintro c cd rfl h hk; cases h; simp at hk

theorem hasTy_node (n : Int) (vs : List Val) (h : ∀ v ∈ vs, HasTy nodeEnv v (.cls 0)) :
    HasTy nodeEnv (.obj 0 [(c!"value", .int n), (c!"children", .list vs)]) (.cls 0) := by
  refine .cls rfl rfl ?_
  intro i f w hf hw
  match i with
  | 0 => cases hf; cases hw; exact .int
  | 1 => cases hf; cases hw; exact .list h
  | i + 2 => simp at hw

example : HasTy nodeEnv tree (classOf tree) :=
  hasTy_node 1 _ (by
    intro v hv
    simp at hv
    rcases hv with rfl | rfl <;> exact hasTy_node _ _ (by simp))

/-- The predicate fails for a nested member only. -/
example : checkRecursive nodeEnv tree (some (fun _ v => match v with | .int i => i ≠ 3 | _ => true)) none none = .ok false := rfl

example : checkRecursive nodeEnv tree (some (fun _ v => match v with | .int i => i ≠ 4 | _ => true)) none none = .ok true := rfl

end Verif
