import Verif.Lemmas.Ser
import Verif.Spec.Typing
/-!
# C14: the serializer made for the declared type and the one that sees only the value agree
-/
namespace Verif

theorem genPairs_congr {key key' : Key → Res Str} {t t' : Ty} :
    ∀ (fs : List (Key × (Ty → Res Json))) (acc : List (Str × Json)),
      (∀ f ∈ fs, key f.1 = key' f.1 ∧ f.2 t = f.2 t') → genPairs key t acc fs = genPairs key' t' acc fs := by
  intro fs
  induction fs with
  | nil => intro acc _; rfl
  | cons f fs ih =>
    intro acc h
    obtain ⟨k, f⟩ := f
    have h1 := h (k, f) (by simp)
    simp only at h1
    simp only [genPairs, h1.1, h1.2]
    cases key' k with
    | error e => rfl
    | ok s =>
      cases f t' with
      | error e => rfl
      | ok j => exact ih _ fun g hg => h g (by simp [hg])

theorem mapRes_zip_const {f : β → γ → Res δ} {g : γ → Res δ} :
    ∀ (ts : List β) (vs : List γ), vs.length = ts.length →
      (∀ (i : Nat) v t, vs[i]? = some v → ts[i]? = some t → f t v = g v) →
      mapRes (fun p => f p.1 p.2) (ts.zip vs) = mapRes g vs := by
  intro ts
  induction ts with
  | nil => intro vs h _; cases vs with | nil => rfl | cons v vs => simp at h
  | cons t ts ih =>
    intro vs h h1
    cases vs with
    | nil => simp at h
    | cons v vs =>
      simp only [List.zip_cons_cons, mapRes]
      rw [h1 0 v t rfl rfl, ih vs (by simpa using h) (fun i v t hv ht => h1 (i + 1) v t (by simpa using hv) (by simpa using ht))]

/-- For every value `v` of type `T` for which a serializer can be created, that serializer and `object_to_json(v)` give
the same result: the same JSON or the same error. -/
theorem C14_static_dynamic (env : Env) (t : Ty) (v : Val) (hc : serCreate env t = .ok ()) (h : HasTy env v t) :
    dumps env t v = objectToJson env v := by
  have hd : dumps env t v = gen env v t := by simp only [dumps, hc]
  rw [hd]
  clear hd
  induction h with
  | union _ _ _ => exact gen_union env _ _
  | annotated _ ih => rw [gen_annotated]; rw [serCreate_annotated] at hc; exact ih hc
  | @list vs t _ ih =>
    rw [serCreate_list] at hc
    rw [gen_list, dyn_list, mapRes_congr fun v hv => ih v hv hc]
  | @set vs t _ _ _ ih =>
    rw [serCreate_set] at hc
    rw [gen_set, dyn_set, mapRes_congr fun v hv => ih v hv hc]
  | @tuple vs ts hl _ ih =>
    rw [serCreate_tuple] at hc
    rw [gen_tuple, dyn_tuple]
    rw [mapRes_zip_const (f := fun t v => gen env v t) ts vs hl]
    intro i v t hv ht
    exact ih i v t hv ht (hc t (List.mem_of_getElem? ht))
  | @dict kvs k t _ hk _ ih =>
    have hct := serCreate_dict hc
    have hval : ∀ kv ∈ kvs, gen env kv.2 t = gen env kv.2 dynTy := fun kv hkv =>
      (ih kv hkv hct).trans (gen_dyn env kv.2).symm
    rw [dyn_dict]
    cases k with
    | str =>
      rw [gen_dict_str]
      have hu : untypedKey env (kvs.map fun kv => (kv.1, gen env kv.2)) = keyStr env := by
        cases kvs with
        | nil => rfl
        | cons kv r =>
          have := hk kv (by simp)
          obtain ⟨k, v⟩ := kv
          cases k <;> first | rfl | simp [KeyHasTy] at this
      rw [hu]
      refine genPairs_congr _ _ fun f hf => ?_
      obtain ⟨kv, hkv, rfl⟩ := List.mem_map.1 hf
      refine ⟨?_, hval kv hkv⟩
      have := hk kv hkv
      obtain ⟨k, v⟩ := kv
      cases k <;> first | rfl | simp [KeyHasTy] at this
    | enum e =>
      rw [gen_dict_enum]
      cases kvs with
      | nil => rfl
      | cons kv r =>
        have := hk kv (by simp)
        obtain ⟨k, v⟩ := kv
        cases k <;> simp [KeyHasTy] at this
        refine genPairs_congr _ _ fun f hf => ?_
        obtain ⟨kv, hkv, rfl⟩ := List.mem_map.1 hf
        exact ⟨rfl, hval kv hkv⟩
    | int | other => simp [serCreate, createWith] at hc
  | @literal v ls l hl hv =>
    subst hv
    have hu : litsUniform ls = true := by
      simp only [serCreate, createWith] at hc
      split at hc
      · assumption
      · cases hc
    cases ls with
    | nil => simp at hl
    | cons l0 r =>
      have hs : l = l0 ∨ l0.sameTy l = true := by
        rcases List.mem_cons.1 hl with h | h
        · exact .inl h
        · exact .inr (List.all_eq_true.1 hu l h)
      have hen : ∀ e m n r, gen env (.enum e n) (.literal (.enum e m :: r)) = objectToJson env (.enum e n) := by
        intro e m n r
        simp only [objectToJson, dumps, typeOf, serCreate, createWith]
        cases he : env.enums[e]? with
        | none => simp [gen, genD, genShape, genEnum, he]
        | some ed => rfl
      cases l0 <;> rcases hs with rfl | hs <;> first | rfl | exact hen _ _ _ _ | skip
      all_goals cases l <;> simp [Lit.sameTy] at hs <;> first | rfl | skip
      rw [← hs]
      exact hen _ _ _ _
  | @cls c cd fs hcd _ _ _ => rw [gen_dyn_ok (by simpa [typeOf] using hc)]; rfl
  | @untyped c cd fs hcd _ _ => rw [gen_dyn_ok (by simpa [typeOf] using hc)]; rfl
  | @enum e m ed he _ => rw [gen_dyn_ok (by simpa [typeOf] using hc)]; rfl
  | _ => rfl

/-- Without the assumption that a serializer can be created the two differ: `class Node: children: list["Node"]` has no
serializer, but an empty list of nodes is serialized dynamically. -/
theorem C14_recursive_class :
    ∃ (env : Env) (t : Ty) (v : Val), HasTy env v t ∧ dumps env t v = .error .recursion ∧
      objectToJson env v = .ok (.arr []) :=
  ⟨⟨[], [{ module := c!"m", name := c!"Node", kind := .dataclass false, fields :=
    [{ name := c!"children", ty := .list (.cls 0) }] }], id⟩, .list (.cls 0), .list [], .list (by simp), rfl, rfl⟩

/-! ### The hypotheses are met -/

private def exEnv : Env :=
  ⟨[{ module := c!"m", name := c!"Color", members := [(c!"RED", .str c!"red")] }],
   [{ module := c!"m", name := c!"A", kind := .dataclass false, fields :=
    [{ name := c!"xs", ty := .dict (.enum 0) (.union [.int, .date]) }] }], id⟩
private def exVal : Val := .tuple [.obj 0 [(c!"xs", .dict [(.enum 0 0, .date ⟨2020, 2, 29⟩)])], .none]
example : serCreate exEnv (.tuple [.cls 0, .none]) = .ok () := rfl
example : HasTy exEnv exVal (.tuple [.cls 0, .none]) := by
  refine .tuple rfl fun i v t hv ht => ?_
  match i with
  | 0 =>
    cases hv; cases ht
    refine .cls rfl rfl fun i f w hf hw => ?_
    match i with
    | 0 =>
      cases hf; cases hw
      exact .dict (by simp) (fun kv hkv => by rcases List.mem_singleton.1 hkv with rfl; exact ⟨rfl, _, rfl, by decide⟩)
        (fun kv hkv => by rcases List.mem_singleton.1 hkv with rfl; exact .union (t := .date) (by simp) (.date (by constructor <;> decide)))
    | _ + 1 => cases hf
  | 1 => cases hv; cases ht; exact .none
  | _ + 2 => cases hv
example : objectToJson exEnv exVal = .ok (.arr [.obj [(c!"xs", .obj [(c!"red", .str c!"2020-02-29")])], .null]) := rfl

end Verif
