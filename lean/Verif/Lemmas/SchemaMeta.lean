import Verif.Model.Schema
import Verif.Spec.Annotations
import Verif.Lemmas.JsonSchema
/-!
# Lemmas on the schema of annotated types
-/
namespace Verif

theorem lookupKey_updateSch (k : Str) : ∀ (o s : Sch), (o.map Prod.fst).Nodup →
    lookupKey k (updateSch s o) = match lookupKey k o with | some a => some a | none => lookupKey k s := by
  intro o
  induction o with
  | nil => intro s _; rfl
  | cons kv o ih =>
    intro s hn
    rw [List.map_cons, List.nodup_cons] at hn
    have e : updateSch s (kv :: o) = updateSch (upsert kv.1 kv.2 s) o := rfl
    rw [e, ih _ hn.2, lookupKey_upsert]
    simp only [lookupKey]
    by_cases hk : kv.1 = k
    · subst hk
      have : lookupKey kv.1 o = none := lookupKey_none_iff'.2 hn.1
      simp [this]
    · simp [hk]

theorem metaSchema_nodup (cfg : SchemaCfg) (m : Meta) : ((metaSchema cfg m).map Prod.fst).Nodup := by
  cases m <;> simp [metaSchema]

theorem lookupKey_withMeta (cfg : SchemaCfg) (k : Str) : ∀ (ms : List Meta) (s : Sch),
    lookupKey k (withMeta cfg s ms) =
      match lastSome (fun m => lookupKey k (metaSchema cfg m)) ms with | some a => some a | none => lookupKey k s := by
  intro ms
  induction ms with
  | nil => intro s; rfl
  | cons m ms ih =>
    intro s
    have e : withMeta cfg s (m :: ms) = withMeta cfg (updateSch s (metaSchema cfg m)) ms := rfl
    rw [e, ih, lookupKey_updateSch k _ _ (metaSchema_nodup cfg m)]
    simp only [lastSome]
    cases lastSome (fun m => lookupKey k (metaSchema cfg m)) ms <;> rfl

theorem updateSch_nodup : ∀ (o s : Sch), (s.map Prod.fst).Nodup → ((updateSch s o).map Prod.fst).Nodup := by
  intro o
  induction o with
  | nil => intro s h; exact h
  | cons kv o ih => intro s h; exact ih _ (upsert_nodup h)

theorem withMeta_nodup (cfg : SchemaCfg) : ∀ (ms : List Meta) (s : Sch), (s.map Prod.fst).Nodup →
    ((withMeta cfg s ms).map Prod.fst).Nodup := by
  intro ms
  induction ms with
  | nil => intro s h; exact h
  | cons m ms ih => intro s h; exact ih _ (updateSch_nodup _ _ h)

theorem keywordCheck_of {vc : ValidatorCfg} {root : Json} {f : Json → Json → Option Bool} {s s' : List (Str × Json)}
    {k : Keyword} {a v : Json} (h : k ≠ .additionalProperties) :
    keywordCheck vc root f s k a v = keywordCheck vc root f s' k a v := by
  cases k <;> first | rfl | exact absurd rfl h

/-- Validity of a schema whose keywords are distinct, by look-up. -/
theorem validates_lookup {vc : ValidatorCfg} {root v : Json} {s : Sch} (hn : (s.map Prod.fst).Nodup) :
    Validates vc root (.obj s) v ↔ ∀ k a, lookupKey k s = some a → KwOk vc root s k a v := by
  rw [validates_obj_iff]
  constructor
  · intro h k a hk
    exact h (k, a) (lookupKey_some_mem hk)
  · intro h ka hka
    exact h ka.1 ka.2 (lookupKey_of_mem hn hka)

theorem lastSome_congr {f g : α → Option β} (h : ∀ x, f x = g x) (l : List α) : lastSome f l = lastSome g l := by
  rw [funext h]

theorem lastSome_map (f : α → Option β) (g : β → γ) (l : List α) :
    lastSome (fun x => (f x).map g) l = (lastSome f l).map g := by
  induction l with
  | nil => rfl
  | cons x l ih =>
    simp only [lastSome, ih]
    cases lastSome f l <;> rfl

theorem lastSome_none (l : List α) : lastSome (fun _ => (none : Option β)) l = none := by
  induction l with
  | nil => rfl
  | cons x l ih => simp only [lastSome, ih]

end Verif
