import Verif.Spec.DataType
import Verif.Lemmas.RebuildNode
import Verif.Lemmas.NoType
import Verif.Lemmas.ClassBuildPlain
import Verif.Lemmas.Ser
/-!
# Lemmas: data classes made from a list of fields
-/
namespace Verif

variable {cfg : BuildCfg}

/-- The checks on names: passed, or a `TypeError` for names that are not allowed. -/
theorem checkFieldNames_cases (ns : List Str) : ∀ seen, (∀ n ∈ ns, isDunderName n = false) →
    checkFieldNames cfg seen ns = .ok () ∨
      checkFieldNames cfg seen ns = .error .typeError ∧ ¬ ((∀ n ∈ ns, ¬ BadName cfg n) ∧ ns.Nodup ∧ ∀ n ∈ ns, n ∉ seen) := by
  induction ns with
  | nil => exact fun _ _ => .inl rfl
  | cons n ns ih =>
    intro seen hd
    unfold checkFieldNames
    split
    · rename_i h
      exact .inr ⟨rfl, fun g => g.1 n (by simp) (.inl (by simpa using h))⟩
    split
    · rename_i h
      exact .inr ⟨rfl, fun g => g.1 n (by simp) (.inr h)⟩
    split
    · rename_i h
      exact .inr ⟨rfl, fun g => g.2.2 n (by simp) h⟩
    rw [if_neg (by simp [hd n (by simp)])]
    rcases ih (n :: seen) (fun m hm => hd m (by simp [hm])) with h | ⟨h, g⟩
    · exact .inl h
    · refine .inr ⟨h, fun g' => g ⟨fun m hm => g'.1 m (by simp [hm]), (List.nodup_cons.1 g'.2.1).2, fun m hm hs => ?_⟩⟩
      rcases List.mem_cons.1 hs with rfl | hs
      · exact (List.nodup_cons.1 g'.2.1).1 hm
      · exact g'.2.2 m (by simp [hm]) hs

theorem fieldNames_of {fields : List (Str × Ty)} (h : checkFieldNames cfg [] (fields.map (·.1)) = .ok ()) : FieldNames cfg fields :=
  ⟨fun _ hf => checkFieldNames_names h _ (List.mem_map_of_mem hf), (checkFieldNames_nodup h).1⟩

theorem fieldNames_cases {fields : List (Str × Ty)} (hd : ∀ f ∈ fields, isDunderName f.1 = false) :
    checkFieldNames cfg [] (fields.map (·.1)) = .ok () ∧ FieldNames cfg fields ∨
      checkFieldNames cfg [] (fields.map (·.1)) = .error .typeError ∧ ¬ FieldNames cfg fields := by
  rcases checkFieldNames_cases (cfg := cfg) (fields.map (·.1)) [] (by simpa using hd) with h | ⟨h, g⟩
  · exact .inl ⟨h, fieldNames_of h⟩
  · exact .inr ⟨h, fun g' => g ⟨by simpa using g'.names, g'.distinct, by simp⟩⟩

/-- What has been made by a series of calls. -/
theorem createDataTypes_ok (ds : List (Str × List (Str × Ty))) : ∀ env ts env', createDataTypes cfg env ds = .ok (ts, env') →
    env' = { env with classes := env.classes ++ ds.map fun d => dataTypeOf d.1 d.2 } ∧
      ts = (List.range' env.classes.length ds.length).map .cls ∧ ∀ d ∈ ds, Declarable cfg d := by
  induction ds with
  | nil =>
    intro env ts env' h
    cases h
    exact ⟨by simp, rfl, by simp⟩
  | cons d ds ih =>
    intro env ts env' h
    simp only [createDataTypes, createDataType] at h
    cases hc : checkFieldNames cfg [] (d.2.map (·.1)) with
    | error e => simp [hc] at h
    | ok u =>
      cases u
      simp only [hc] at h
      split at h
      · cases h
      rename_i t env1 h1
      split at h1
      · cases h1
      rename_i hz
      cases h1
      split at h
      · cases h
      rename_i ts2 env2 h2
      cases h
      obtain ⟨rfl, rfl, g⟩ := ih _ _ _ h2
      refine ⟨by simp, by simp [List.range'_succ], fun x hx => ?_⟩
      rcases List.mem_cons.1 hx with rfl | hx
      · exact ⟨fieldNames_of hc, hz⟩
      · exact g x hx

/-- A series of calls fails at the first declaration that is not allowed. -/
theorem createDataTypes_cases (ds : List (Str × List (Str × Ty))) : ∀ env, NoDunder ds →
    (∃ r, createDataTypes cfg env ds = .ok r) ∨
      ∃ pre d post, ds = pre ++ d :: post ∧ (∀ x ∈ pre, Declarable cfg x) ∧
        (createDataTypes cfg env ds = .error .typeError ∧ ¬ FieldNames cfg d.2 ∨
          createDataTypes cfg env ds = .error .valueError ∧ FieldNames cfg d.2 ∧ '\x00' ∈ d.1) := by
  induction ds with
  | nil => exact fun _ _ => .inl ⟨_, rfl⟩
  | cons d ds ih =>
    intro env hd
    rcases fieldNames_cases (cfg := cfg) (hd d (by simp)) with ⟨h, g⟩ | ⟨h, g⟩
    · by_cases hz : '\x00' ∈ d.1
      · exact .inr ⟨[], d, ds, rfl, by simp, .inr ⟨by simp [createDataTypes, createDataType, h, hz], g, hz⟩⟩
      · rcases ih { env with classes := env.classes ++ [dataTypeOf d.1 d.2] } (fun x hx => hd x (by simp [hx])) with
          ⟨r, hr⟩ | ⟨pre, x, post, rfl, hp, hr⟩
        · exact .inl ⟨_, by simp only [createDataTypes, createDataType, h, if_neg hz, hr]; rfl⟩
        · refine .inr ⟨d :: pre, x, post, rfl, ?_, ?_⟩
          · intro y hy
            rcases List.mem_cons.1 hy with rfl | hy
            · exact ⟨g, hz⟩
            · exact hp y hy
          · rcases hr with ⟨hr, g'⟩ | ⟨hr, g'⟩
            · exact .inl ⟨by simp only [createDataTypes, createDataType, h, if_neg hz, hr], g'⟩
            · exact .inr ⟨by simp only [createDataTypes, createDataType, h, if_neg hz, hr], g'⟩
    · exact .inr ⟨[], d, ds, rfl, by simp, .inl ⟨by simp [createDataTypes, createDataType, h], g⟩⟩

/-! ### Serializers -/

mutual
/-- Creation of serializers looks up nothing but enumerations and, by the given function, classes. -/
theorem createWith_enums {env env' : Env} (he : env'.enums = env.enums) (f : Nat → Res Unit) :
    ∀ t, createWith env' f t = createWith env f t
  | .list t | .set t | .annotated t _ => by simp only [createWith]; exact createWith_enums he f t
  | .dict k t => by cases k <;> simp only [createWith, createWith_enums he f t, he]
  | .tuple ts => by simp only [createWith]; exact createWithL_enums he f ts
  | .enum e => by simp only [createWith, he]
  | .cls c => by simp only [createWith]
  | .none | .bool | .int | .float | .str | .bytes | .datetime | .date | .time | .timedelta | .uuid | .ipv4 | .ipv6 | .bareList
  | .bareSet | .bareTuple | .bareDict | .union _ | .literal _ => by simp only [createWith]
theorem createWithL_enums {env env' : Env} (he : env'.enums = env.enums) (f : Nat → Res Unit) :
    ∀ ts, createWithL env' f ts = createWithL env f ts
  | [] => by simp only [createWithL]
  | t :: ts => by simp only [createWithL, createWith_enums he f t, createWithL_enums he f ts]
end

/-- Classes that are added do not matter for those that are there. -/
theorem createCls_added {env env' : Env} (he : env'.enums = env.enums) (hc : env.classes <+: env'.classes) : ∀ n c,
    createCls env n c = .ok () → createCls env' n c = .ok () := by
  intro n
  induction n with
  | zero => intro c h; simp [createCls] at h
  | succ n ih =>
    intro c h
    simp only [createCls] at h ⊢
    cases hcd : env.classes[c]? with
    | none => rw [hcd] at h; cases h
    | some cd =>
      obtain ⟨r, hr⟩ := hc
      have : env'.classes[c]? = some cd := by
        rw [← hr, List.getElem?_append_left (List.getElem?_eq_some_iff.1 hcd).1]
        exact hcd
      rw [hcd] at h
      rw [this]
      simp only at h ⊢
      rw [forRes_ok] at h ⊢
      intro fd hfd
      rw [createWith_enums he]
      exact createWith_mono ih _ (h fd hfd)

theorem serCreate_added {env env' : Env} (he : env'.enums = env.enums) (hc : env.classes <+: env'.classes) {t : Ty}
    (h : serCreate env t = .ok ()) : serCreate env' t = .ok () := by
  have hl : env.classes.length ≤ env'.classes.length := hc.length_le
  unfold serCreate at h ⊢
  rw [createWith_enums he]
  exact createWith_mono (fun c hc' => createCls_mono _ _ c hl (createCls_added he hc _ c hc')) t h

/-- There is a serializer for a new class if there are serializers for its fields. -/
theorem serCreate_new {env : Env} {d : Str × List (Str × Ty)} (h : ∀ f ∈ d.2, serCreate env f.2 = .ok ()) :
    serCreate { env with classes := env.classes ++ [dataTypeOf d.1 d.2] } (.cls env.classes.length) = .ok () := by
  simp only [serCreate, createWith, List.length_append, List.length_singleton, createCls]
  have : (env.classes ++ [dataTypeOf d.1 d.2])[env.classes.length]? = some (dataTypeOf d.1 d.2) := by simp
  rw [this]
  simp only
  rw [forRes_ok]
  intro fd hfd
  obtain ⟨f, hf, rfl⟩ := List.mem_map.1 (show fd ∈ d.2.map _ from hfd)
  have := h f hf
  unfold serCreate at this
  show createWith _ _ f.2 = _
  have he : ({ env with classes := env.classes ++ [dataTypeOf d.1 d.2] } : Env).enums = env.enums := rfl
  rw [createWith_enums he]
  exact createWith_mono (fun c hc => createCls_added he ⟨[dataTypeOf d.1 d.2], rfl⟩ _ c hc) _ this

end Verif
