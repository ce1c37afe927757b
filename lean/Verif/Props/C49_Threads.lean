import Verif.Lemmas.Threads
import Verif.Props.C28_C29_Cache
/-!
# C49: concurrent first use of a type

The full statement is false for the code: a deserializer is put into the cache before it is built, so that another thread
can use it too early and fail with `AttributeError` (`C49_violated`).  This is the only thing that can go wrong:
`C49_partial` holds for any number of threads and all interleavings.
-/
namespace Verif

/-- Threads that are about to call `json_to_object` with the same option in a fresh interpreter. -/
def startAll (env : Env) (skip : Bool) (calls : List (Ty × Json)) : List Thread :=
  calls.map (fun c => Thread.start env skip c.1 c.2)

/-- All classes that the calls need can be deserialized. -/
def AllBuildable (env : Env) (calls : List (Ty × Json)) : Prop :=
  ∀ call ∈ calls, ∀ c, Reaches env call.1 c → Buildable env c

/-- C49 in full: every call that returns or raises has the outcome that it has alone. -/
def C49_statement : Prop :=
  ∀ (env : Env), env.Ok → ∀ (skip : Bool) (calls : List (Ty × Json)), AllBuildable env calls →
    ∀ (sched : List Nat) (i : Nat) (t : Ty) (j : Json) (r : Res Val), calls[i]? = some (t, j) →
      (sysRun env (Shared.empty, startAll env skip calls) sched).2[i]? = some (.done r) →
      r = (jsonToObject env skip t j Heap.empty).1

theorem good_calls {env : Env} {calls : List (Ty × Json)} (h : AllBuildable env calls) :
    GoodClasses env (fun c => ∃ call ∈ calls, Reaches env call.1 c) := by
  rintro c ⟨call, hc, hr⟩
  obtain ⟨cd, h1, h2⟩ := reaches_good (h call hc) c hr
  refine ⟨cd, h1, fun hcus => ⟨(h2 hcus).1, fun f hf => ?_⟩⟩
  exact within_iff.2 fun c' hm => ⟨call, hc, within_iff.1 ((h2 hcus).2 f hf) c' hm⟩

theorem within_calls {env : Env} {calls : List (Ty × Json)} (call : Ty × Json) (hc : call ∈ calls) :
    call.1.Within (fun c => ∃ call ∈ calls, Reaches env call.1 c) :=
  within_iff.2 fun _ hm => ⟨call, hc, .here hm⟩

theorem sys_calls {env : Env} (hk : env.Ok) {skip warm} {calls : List (Ty × Json)} (h : AllBuildable env calls) {S : Shared}
    (hi : TInv env skip (fun c => ∃ call ∈ calls, Reaches env call.1 c) warm S) (hhalf : ∀ o, ¬ S.Half o) (sched : List Nat) :
    SysOk env skip (fun c => ∃ call ∈ calls, Reaches env call.1 c) warm (fun i => 0 ≤ i ∧ i < 0 + calls.length)
      (fun i => match calls[i - 0]? with | some c => loads env skip c.1 c.2 | Option.none => .error .outOfModel)
      (sysRun env (S, startAll env skip calls) sched) :=
  (sysOk_start (good_calls h) hi hhalf [] calls within_calls).run hk sched

/-- C49 up to the race: whatever the interleaving, a call has the outcome that it has alone, or it fails with
`AttributeError`.  In particular, it never returns a wrong value. -/
theorem C49_partial (env : Env) (hk : env.Ok) (skip : Bool) (calls : List (Ty × Json)) (h : AllBuildable env calls)
    (sched : List Nat) (i : Nat) (t : Ty) (j : Json) (r : Res Val) (hi : calls[i]? = some (t, j))
    (hr : (sysRun env (Shared.empty, startAll env skip calls) sched).2[i]? = some (.done r)) :
    r = (jsonToObject env skip t j Heap.empty).1 ∨ r = .error .attribute := by
  have hlt := (List.getElem?_eq_some_iff.1 hi).1
  have := (sys_calls hk h tinv_empty (fun o ho => by obtain ⟨c, s, h⟩ := ho; cases h) sched).results i r hr
    ⟨Nat.zero_le _, by omega⟩
  simp only [Nat.sub_zero, hi] at this
  rw [C28_fresh env hk skip t j (h _ (List.mem_of_getElem? hi))]
  rcases this with h | ⟨h, _⟩
  · exact .inl h
  · exact .inr h

/-- When all threads are done, no unfinished deserializer is left, whatever the interleaving was. -/
theorem quiet {env : Env} (hk : env.Ok) {skip : Bool} {calls : List (Ty × Json)} (h : AllBuildable env calls) {sched : List Nat}
    (hd : ∀ th ∈ (sysRun env (Shared.empty, startAll env skip calls) sched).2, ∃ r, th = .done r) :
    TInv env skip (fun c => ∃ call ∈ calls, Reaches env call.1 c) False (sysRun env (Shared.empty, startAll env skip calls) sched).1 ∧
    ∀ o, ¬ (sysRun env (Shared.empty, startAll env skip calls) sched).1.Half o := by
  have hs := sys_calls (skip := skip) hk h tinv_empty (fun o ho => by obtain ⟨c, s, h⟩ := ho; cases h) sched
  refine ⟨hs.inv, fun o ho => ?_⟩
  obtain ⟨owns, _, hhalf⟩ := hs.threads
  obtain ⟨i, p, j, h1, _⟩ := hhalf o ho
  obtain ⟨r, hr⟩ := hd _ (List.mem_of_getElem? h1)
  cases hr

/-- After a concurrent phase in which all calls ended, however they were interleaved and whether they failed with
`AttributeError` or not, a single call has the outcome of a fresh interpreter: the race leaves no damage behind. -/
theorem C49_afterwards_partial (env : Env) (hk : env.Ok) (skip : Bool) (calls : List (Ty × Json)) (h : AllBuildable env calls)
    (sched : List Nat) (hd : ∀ th ∈ (sysRun env (Shared.empty, startAll env skip calls) sched).2, ∃ r, th = .done r)
    (t : Ty) (j : Json) (hg : ∀ c, Reaches env t c → Buildable env c) (sched' : List Nat) (r : Res Val)
    (hr : (sysRun env ((sysRun env (Shared.empty, startAll env skip calls) sched).1, [Thread.start env skip t j]) sched').2 =
      [.done r]) : r = (jsonToObject env skip t j Heap.empty).1 := by
  obtain ⟨hi, hhalf⟩ := quiet hk h hd
  have hb : AllBuildable env [(t, j)] := by
    intro call hc; rcases List.mem_singleton.1 hc with rfl; exact hg
  have := (sys_calls hk hb (hi.change (warm' := False) id) hhalf sched').results 0 r (by
    have : startAll env skip [(t, j)] = [Thread.start env skip t j] := rfl
    rw [this, hr]; rfl) ⟨Nat.le_refl _, by simp⟩
  rw [C28_fresh env hk skip t j hg]
  rcases this with h | ⟨_, _, i', h1, _, h2⟩
  · exact h
  · simp at h2; omega

/-- Once the deserializers of all classes that the calls need are in the cache and no thread is building one, any number
of concurrent calls have the outcome of a fresh interpreter, in all interleavings. -/
theorem C49_warm_partial (env : Env) (hk : env.Ok) (skip : Bool) (calls : List (Ty × Json)) (h : AllBuildable env calls)
    (sched : List Nat) (hd : ∀ th ∈ (sysRun env (Shared.empty, startAll env skip calls) sched).2, ∃ r, th = .done r)
    (calls' : List (Ty × Json)) (h' : AllBuildable env calls')
    (hc : ∀ call ∈ calls', ∀ c cd, Reaches env call.1 c → env.classes[c]? = some cd →
      (sysRun env (Shared.empty, startAll env skip calls) sched).1.cache cd.key ≠ none)
    (sched' : List Nat) (i : Nat) (t : Ty) (j : Json) (r : Res Val) (hi : calls'[i]? = some (t, j))
    (hr : (sysRun env ((sysRun env (Shared.empty, startAll env skip calls) sched).1, startAll env skip calls') sched').2[i]? =
      some (.done r)) : r = (jsonToObject env skip t j Heap.empty).1 := by
  obtain ⟨hinv, hhalf⟩ := quiet hk h hd
  have hlt := (List.getElem?_eq_some_iff.1 hi).1
  have hinv' : TInv env skip (fun c => ∃ call ∈ calls', Reaches env call.1 c) True
      (sysRun env (Shared.empty, startAll env skip calls) sched).1 :=
    ⟨hinv.fresh, hinv.objs, hinv.cache, fun _ c cd hr hcd => by
      obtain ⟨call, h1, h2⟩ := hr
      exact hc call h1 c cd h2 hcd, fun _ o c s ho => hhalf o ⟨c, s, ho⟩⟩
  have := (sys_calls hk h' hinv' hhalf sched').results i r hr ⟨Nat.zero_le _, by omega⟩
  simp only [Nat.sub_zero, hi] at this
  rw [C28_fresh env hk skip t j (h' _ (List.mem_of_getElem? hi))]
  rcases this with h | ⟨_, h, _⟩
  · exact h
  · exact absurd trivial h

/-! ### Every call ends -/

/-- The states of an infinite schedule. -/
def sysAt (env : Env) (s : Shared × List Thread) (f : Nat → Nat) : Nat → Shared × List Thread
  | 0 => s
  | n + 1 => sysStep env (sysAt env s f n) (f n)

theorem sysStep_other {env : Env} {s : Shared × List Thread} {i k : Nat} (h : k ≠ i) : (sysStep env s k).2[i]? = s.2[i]? := by
  unfold sysStep
  split
  · rfl
  · simp only
    rw [List.getElem?_set_ne h]

theorem sysStep_self {env : Env} {s : Shared × List Thread} {i : Nat} {th : Thread} (h : s.2[i]? = some th) :
    (sysStep env s i).2[i]? = some (th.step env s.1).2 := by
  unfold sysStep
  rw [h]
  exact getElem?_set_self' h

/-- No schedule that lets every thread proceed again and again can prevent a call from ending: there is neither a
deadlock nor a livelock. -/
theorem C49_ends (env : Env) (s : Shared × List Thread) (f : Nat → Nat) (i : Nat) (hf : ∀ n, ∃ m, n ≤ m ∧ f m = i) (th : Thread)
    (hi : s.2[i]? = some th) : ∃ n r, (sysAt env s f n).2[i]? = some (.done r) := by
  have wait : ∀ n th, (sysAt env s f n).2[i]? = some th → ∃ m, f m = i ∧ (sysAt env s f m).2[i]? = some th := by
    intro n th hn
    obtain ⟨m, hm, hfm⟩ := hf n
    clear hi
    obtain ⟨d, rfl⟩ := Nat.exists_eq_add_of_le hm
    clear hm
    induction d generalizing n with
    | zero => exact ⟨n, hfm, hn⟩
    | succ d ih =>
      by_cases he : f n = i
      · exact ⟨n, he, hn⟩
      · refine ih (n + 1) ?_ (by rw [← hfm]; congr 1; omega)
        show (sysStep env (sysAt env s f n) (f n)).2[i]? = _
        rw [sysStep_other he]
        exact hn
  have key : ∀ (p : Prog) (j : Json) n, (sysAt env s f n).2[i]? = some (.running p j) →
      ∃ n r, (sysAt env s f n).2[i]? = some (.done r) := by
    intro p
    induction p with
    | ret r =>
      intro j n hn
      obtain ⟨m, hm, hh⟩ := wait n _ hn
      have h1 : (sysAt env s f (m + 1)).2[i]? = some ((Thread.running (.ret r) j).step env (sysAt env s f m).1).2 := by
        show (sysStep env (sysAt env s f m) (f m)).2[i]? = _
        rw [hm]; exact sysStep_self hh
      cases r with
      | error e => exact ⟨m + 1, _, h1⟩
      | ok d => exact ⟨m + 1, _, h1⟩
    | get k cont ih =>
      intro j n hn
      obtain ⟨m, hm, hh⟩ := wait n _ hn
      refine ih ((sysAt env s f m).1.cache k) j (m + 1) ?_
      show (sysStep env (sysAt env s f m) (f m)).2[i]? = _
      rw [hm]; exact sysStep_self hh
    | new e cont ih =>
      intro j n hn
      obtain ⟨m, hm, hh⟩ := wait n _ hn
      refine ih (objKey (sysAt env s f m).1.next) j (m + 1) ?_
      show (sysStep env (sysAt env s f m) (f m)).2[i]? = _
      rw [hm]; exact sysStep_self hh
    | put k o cont ih =>
      intro j n hn
      obtain ⟨m, hm, hh⟩ := wait n _ hn
      refine ih j (m + 1) ?_
      show (sysStep env (sysAt env s f m) (f m)).2[i]? = _
      rw [hm]; exact sysStep_self hh
    | assign o fds cont ih =>
      intro j n hn
      obtain ⟨m, hm, hh⟩ := wait n _ hn
      refine ih j (m + 1) ?_
      show (sysStep env (sysAt env s f m) (f m)).2[i]? = _
      rw [hm]; exact sysStep_self hh
  cases th with
  | done r => exact ⟨0, r, hi⟩
  | running p j => exact key p j 0 hi

/-! ### The race -/

/-- `class A: x: int` -/
private def raceEnv : Env :=
  ⟨[], [{ module := c!"m", name := c!"A", kind := .dataclass false, fields := [{ name := c!"x", ty := .int }] }], id⟩

private theorem raceEnv_ok : raceEnv.Ok :=
  ⟨by simp [raceEnv], by simp [raceEnv], by simp [raceEnv], fun _ => .refl _⟩

private theorem raceEnv_build (j : Json) : AllBuildable raceEnv [(.cls 0, j), (.cls 0, j)] := by
  have : ∀ c, Reaches raceEnv (.cls 0) c → Buildable raceEnv c := by
    intro c h
    have : c = 0 := by
      induction h with
      | here h => cases h; rfl
      | field _ hcd _ hf hm ih =>
        subst ih
        cases hcd
        rcases List.mem_singleton.1 hf with rfl
        cases hm
    subst this
    exact ⟨_, rfl, fun _ f hf => by rcases List.mem_singleton.1 hf with rfl; exact ⟨_, rfl⟩⟩
  intro call hc
  simp only [List.mem_cons, List.not_mem_nil, or_false] at hc
  rcases hc with rfl | rfl <;> exact this

/-- Two threads parse `{"x": 1}` as `A`.  The first one creates the deserializer and stores it; before it has built it, the
second one finds it in the cache and uses it. -/
theorem C49_race :
    (sysRun raceEnv (Shared.empty, startAll raceEnv false [(.cls 0, .obj [(c!"x", .int 1)]), (.cls 0, .obj [(c!"x", .int 1)])])
      [0, 0, 0, 1, 1]).2[1]? = some (.done (.error .attribute)) ∧
    (jsonToObject raceEnv false (.cls 0) (.obj [(c!"x", .int 1)]) Heap.empty).1 = .ok (.obj 0 [(c!"x", .int 1)]) := ⟨rfl, rfl⟩

/-- C49 is false. -/
theorem C49_violated : ¬ C49_statement := by
  intro h
  have := h raceEnv raceEnv_ok false _ (raceEnv_build (.obj [(c!"x", .int 1)])) [0, 0, 0, 1, 1] 1 _ _ _ rfl C49_race.1
  rw [C49_race.2] at this
  cases this

/-! ### The hypotheses are met -/

/-- The race: all threads end, the class is in the cache, and later calls are right. -/
example (sched' : List Nat) (i : Nat) (r : Res Val)
    (hi : i < 2) (hr : (sysRun raceEnv ((sysRun raceEnv (Shared.empty, startAll raceEnv false
        [(.cls 0, .obj [(c!"x", .int 1)]), (.cls 0, .obj [(c!"x", .int 1)])]) [0, 0, 0, 1, 1, 0, 0]).1,
        startAll raceEnv false [(.cls 0, .obj [(c!"x", .int 1)]), (.cls 0, .obj [(c!"x", .int 1)])]) sched').2[i]? = some (.done r)) :
    r = .ok (.obj 0 [(c!"x", .int 1)]) := by
  rw [← C49_race.2]
  refine C49_warm_partial raceEnv raceEnv_ok false _ (raceEnv_build _) [0, 0, 0, 1, 1, 0, 0] ?_ _ (raceEnv_build _) ?_ sched' i _ _ r ?_ hr
  · intro th hth
    have : th ∈ [Thread.done (.ok (.obj 0 [(c!"x", .int 1)])), .done (.error .attribute)] := hth
    simp only [List.mem_cons, List.not_mem_nil, or_false] at this
    rcases this with rfl | rfl
    · exact ⟨_, rfl⟩
    · exact ⟨_, rfl⟩
  · intro call _ c cd _ hcd
    cases c with
    | zero => cases hcd; intro h; cases h
    | succ c => cases hcd
  · match i, hi with
    | 0, _ => rfl
    | 1, _ => rfl

/-- A schedule in which both threads create a deserializer for the class. -/
example : (sysRun raceEnv (Shared.empty, startAll raceEnv false [(.cls 0, .obj [(c!"x", .int 1)]), (.cls 0, .obj [(c!"x", .int 1)])])
      [0, 1, 0, 1, 0, 1, 0, 0, 1, 1]).2 =
    [.done (.ok (.obj 0 [(c!"x", .int 1)])), .done (.ok (.obj 0 [(c!"x", .int 1)]))] := rfl

end Verif
