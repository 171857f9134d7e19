/-
C85: which job the out-of-memory handler stops (cmakeperf/src/measure/worker.rs 50-82, 374-440; main.rs 336-361).

C25 says that victims have the least `elapsed` counters.  Here the counters are those that the workers publish while
they process jobs, so that the victims can be described by the history of the jobs.

Simplifications: the counters are unbounded (`usize` in the code).  A worker may see its stop flag raised at any of its
checks, whatever the main thread did (C80 and C81 say when it can): this only adds executions.
-/
import Verif.Measure.Oom

set_option autoImplicit false
set_option linter.unusedVariables false

set_option linter.unusedSimpArgs false

namespace Verif.Measure.Youngest

open Verif.Measure

/-! ## Model -/

/-- What a worker is doing. -/
inductive Phase where
  /-- in `for job in input` (worker.rs 33), without a job -/
  | idle
  /-- in the loop of `process_job` (worker.rs 67-82) -/
  | busy
  /-- left `run` -/
  | gone
  deriving DecidableEq

/-- A worker: its phase, `MonitorClient::elapsed` and `*MonitorClient::elapsed_shared` (worker.rs 374-387). -/
structure Worker where
  phase : Phase
  elapsed : Nat
  shared : Nat
  deriving DecidableEq

/-- worker.rs 390-402 `MonitorClient::new`; mod.rs 180 sets the shared counters to 0. -/
def Worker.new : Worker := ⟨.idle, 0, 0⟩

/-- worker.rs 428-439 `update_elapsed`; `raised` is what `must_stop()` returns. `false` is `Err(MustStop)`. -/
def Worker.update (w : Worker) (raised : Bool) (f : Nat → Nat) : Worker × Bool :=
  if raised then (w, false) else ({ w with elapsed := f w.elapsed, shared := f w.elapsed }, true)

/-- What happens to a worker. -/
inductive Act where
  /-- it gets a job and calls `switch_job` (worker.rs 57-59); its stop flag is raised or not -/
  | start (raised : Bool)
  /-- waiting for the process times out and it calls `keep_job` (worker.rs 70-78) -/
  | poll (raised : Bool)
  /-- the job is done, and its result is sent (worker.rs 34-36, 79) -/
  | finish
  /-- the job fails (worker.rs 61, 80, 86), which ends the worker (worker.rs 37-39) -/
  | fail
  deriving DecidableEq

/-- One step of a worker, if it can make it. -/
def Worker.act (w : Worker) : Act → Option Worker
  | .start raised =>
    if w.phase = .idle then
      let (w', ok) := w.update raised fun _ => 0
      some { w' with phase := if ok then .busy else .gone }
    else none
  | .poll raised =>
    if w.phase = .busy then
      let (w', ok) := w.update raised fun n => n + 1
      some { w' with phase := if ok then .busy else .gone }
    else none
  | .finish => if w.phase = .busy then some { w with phase := .idle } else none
  | .fail => if w.phase = .busy then some { w with phase := .gone } else none

/-- All workers; steps are interleaved in any order. -/
def run : (Nat → Worker) → List (Nat × Act) → Option (Nat → Worker)
  | s, [] => some s
  | s, (i, a) :: es =>
    match (s i).act a with
    | none => none
    | some w => run (Function.update s i w) es

/-- The beginning. -/
def start : Nat → Worker := fun _ => Worker.new

/-- The counters that the workers have published after the history. -/
def counters (es : List (Nat × Act)) (i : Nat) : Nat :=
  match run start es with
  | some s => (s i).shared
  | none => 0

/-! ## Specification -/

/-- What worker `i` did since it last started a job (since the beginning if it never did). -/
def sinceStart (i : Nat) (es : List (Nat × Act)) : List (Nat × Act) :=
  es.reverse.takeWhile fun e => e != (i, .start false)

/-- How many times worker `i` polled the last job that it started; 0 if it never started one. -/
def polls (i : Nat) (es : List (Nat × Act)) : Nat := (sinceStart i es).count (i, .poll false)

/-- The history is possible. -/
def Possible (es : List (Nat × Act)) : Prop := ∃ s, run start es = some s

/-! ## Proof -/

theorem run_append (s : Nat → Worker) (es fs : List (Nat × Act)) :
    run s (es ++ fs) = (run s es).bind fun s' => run s' fs := by
  induction es generalizing s with
  | nil => rfl
  | cons e es ih =>
    obtain ⟨i, a⟩ := e
    simp only [List.cons_append, run]
    cases (s i).act a with
    | none => rfl
    | some w => exact ih _

theorem Possible.take {es : List (Nat × Act)} (h : Possible es) (n : Nat) : Possible (es.take n) := by
  obtain ⟨s, h⟩ := h
  rw [← List.take_append_drop n es, run_append] at h
  cases hr : run start (es.take n) with
  | none => rw [hr] at h; cases h
  | some s' => exact ⟨s', hr⟩

theorem polls_start (i : Nat) (es : List (Nat × Act)) : polls i (es ++ [(i, .start false)]) = 0 := by
  simp [polls, sinceStart]

theorem polls_poll (i : Nat) (es : List (Nat × Act)) : polls i (es ++ [(i, .poll false)]) = polls i es + 1 := by
  simp [polls, sinceStart]

theorem polls_other (i : Nat) (es : List (Nat × Act)) {e : Nat × Act} (h1 : e ≠ (i, .start false)) (h2 : e ≠ (i, .poll false)) :
    polls i (es ++ [e]) = polls i es := by
  simp [polls, sinceStart, h1, h2]

/-- Invariant: both counters of a worker are the number of polls of its last job. -/
theorem run_inv (es : List (Nat × Act)) : ∀ s, run start es = some s →
    ∀ i, (s i).elapsed = polls i es ∧ (s i).shared = polls i es := by
  induction es using List.reverseRecOn with
  | nil => rintro s ⟨⟩ i; exact ⟨rfl, rfl⟩
  | append_singleton es e ih =>
    intro s hs i
    rw [run_append] at hs
    cases hr : run start es with
    | none => rw [hr] at hs; cases hs
    | some s' =>
      rw [hr] at hs
      obtain ⟨j, a⟩ := e
      simp only [Option.bind_some, run] at hs
      cases ha : (s' j).act a with
      | none => rw [ha] at hs; cases hs
      | some w =>
        rw [ha] at hs
        cases hs
        obtain ⟨h1, h2⟩ := ih s' hr i
        by_cases hij : i = j
        · subst hij
          rw [Function.update_self]
          cases a with
          | start raised =>
            simp only [Worker.act] at ha
            split at ha
            · cases raised
              · cases ha
                rw [polls_start]; exact ⟨rfl, rfl⟩
              · cases ha
                rw [polls_other i es (by simp) (by simp)]; exact ⟨h1, h2⟩
            · cases ha
          | poll raised =>
            simp only [Worker.act] at ha
            split at ha
            · cases raised
              · cases ha
                rw [polls_poll]; exact ⟨congrArg (· + 1) h1, congrArg (· + 1) h1⟩
              · cases ha
                rw [polls_other i es (by simp) (by simp)]; exact ⟨h1, h2⟩
            · cases ha
          | finish =>
            simp only [Worker.act] at ha
            split at ha
            · cases ha; rw [polls_other i es (by simp) (by simp)]; exact ⟨h1, h2⟩
            · cases ha
          | fail =>
            simp only [Worker.act] at ha
            split at ha
            · cases ha; rw [polls_other i es (by simp) (by simp)]; exact ⟨h1, h2⟩
            · cases ha
        · rw [Function.update_of_ne hij,
            polls_other i es (fun e => hij (congrArg Prod.fst e).symm) (fun e => hij (congrArg Prod.fst e).symm)]
          exact ⟨h1, h2⟩

/-- **C85, counters.** Through every interleaving of the workers, the counter published by a worker is the number of
times it polled the last job it started: it restarts from 0 with each job, and keeps its value while the worker is
idle or gone. -/
theorem c85_counters {es : List (Nat × Act)} (h : Possible es) (i : Nat) : counters es i = polls i es := by
  obtain ⟨s, hs⟩ := h
  rw [counters, hs]
  exact (run_inv es s hs i).2

/-- **C85, victims.** After every history of monitor updates, whatever the workers do meanwhile, and at whatever moments
(`time k i`, in iteration `k` of the handler and for worker `i`) their counters are read or even stale: each worker that
the handler stops had polled its last job at most as many times as any other worker that was still active, and strictly
less than those before it. -/
theorem c85_victims {W bkg len : Nat} (hW : 0 < W) (hpos : 0 < len) {m : Monitor} {stopped : List Nat}
    (hm : History W bkg len m stopped .running) {es : List (Nat × Act)} (hes : Possible es) (time : Nat → Nat → Nat)
    {avail : Nat} {m' : Monitor} {r : OomResult}
    (hr : monitorUpdate W bkg m avail (fun k i => counters (es.take (time k i)) i) = .ok (m', r))
    {k v : Nat} (hv : r.victims[k]? = some v) {j : Nat} (hj : j < len) (hact : j ∉ stopped ++ r.victims.take k) :
    polls v (es.take (time k v)) ≤ polls j (es.take (time k j)) ∧
    (j < v → polls v (es.take (time k v)) < polls j (es.take (time k j))) := by
  obtain ⟨p, -, h⟩ := c25_every_update W bkg len hW hpos m stopped hm avail fun k i => counters (es.take (time k i)) i
  rcases h with ⟨m1, r1, h1, h2, -⟩ | ⟨vs, h1, -⟩
  · rw [h1] at hr
    cases hr
    have := h2.youngest k v hv j hj hact
    simp only [c85_counters (hes.take _)] at this
    exact this
  · rw [h1] at hr; cases hr

/-- **C85, workers without a job come first.** As long as a worker that never started a job is active, the handler
does not stop a worker that has polled its job: it rather stops workers whose end frees no memory. -/
theorem c85_jobless_first {W bkg len : Nat} (hW : 0 < W) (hpos : 0 < len) {m : Monitor} {stopped : List Nat}
    (hm : History W bkg len m stopped .running) {es : List (Nat × Act)} (hes : Possible es) (time : Nat → Nat → Nat)
    {avail : Nat} {m' : Monitor} {r : OomResult}
    (hr : monitorUpdate W bkg m avail (fun k i => counters (es.take (time k i)) i) = .ok (m', r))
    {k v : Nat} (hv : r.victims[k]? = some v) {j : Nat} (hj : j < len) (hact : j ∉ stopped ++ r.victims.take k)
    (hnone : (j, .start false) ∉ es) : polls v (es.take (time k v)) = 0 := by
  have h1 := (c85_victims hW hpos hm hes time hr hv hj hact).1
  have h2 : ∀ fs : List (Nat × Act), Possible fs → (j, .start false) ∉ fs →
      polls j fs = 0 ∧ ∀ s, run start fs = some s → (s j).phase ≠ .busy := by
    intro fs
    induction fs using List.reverseRecOn with
    | nil => intro _ _; exact ⟨rfl, by rintro s ⟨⟩; simp [start, Worker.new]⟩
    | append_singleton fs e ih =>
      rintro ⟨s, hs⟩ hn
      have hs' := hs
      rw [run_append] at hs
      cases hrun : run start fs with
      | none => rw [hrun] at hs; cases hs
      | some s' =>
        rw [hrun] at hs
        obtain ⟨h3, h4⟩ := ih ⟨s', hrun⟩ (fun h => hn (by simp [h]))
        have h5 := h4 s' hrun
        obtain ⟨i, a⟩ := e
        simp only [Option.bind_some, run] at hs
        cases ha : (s' i).act a with
        | none => rw [ha] at hs; cases hs
        | some w =>
          rw [ha] at hs
          cases hs
          by_cases hij : j = i
          · subst hij
            cases a with
            | start raised =>
              cases raised
              · exact absurd (by simp) hn
              · refine ⟨by rw [polls_other j fs (by simp) (by simp)]; exact h3, ?_⟩
                intro s2 hs2
                rw [hs'] at hs2; cases hs2
                rw [Function.update_self]
                simp only [Worker.act] at ha
                split at ha
                · cases ha; simp [Worker.update]
                · cases ha
            | poll raised => simp only [Worker.act, if_neg h5] at ha; cases ha
            | finish => simp only [Worker.act, if_neg h5] at ha; cases ha
            | fail => simp only [Worker.act, if_neg h5] at ha; cases ha
          · refine ⟨?_, ?_⟩
            · rw [polls_other j fs (fun e => hij (congrArg Prod.fst e).symm) (fun e => hij (congrArg Prod.fst e).symm)]
              exact h3
            · intro s2 hs2
              rw [hs'] at hs2; cases hs2
              rw [Function.update_of_ne hij]; exact h5
  have h3 := (h2 _ (hes.take (time k j)) (fun h => hnone (List.mem_of_mem_take h))).1
  omega

/-- **C85, an idle worker is stopped in place of a running job.** Two workers: one has been processing a job for a while,
the other has finished a shorter one and waits.  When memory gets short, the latter is stopped. -/
theorem c85_idle_victim (n : Nat) : ∃ es s, run start es = some s ∧
    (s 0).phase = .busy ∧ (s 1).phase = .idle ∧ polls 0 es = n + 1 ∧ History 64 1 2 (monitorNew 64 1 2 400000000) [] .running ∧
    ∃ m', monitorUpdate 64 1 (monitorNew 64 1 2 400000000) 250000000 (fun _ i => counters es i) =
      .ok (m', ⟨[1], [1], 200000000, .running⟩) := by
  have hrun : ∀ n, run start ([(0, .start false), (1, .start false), (1, .finish)] ++ List.replicate n (0, .poll false)) =
      some (fun i => if i = 0 then ⟨.busy, n, n⟩ else Worker.new) := by
    intro n
    induction n with
    | zero =>
      have e : run start ([(0, .start false), (1, .start false), (1, .finish)] ++ List.replicate 0 (0, .poll false)) =
          some (Function.update (Function.update (Function.update start 0 ⟨.busy, 0, 0⟩) 1 ⟨.busy, 0, 0⟩) 1
            ⟨.idle, 0, 0⟩) := rfl
      rw [e, Option.some.injEq]
      funext i
      by_cases h0 : i = 0
      · subst h0; simp [Function.update_apply]
      · by_cases h1 : i = 1
        · subst h1; simp [Worker.new]
        · simp [Function.update_apply, h0, h1, start]
    | succ n ih =>
      rw [List.replicate_succ', ← List.append_assoc, run_append, ih]
      simp only [Option.bind_some, run, Worker.act, Worker.update, if_true, Bool.false_eq_true, if_false, Option.some.injEq]
      funext i
      by_cases h0 : i = 0
      · subst h0; simp [Function.update_apply]
      · simp [Function.update_apply, h0]
  have h := hrun (n + 1)
  refine ⟨_, _, h, rfl, rfl, ?_, .new _, ?_⟩
  · rw [← c85_counters ⟨_, h⟩ 0, counters, h]; rfl
  · have hc : (fun (_ : Nat) i => counters ([(0, .start false), (1, .start false), (1, .finish)] ++
        List.replicate (n + 1) (0, .poll false)) i) = fun _ i => if i = 0 then n + 1 else 0 := by
      funext k i
      rw [counters, h]
      simp only
      split <;> rfl
    rw [hc]
    refine ⟨⟨[1], 200000000, 250000000⟩, ?_⟩
    have hl : ∀ k, (fun (_ : Nat) i => if i = 0 then n + 1 else 0) k = fun i => if i = 0 then n + 1 else 0 := fun _ => rfl
    have he : enumerateActive 64 [3] = .ok [0, 1] := by with_unfolding_all rfl
    have hmin : minByKey (fun i => if i = 0 then n + 1 else 0) [0, 1] = some 1 := by simp [minByKey]
    have hs : stopOne 64 [3] 1 = .ok [1] := by with_unfolding_all rfl
    have hn : numActive 64 [3] = 2 := by with_unfolding_all rfl
    have hn' : numActive 64 [1] = 1 := by with_unfolding_all rfl
    have hf : flagsNew 64 2 = [3] := by with_unfolding_all rfl
    have ht : updateThreshold 64 1 400000000 250000000 [3] 300000000 = 300000000 := by
      rw [updateThreshold]; simp
    simp only [monitorUpdate, monitorNew, hf, OOM_MARGIN_PER_THREAD]
    have e3 : 100000000 * (2 + 1) = 300000000 := rfl
    rw [e3, ht, handleOom, hn, oomLoop]
    simp only [he, hmin, hs, hn, hn']
    rw [oomLoop]
    simp

end Verif.Measure.Youngest
