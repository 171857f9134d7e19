/-
Model of the measurement protocol: main thread (cmakeperf/src/measure/main.rs:25-124, 180-248), worker threads
(cmakeperf/src/measure/worker.rs:22-97, 280-371) and work queue (cmakeperf/src/measure/mod.rs:87-155), as a transition
system whose steps are the atomic actions of the threads on the shared state.

Simplifications (all over-approximate the real executions, except where noted):
* sequentially consistent interleaving (the code uses Release/Acquire on the futex word and on the stop flags, see C80 and
  C81 for these; the crossbeam queues, the mpsc channel and the futex system call are trusted to be linearizable);
* a steal takes a batch atomically; `Retry` may happen at any time;
* running a compilation job either succeeds, fails, or (when the stop flag is up) is killed; a panicking worker behaves
  like a failing job;
* the out-of-memory killer may stop any active worker at any time (its choice is C25);
* the main thread may panic at any time in its loop.
-/
import Mathlib.Algebra.BigOperators.Fin
import Mathlib.Data.Fintype.BigOperators
import Mathlib.Data.Fintype.Card
import Verif.Measure.Futex

set_option autoImplicit false
set_option linter.unusedVariables false
set_option linter.unusedSimpArgs false
set_option linter.unusedSectionVars false
set_option linter.unusedTactic false
set_option linter.unreachableTactic false

namespace Verif.Measure

/-- Where a worker thread is (worker.rs line numbers). `last` is `WorkReceiver::last_futex_value`. -/
inductive WSt (J : Type) where
  /-- 314-316: about to load the futex in `wait()` -/
  | waitLoad (last : Nat)
  /-- 320: has loaded `last` itself, about to call `atomic_wait::wait(futex, last)` -/
  | waitSleep (last : Nat)
  /-- in the kernel's wait queue -/
  | asleep (last : Nat)
  /-- 343: about to pop from the thread-local queue -/
  | popLocal (last : Nat)
  /-- 347-352: about to try stealer number `i`; `retry` = a previous stealer asked for a retry -/
  | steal (last i : Nat) (retry : Bool)
  /-- 354: about to try the global injector -/
  | stealGlobal (last : Nat) (retry : Bool)
  /-- 33-34, 58: has taken a job, about to call `switch_job()` -/
  | got (last : Nat) (j : J)
  /-- 61-96: the job's process is running -/
  | running (last : Nat) (j : J)
  /-- the thread has left its loop -/
  | done

/-- Messages on the results channel. -/
inductive Msg (J : Type) where
  | ok (j : J)
  /-- `Err(JobError::Killed(job))` -/
  | killed (j : J)
  /-- any other `Err` -/
  | err (j : J)

/-- How `main::run` ends. -/
inductive MRes where
  | ok | killed | oom | job | io | panicked
  deriving DecidableEq

/-- Where the main thread is (main.rs line numbers). -/
inductive MSt (J : Type) where
  /-- 51-67: workers are spawned, `start()` not called -/
  | init
  /-- 210: inside `start()`, futex stored, about to `wake_all` -/
  | started
  /-- 70: head of the loop -/
  | loop
  /-- 84-85: received a killed job, about to push it to the injector -/
  | pushJob (j : J)
  /-- 216: inside `push()`, about to store the futex -/
  | pushStore
  /-- 226: inside `push()`, about to `wake_one` -/
  | pushWake
  /-- leaving the scope with result `r`, about to store FINISHED (231) -/
  | closing (r : MRes)
  /-- 232: about to `wake_all` -/
  | closeWake (r : MRes)
  | finished (r : MRes)

/-- The whole state. -/
structure St (n : Nat) (J : Type) where
  futex : Nat
  global : List J
  locals : Fin n → List J
  ws : Fin n → WSt J
  chan : List (Msg J)
  main : MSt J
  /-- rows written to the CSV file -/
  csv : List J
  /-- number of calls of `step_done` -/
  steps : Nat
  /-- `remaining_jobs` -/
  remaining : Nat
  /-- raised stop flags (C20) -/
  stopped : Fin n → Bool
  /-- jobs whose error was reported (ghost) -/
  failed : List J

variable {n : Nat} {J : Type}

open Function (update)

/-- A worker that is in the wait queue leaves it. -/
def wake : WSt J → WSt J
  | .asleep l => .waitLoad l
  | x => x

/-- Is the worker in the futex wait queue? -/
def WSt.isAsleep : WSt J → Bool
  | .asleep _ => true
  | _ => false

/-- Steps of worker `w`. -/
inductive WStep (w : Fin n) : St n J → St n J → Prop where
  /-- worker.rs:316-320: the futex has not changed -/
  | loadSame (s : St n J) (l : Nat) : s.ws w = .waitLoad l → s.futex = l →
      WStep w s { s with ws := update s.ws w (.waitSleep l) }
  /-- worker.rs:316-318: the futex has changed: `WaitOutcome::Continue` -/
  | loadNew (s : St n J) (l : Nat) : s.ws w = .waitLoad l → s.futex ≠ l →
      WStep w s { s with ws := update s.ws w (.popLocal s.futex) }
  /-- `atomic_wait::wait` sleeps if the futex still has the expected value... -/
  | sleep (s : St n J) (l : Nat) : s.ws w = .waitSleep l → s.futex = l →
      WStep w s { s with ws := update s.ws w (.asleep l) }
  /-- ...and returns immediately otherwise -/
  | noSleep (s : St n J) (l : Nat) : s.ws w = .waitSleep l → s.futex ≠ l →
      WStep w s { s with ws := update s.ws w (.waitLoad l) }
  /-- spurious wake-up -/
  | spurious (s : St n J) (l : Nat) : s.ws w = .asleep l →
      WStep w s { s with ws := update s.ws w (.waitLoad l) }
  /-- worker.rs:343 `self.local.pop()` succeeds -/
  | popSome (s : St n J) (l : Nat) (j : J) (r : List J) : s.ws w = .popLocal l → s.locals w = j :: r →
      WStep w s { s with ws := update s.ws w (.got l j), locals := update s.locals w r }
  | popNone (s : St n J) (l : Nat) : s.ws w = .popLocal l → s.locals w = [] →
      WStep w s { s with ws := update s.ws w (.steal l 0 false) }
  /-- worker.rs:351 `steal_batch_and_pop` succeeds: pops `j`, moves `ts` to the local queue -/
  | stealOk (s : St n J) (l : Nat) (i : Fin n) (b : Bool) (j : J) (ts rest : List J) : s.ws w = .steal l i.val b →
      i ≠ w → s.locals i = j :: ts ++ rest →
      WStep w s { s with ws := update s.ws w (.got l j),
                         locals := update (update s.locals i rest) w (s.locals w ++ ts) }
  /-- stealing from oneself is popping -/
  | stealSelf (s : St n J) (l : Nat) (b : Bool) (j : J) (r : List J) : s.ws w = .steal l w.val b →
      s.locals w = j :: r →
      WStep w s { s with ws := update s.ws w (.got l j), locals := update s.locals w r }
  | stealEmpty (s : St n J) (l : Nat) (i : Fin n) (b : Bool) : s.ws w = .steal l i.val b → s.locals i = [] →
      WStep w s { s with ws := update s.ws w (.steal l (i.val + 1) b) }
  | stealRetry (s : St n J) (l : Nat) (i : Fin n) (b : Bool) : s.ws w = .steal l i.val b →
      WStep w s { s with ws := update s.ws w (.steal l (i.val + 1) true) }
  | stealEnd (s : St n J) (l : Nat) (b : Bool) : s.ws w = .steal l n b →
      WStep w s { s with ws := update s.ws w (.stealGlobal l b) }
  /-- worker.rs:354 `global.steal()` succeeds -/
  | globalOk (s : St n J) (l : Nat) (b : Bool) (j : J) (r : List J) : s.ws w = .stealGlobal l b → s.global = j :: r →
      WStep w s { s with ws := update s.ws w (.got l j), global := r }
  /-- worker.rs:357: some stealer or the injector asked for a retry -/
  | globalRetry (s : St n J) (l : Nat) (b : Bool) : s.ws w = .stealGlobal l b →
      WStep w s { s with ws := update s.ws w (.steal l 0 false) }
  /-- nothing found: worker.rs:367-370, 309-311 -/
  | globalNone (s : St n J) (l : Nat) : s.ws w = .stealGlobal l false → s.global = [] → l ≠ FUTEX_FINISHED →
      WStep w s { s with ws := update s.ws w (.waitLoad l) }
  | globalFinished (s : St n J) (l : Nat) : s.ws w = .stealGlobal l false → s.global = [] → l = FUTEX_FINISHED →
      WStep w s { s with ws := update s.ws w .done }
  /-- worker.rs:58-60 `switch_job()`: must stop -/
  | gotKilled (s : St n J) (l : Nat) (j : J) : s.ws w = .got l j → s.stopped w = true →
      WStep w s { s with ws := update s.ws w .done, chan := s.chan ++ [.killed j] }
  | gotStart (s : St n J) (l : Nat) (j : J) : s.ws w = .got l j → s.stopped w = false →
      WStep w s { s with ws := update s.ws w (.running l j) }
  /-- worker.rs:73-75 `keep_job()`: must stop -/
  | runKilled (s : St n J) (l : Nat) (j : J) : s.ws w = .running l j → s.stopped w = true →
      WStep w s { s with ws := update s.ws w .done, chan := s.chan ++ [.killed j] }
  | runOk (s : St n J) (l : Nat) (j : J) : s.ws w = .running l j →
      WStep w s { s with ws := update s.ws w (.popLocal l), chan := s.chan ++ [.ok j] }
  /-- spawn, wait or job failure, worker panic -/
  | runErr (s : St n J) (l : Nat) (j : J) : s.ws w = .running l j →
      WStep w s { s with ws := update s.ws w .done, chan := s.chan ++ [.err j] }

/-- The futex value after a push (main.rs:216-224, C21). -/
def nextFutex (v : Nat) : Nat := if v + 1 < 2 ^ 32 then v + 1 else FUTEX_INITIAL + 1

/-- Steps of the main thread. -/
inductive MStep : St n J → St n J → Prop where
  /-- main.rs:205-209 `start()` -/
  | start (s : St n J) : s.main = .init → MStep s { s with futex := FUTEX_INITIAL + 1, main := .started }
  /-- main.rs:210 -/
  | startWake (s : St n J) : s.main = .started → MStep s { s with ws := fun w => wake (s.ws w), main := .loop }
  /-- main.rs:72-76: killed from the outside -/
  | kill (s : St n J) : s.main = .loop → 0 < s.remaining →
      MStep s { s with stopped := fun _ => true, main := .closing .killed }
  /-- main.rs:83-84: a killed job comes back -/
  | recvKilled (s : St n J) (j : J) (r : List (Msg J)) : s.main = .loop → 0 < s.remaining → s.chan = .killed j :: r →
      MStep s { s with chan := r, main := .pushJob j }
  /-- main.rs:215 -/
  | pushJob (s : St n J) (j : J) : s.main = .pushJob j → MStep s { s with global := s.global ++ [j], main := .pushStore }
  /-- main.rs:216-224 -/
  | pushStore (s : St n J) : s.main = .pushStore → MStep s { s with futex := nextFutex s.futex, main := .pushWake }
  /-- main.rs:226 `wake_one`: some sleeper leaves the wait queue... -/
  | pushWake (s : St n J) (w : Fin n) : s.main = .pushWake → (s.ws w).isAsleep = true →
      MStep s { s with ws := update s.ws w (wake (s.ws w)), main := .loop }
  /-- ...if there is one -/
  | pushWakeNone (s : St n J) : s.main = .pushWake → (∀ w, (s.ws w).isAsleep = false) →
      MStep s { s with main := .loop }
  /-- main.rs:88-99: a job is done -/
  | recvOk (s : St n J) (j : J) (r : List (Msg J)) : s.main = .loop → 0 < s.remaining → s.chan = .ok j :: r →
      MStep s { s with chan := r, csv := s.csv ++ [j], steps := s.steps + 1, remaining := s.remaining - 1 }
  /-- main.rs:96: writing the row fails -/
  | recvOkIo (s : St n J) (j : J) (r : List (Msg J)) : s.main = .loop → 0 < s.remaining → s.chan = .ok j :: r →
      MStep s { s with chan := r, failed := s.failed ++ [j], main := .closing .io }
  /-- main.rs:97: the progress callback panics -/
  | recvOkPanic (s : St n J) (j : J) (r : List (Msg J)) : s.main = .loop → 0 < s.remaining → s.chan = .ok j :: r →
      MStep s { s with chan := r, csv := s.csv ++ [j], main := .closing .panicked }
  /-- main.rs:89: a job failed -/
  | recvErr (s : St n J) (j : J) (r : List (Msg J)) : s.main = .loop → 0 < s.remaining → s.chan = .err j :: r →
      MStep s { s with chan := r, failed := s.failed ++ [j], main := .closing .job }
  /-- main.rs:102-105, 336-361: the monitor stops a worker, others remain -/
  | stop (s : St n J) (w : Fin n) : s.main = .loop → 0 < s.remaining → s.stopped w = false →
      (∃ w', update s.stopped w true w' = false) → MStep s { s with stopped := update s.stopped w true }
  /-- the monitor stops the last active worker: `KilledEveryone` -/
  | stopLast (s : St n J) (w : Fin n) : s.main = .loop → 0 < s.remaining → s.stopped w = false →
      (∀ w', update s.stopped w true w' = true) →
      MStep s { s with stopped := update s.stopped w true, main := .closing .oom }
  | panic (s : St n J) : s.main = .loop → MStep s { s with main := .closing .panicked }
  /-- main.rs:118-119 -/
  | finish (s : St n J) : s.main = .loop → s.remaining = 0 → MStep s { s with main := .closing .ok }
  | finishIo (s : St n J) : s.main = .loop → s.remaining = 0 → MStep s { s with main := .closing .io }
  /-- main.rs:231 -/
  | close (s : St n J) (r : MRes) : s.main = .closing r →
      MStep s { s with futex := FUTEX_FINISHED, main := .closeWake r }
  /-- main.rs:232 -/
  | closeWake (s : St n J) (r : MRes) : s.main = .closeWake r →
      MStep s { s with ws := fun w => wake (s.ws w), main := .finished r }

/-- main.rs:34-62 and mod.rs:108-143: the state when all workers have been spawned. -/
def initSt (n : Nat) (jobs : List J) : St n J :=
  { futex := FUTEX_INITIAL, global := jobs, locals := fun _ => [], ws := fun _ => .waitLoad FUTEX_INITIAL, chan := [],
    main := .init, csv := [], steps := 0, remaining := jobs.length, stopped := fun _ => false, failed := [] }

/-- States reachable by any schedule. -/
inductive Reach (n : Nat) (jobs : List J) : St n J → Prop where
  | init : Reach n jobs (initSt n jobs)
  | worker (s s' : St n J) (w : Fin n) : Reach n jobs s → WStep w s s' → Reach n jobs s'
  | main (s s' : St n J) : Reach n jobs s → MStep s s' → Reach n jobs s'

/-! ## C23: conservation -/

theorem sum_update {X : Type} (f : Fin n → X) (g : X → Nat) (w : Fin n) (x : X) :
    (∑ v, g (update f w x v)) + g (f w) = (∑ v, g (f v)) + g x := by
  have h1 := Finset.sum_erase_add Finset.univ (fun v => g (update f w x v)) (Finset.mem_univ w)
  have h2 := Finset.sum_erase_add Finset.univ (fun v => g (f v)) (Finset.mem_univ w)
  have h3 : ∑ v ∈ Finset.univ.erase w, g (update f w x v) = ∑ v ∈ Finset.univ.erase w, g (f v) := by
    apply Finset.sum_congr rfl
    intro v hv
    rw [Function.update_of_ne (Finset.ne_of_mem_erase hv)]
  simp only [Function.update_self] at h1
  omega

variable [DecidableEq J]

/-- The job a worker holds. -/
def WSt.held : WSt J → List J
  | .got _ j => [j]
  | .running _ j => [j]
  | _ => []

/-- The job inside a message. -/
def Msg.job : Msg J → J
  | .ok j => j
  | .killed j => j
  | .err j => j

/-- The job the main thread holds. -/
def MSt.held : MSt J → List J
  | .pushJob j => [j]
  | _ => []

/-- In how many places is job `a`: queues, workers, channel, hands of the main thread, output file, reported errors. -/
def places (s : St n J) (a : J) : Nat :=
  s.global.count a + (∑ w, (s.locals w).count a) + (∑ w, (s.ws w).held.count a) +
    (s.chan.map Msg.job).count a + s.main.held.count a + s.csv.count a + s.failed.count a

theorem held_wake (x : WSt J) : (wake x).held = x.held := by cases x <;> rfl

theorem held_sum (f : Fin n → WSt J) (w : Fin n) (x y : WSt J) (a : J) (h : f w = x) :
    (∑ v, (update f w y v).held.count a) + x.held.count a = (∑ v, (f v).held.count a) + y.held.count a := by
  have := sum_update f (fun x => x.held.count a) w y
  rw [h] at this
  exact this

theorem held_sum_nil (f : Fin n → WSt J) (w : Fin n) (x y : WSt J) (a : J) (h : f w = x) (hx : x.held = [])
    (hy : y.held = []) : (∑ v, (update f w y v).held.count a) = ∑ v, (f v).held.count a := by
  have := held_sum f w x y a h
  rw [hx, hy] at this
  simpa using this

theorem held_got (l : Nat) (j : J) : (WSt.got l j).held = [j] := rfl
theorem held_running (l : Nat) (j : J) : (WSt.running l j).held = [j] := rfl
theorem held_popLocal (l : Nat) : (WSt.popLocal l : WSt J).held = [] := rfl
theorem held_steal (l i : Nat) (b : Bool) : (WSt.steal l i b : WSt J).held = [] := rfl
theorem held_stealGlobal (l : Nat) (b : Bool) : (WSt.stealGlobal l b : WSt J).held = [] := rfl
theorem held_done : (WSt.done : WSt J).held = [] := rfl

theorem places_wstep {w : Fin n} {s s' : St n J} (h : WStep w s s') (a : J) : places s' a = places s a := by
  cases h with
  | loadSame l h1 h2 | loadNew l h1 h2 | sleep l h1 h2 | noSleep l h1 h2 | globalRetry l b h1 | popNone l h1 h2
  | stealEmpty l i b h1 h2 | stealRetry l i b h1 | stealEnd l b h1 | globalNone l h1 h2 h3 | spurious l h1
  | globalFinished l h1 h2 h3 =>
    simp only [places]
    rw [held_sum_nil s.ws w _ _ a h1 rfl rfl]
  | popSome l j r h1 h2 | stealSelf l b j r h1 h2 =>
    have h3 := held_sum s.ws w _ (.got l j) a h1
    have h4 := sum_update s.locals (fun x => x.count a) w r
    simp only [places]
    simp only [h2, held_got, held_popLocal, held_steal, List.count_nil, List.count_cons] at h3 h4
    omega
  | stealOk l i b j ts rest h1 h2 h3 =>
    have h4 := held_sum s.ws w _ (.got l j) a h1
    have h5 := sum_update s.locals (fun x => x.count a) i rest
    have h6 := sum_update (update s.locals i rest) (fun x => x.count a) w (s.locals w ++ ts)
    rw [Function.update_of_ne (fun h => h2 h.symm)] at h6
    simp only [places]
    simp only [h3, held_got, held_steal, List.count_nil, List.count_cons, List.count_append, List.cons_append]
      at h4 h5 h6 ⊢
    omega
  | globalOk l b j r h1 h2 =>
    have h3 := held_sum s.ws w _ (.got l j) a h1
    simp only [places]
    simp only [h2, held_got, held_stealGlobal, List.count_nil, List.count_cons] at h3 ⊢
    omega
  | gotKilled l j h1 h2 | runKilled l j h1 h2 | runErr l j h1 =>
    have h3 := held_sum s.ws w _ .done a h1
    simp only [places]
    simp only [held_got, held_running, held_done, List.count_nil, List.count_cons, List.map_append, List.count_append,
      List.map_cons, List.map_nil, Msg.job] at h3 ⊢
    omega
  | gotStart l j h1 h2 =>
    have h3 := held_sum s.ws w _ (.running l j) a h1
    simp only [places]
    simp only [held_got, held_running, List.count_nil, List.count_cons] at h3 ⊢
    omega
  | runOk l j h1 =>
    have h3 := held_sum s.ws w _ (.popLocal l) a h1
    simp only [places]
    simp only [held_popLocal, held_running, List.count_nil, List.count_cons, List.map_append, List.count_append,
      List.map_cons, List.map_nil, Msg.job] at h3 ⊢
    omega

theorem places_mstep {s s' : St n J} (h : MStep s s') (a : J) : places s' a = places s a := by
  cases h with
  | startWake h1 | closeWake r h1 => simp [places, held_wake, h1, MSt.held]
  | pushWake w h1 h2 =>
    have h3 := sum_update s.ws (fun x => x.held.count a) w (wake (s.ws w))
    rw [held_wake] at h3
    simp only [places, h1, MSt.held, List.count_nil]
    omega
  | recvKilled j r h1 h2 h3 | recvOk j r h1 h2 h3 | recvOkIo j r h1 h2 h3 | recvOkPanic j r h1 h2 h3
  | recvErr j r h1 h2 h3 =>
    simp only [places, h1, h3, MSt.held, Msg.job, List.count_nil, List.count_cons, List.map_cons, List.count_append]
    omega
  | pushJob j h1 =>
    simp only [places, h1, MSt.held, List.count_nil, List.count_cons, List.count_append]
    omega
  | start h1 => simp [places, h1, MSt.held]
  | kill h1 h2 => simp [places, h1, MSt.held]
  | pushStore h1 => simp [places, h1, MSt.held]
  | pushWakeNone h1 h2 => simp [places, h1, MSt.held]
  | stop w h1 h2 h3 h4 => simp [places, h1, MSt.held]
  | stopLast w h1 h2 h3 h4 => simp [places, h1, MSt.held]
  | panic h1 => simp [places, h1, MSt.held]
  | finish h1 h2 => simp [places, h1, MSt.held]
  | finishIo h1 h2 => simp [places, h1, MSt.held]
  | close r h1 => simp [places, h1, MSt.held]

/-- **C23.** In every reachable state of every schedule, every job is in exactly as many places as it was submitted
(queues, workers, results channel, main thread, output file or reported errors): jobs are neither lost nor
duplicated. -/
theorem c23_jobs_conserved (jobs : List J) (s : St n J) (h : Reach n jobs s) (a : J) :
    places s a = jobs.count a := by
  induction h with
  | init => simp [places, initSt, WSt.held, MSt.held]
  | worker s s' w _ hst ih => rw [places_wstep hst, ih]
  | main s s' _ hst ih => rw [places_mstep hst, ih]

/-- **C23, distinct units.** When the compilation units are distinct, each is in exactly one place. -/
theorem c23_exactly_one_place (jobs : List J) (hnd : jobs.Nodup) (s : St n J) (h : Reach n jobs s) (a : J)
    (ha : a ∈ jobs) : places s a = 1 := by
  rw [c23_jobs_conserved jobs s h a]
  exact List.count_eq_one_of_mem hnd ha

/-! ## C24: a successful measurement is complete -/

/-- The main thread is still in (or before) its loop. -/
def MSt.open? : MSt J → Prop
  | .closing _ => False
  | .closeWake _ => False
  | .finished _ => False
  | _ => True

/-- The main thread is leaving, or has left, with result `r`. -/
def MSt.ending (m : MSt J) (r : MRes) : Prop := m = .closing r ∨ m = .closeWake r ∨ m = .finished r

theorem progress_inv (jobs : List J) (s : St n J) (h : Reach n jobs s) :
    (s.main.open? → s.steps = s.csv.length ∧ s.remaining + s.csv.length = jobs.length ∧ s.failed = []) ∧
    (s.main.ending .ok → s.steps = s.csv.length ∧ s.csv.length = jobs.length ∧ s.failed = []) := by
  induction h with
  | init => simp [initSt, MSt.open?, MSt.ending]
  | worker s s' w _ hst ih => cases hst <;> exact ih
  | main s s' _ hst ih =>
    obtain ⟨ih1, ih2⟩ := ih
    cases hst with
    | start h1 | startWake h1 | pushWake w h1 h2 | pushJob j h1 | pushStore h1 | pushWakeNone h1 h2
    | stop w h1 h2 h3 h4 | recvKilled j r h1 h2 h3 =>
      rw [h1] at ih1
      simp only [MSt.open?, MSt.ending, forall_const] at ih1 ⊢
      try rw [h1]
      first
        | exact ⟨ih1, by simp⟩
        | exact ⟨fun _ => ih1, by simp⟩
    | recvOk j r h1 h2 h3 =>
      rw [h1] at ih1
      simp only [MSt.open?, MSt.ending, forall_const, h1] at ih1 ⊢
      refine ⟨?_, by simp⟩
      simp only [List.length_append, List.length_cons, List.length_nil]
      exact ⟨by omega, by omega, ih1.2.2⟩
    | kill h1 h2 | recvOkIo j r h1 h2 h3 | recvOkPanic j r h1 h2 h3 | recvErr j r h1 h2 h3 | stopLast w h1 h2 h3 h4
    | panic h1 | finishIo h1 h2 => simp [MSt.open?, MSt.ending]
    | finish h1 h2 =>
      rw [h1] at ih1
      simp only [MSt.open?, MSt.ending, forall_const] at ih1 ⊢
      refine ⟨fun h => h.elim, fun _ => ⟨ih1.1, by omega, ih1.2.2⟩⟩
    | close r h1 =>
      refine ⟨fun h => h.elim, fun h => ih2 ?_⟩
      simp only [MSt.ending, MSt.closeWake.injEq, reduceCtorEq, false_or, or_false] at h
      subst h; exact Or.inl h1
    | closeWake r h1 =>
      refine ⟨fun h => h.elim, fun h => ih2 ?_⟩
      simp only [MSt.ending, MSt.finished.injEq, reduceCtorEq, false_or, or_false] at h
      subst h; exact Or.inr (Or.inl h1)

theorem perm_of_places {jobs : List J} {s : St n J} (h : Reach n jobs s) (hlen : s.csv.length = jobs.length) :
    List.Perm s.csv jobs := by
  have hsub : List.Subperm s.csv jobs := by
    rw [List.subperm_iff_count]
    intro a
    have := c23_jobs_conserved jobs s h a
    unfold places at this
    omega
  exact hsub.perm_of_length_le (by omega)

/-- **C24.** When the measurement has ended with `Ok`, the CSV rows are exactly the submitted jobs, each once, and the
progress callback ran exactly once per job -- whatever the schedule, the kills and the number of workers. -/
theorem c24_ok_is_complete (jobs : List J) (s : St n J) (h : Reach n jobs s) (hok : s.main = .finished .ok) :
    List.Perm s.csv jobs ∧ s.steps = jobs.length := by
  obtain ⟨h1, h2, -⟩ := (progress_inv jobs s h).2 (Or.inr (Or.inr hok))
  exact ⟨perm_of_places h h2, by omega⟩

/-- **C24, at any time.** The rows written so far are some of the submitted jobs, none twice more than submitted, and
while the main thread runs the callback ran once per row. -/
theorem c24_rows_always_valid (jobs : List J) (s : St n J) (h : Reach n jobs s) :
    List.Subperm s.csv jobs ∧ (s.main.open? → s.steps = s.csv.length ∧ s.remaining = jobs.length - s.csv.length) := by
  refine ⟨?_, fun ho => ?_⟩
  · rw [List.subperm_iff_count]
    intro a
    have := c23_jobs_conserved jobs s h a
    unfold places at this
    omega
  · obtain ⟨h1, h2, -⟩ := (progress_inv jobs s h).1 ho
    exact ⟨h1, by omega⟩

end Verif.Measure
