/-
C71, C72: one job of a worker thread (cmakeperf/src/measure/worker.rs 50-95, 125-146, 230-275): its outcome, its peak
memory, the processes that are signalled when it is stopped, and the pipes it writes to.
-/
import Verif.Measure.ProcTree
import Mathlib.Algebra.BigOperators.Group.List.Basic

set_option autoImplicit false
set_option linter.unusedVariables false
set_option linter.unusedSimpArgs false

namespace Verif.Measure.Job

open Verif.Measure

/-! ## Model -/

/-- Result of one `process.wait_timeout(..)` (worker.rs 69), together with what the worker then reads from the shared
state in the case of a timeout: the process table (`monitor_client.system()`) and the stop flag (`keep_job()`). -/
inductive Poll where
  /-- `Ok(None)` -/
  | timeout (table : List Proc) (stop : Bool)
  /-- `Ok(Some(status))` -/
  | exited (success : Bool)
  /-- `Err(e)` -/
  | failed

/-- `JobError` (worker.rs 98-123) without its payload; `WorkerPanicked` is sent by `run`, not by `process_job`. -/
inductive JobError where
  | noProgram | spawnFailed | killed | waitFailed | jobFailed
  deriving DecidableEq

/-- What `process_job` meets outside of the loop. -/
structure Env where
  /-- stop flag seen by `switch_job` -/
  stopped : Bool
  /-- `job.program().is_some()` -/
  program : Bool
  /-- pid of the process, `none` if spawning fails -/
  spawn : Option Nat
  /-- what the process wrote to its pipes, `none` if that is not UTF-8 -/
  stdout : Option (List Char)
  stderr : Option (List Char)
  /-- `measure_time` and the time between spawning and the exit being noticed -/
  measureTime : Bool
  elapsed : Nat

/-- `UnitProfile::new` without the path. -/
structure Profile where
  maxRss : Nat
  wallTime : Option Nat
  deriving DecidableEq

/-- How far `process_job` gets. -/
inductive Outcome where
  /-- still in the loop, having published `elapsed` -/
  | running (elapsed : Nat) (maxRss : Nat)
  /-- the loop of `ProcessTree::refresh` does not end -/
  | hangs
  /-- `expect("Reading from pipes should be infaillible")` -/
  | panics
  /-- returned, having signalled `kills` -/
  | returned (r : Except JobError Profile) (kills : List Nat)
  deriving DecidableEq

/-- The loop of `process_job` (worker.rs 67-82). `tree` is `ProcessTree::tree`; `fin` is what follows the loop. -/
def loop (fin : Bool → Nat → Outcome) (tree : List Nat) (elapsed maxRss : Nat) : List Poll → Outcome
  | [] => .running elapsed maxRss
  | .timeout table stop :: ps =>
    match refresh table (table.length + 1) tree with
    | none => .hangs
    | some tree' =>
      if stop then .returned (.error .killed) (treeKill table tree' (fun _ => true)).1
      else loop fin tree' (elapsed + 1) (max maxRss (treeMemory table tree')) ps
  | .exited success :: _ => fin success maxRss
  | .failed :: _ => .returned (.error .waitFailed) []

/-- worker.rs 83-94, `report_process` 230-243, `report_stdpipe` 246-254: both pipes are read even if the status is bad. -/
def finish (env : Env) (success : Bool) (maxRss : Nat) : Outcome :=
  match env.stdout, env.stderr with
  | some _, some _ =>
    if success then .returned (.ok ⟨maxRss, if env.measureTime then some env.elapsed else none⟩) []
    else .returned (.error .jobFailed) []
  | _, _ => .panics

/-- `process_job` (worker.rs 50-95) and `start_job` (126-146). -/
def processJob (env : Env) (polls : List Poll) : Outcome :=
  if env.stopped then .returned (.error .killed) []
  else if env.program = false then .returned (.error .noProgram) []
  else match env.spawn with
    | none => .returned (.error .spawnFailed) []
    | some pid => loop (finish env) (setRoot pid) 0 0 polls

/-! ## Specification -/

/-- `procs` are the processes of the table that are the process `root` or descend from it, each once. -/
def TreeOf (table : List Proc) (root : Nat) (procs : List Proc) : Prop :=
  procs.Nodup ∧ ∀ q, q ∈ procs ↔ q ∈ table ∧ Descendant table root q.pid

/-- The memory of the processes that descend from `root` is `m`. -/
def MemoryOf (table : List Proc) (root m : Nat) : Prop :=
  ∃ procs, TreeOf table root procs ∧ m = (procs.map Proc.mem).sum

/-- A process table as the operating system shows it: pids are unique and the process is not its own ancestor. -/
def Sane (root : Nat) : Poll → Prop
  | .timeout table _ => (table.map Proc.pid).Nodup ∧ ¬ Relation.TransGen (IsChild table) root root
  | _ => True

/-- `m` is the largest of the memories sampled in `tables`, 0 if there are none. -/
def IsPeak (root : Nat) (tables : List (List Proc)) (m : Nat) : Prop :=
  (∀ t ∈ tables, ∀ k, MemoryOf t root k → k ≤ m) ∧ (m = 0 ∨ ∃ t ∈ tables, MemoryOf t root m)

/-! ## Proof -/

theorem memory_unique {t : List Proc} {root a b : Nat} (ha : MemoryOf t root a) (hb : MemoryOf t root b) : a = b := by
  obtain ⟨p, ⟨hp1, hp2⟩, rfl⟩ := ha
  obtain ⟨q, ⟨hq1, hq2⟩, rfl⟩ := hb
  have : p.Perm q := (List.perm_ext_iff_of_nodup hp1 hq1).2 (fun x => by rw [hp2, hq2])
  exact (this.map Proc.mem).sum_eq

theorem refresh_ok {t : List Proc} {root : Nat} {tree : List Nat} (hs : (t.map Proc.pid).Nodup)
    (hc : ¬ Relation.TransGen (IsChild t) root root) (hh : tree.head? = some root) :
    ∃ tree', refresh t (t.length + 1) tree = some tree' ∧ tree'.head? = some root ∧
      MemoryOf t root (treeMemory t tree') ∧
      ∃ procs, TreeOf t root procs ∧ (treeKill t tree' (fun _ => true)).1 = procs.map Proc.pid := by
  obtain ⟨rest, rfl⟩ : ∃ rest, tree = root :: rest := by
    cases tree with
    | nil => cases hh
    | cons a l => simp only [List.head?_cons, Option.some.injEq] at hh; exact ⟨l, by rw [hh]⟩
  obtain ⟨tree', h1, h2, -⟩ := c26_refresh t hs root hc rest
  have hr := h1 _ (Nat.le_refl _)
  obtain ⟨procs, hn, hm, hmem, hk⟩ := c26_memory_kill t hs root hc rest _ _ hr (fun _ => true)
  exact ⟨tree', hr, h2, ⟨procs, ⟨hn, hm⟩, hmem⟩, procs, ⟨hn, hm⟩, by rw [hk]⟩

/-- Peak of the samples that came after a maximum `m0`. -/
def PeakFrom (root m0 : Nat) (tables : List (List Proc)) (m : Nat) : Prop :=
  m0 ≤ m ∧ (∀ t ∈ tables, ∀ k, MemoryOf t root k → k ≤ m) ∧ (m = m0 ∨ ∃ t ∈ tables, MemoryOf t root m)

theorem peak_unique {root m0 a b : Nat} {tables : List (List Proc)} (ha : PeakFrom root m0 tables a)
    (hb : PeakFrom root m0 tables b) : a = b := by
  obtain ⟨a1, a2, a3⟩ := ha
  obtain ⟨b1, b2, b3⟩ := hb
  apply Nat.le_antisymm
  · rcases a3 with rfl | ⟨t, ht, hm⟩
    · exact b1
    · exact b2 t ht _ hm
  · rcases b3 with rfl | ⟨t, ht, hm⟩
    · exact a1
    · exact a2 t ht _ hm

/-- The run of the loop over uneventful polls. -/
theorem loop_timeouts (fin : Bool → Nat → Outcome) (root : Nat) (tables : List (List Proc)) :
    ∀ (tree : List Nat) (e m0 : Nat) (ps : List Poll), tree.head? = some root →
      (∀ t ∈ tables, Sane root (.timeout t false)) →
      ∃ tree' m, tree'.head? = some root ∧ PeakFrom root m0 tables m ∧
        loop fin tree e m0 (tables.map (Poll.timeout · false) ++ ps) = loop fin tree' (e + tables.length) m ps := by
  induction tables with
  | nil =>
    intro tree e m0 ps hh hs
    exact ⟨tree, m0, hh, ⟨Nat.le_refl _, fun t ht => by simp at ht, Or.inl rfl⟩, rfl⟩
  | cons t ts ih =>
    intro tree e m0 ps hh hs
    obtain ⟨s1, s2⟩ := hs t (by simp)
    obtain ⟨tree1, hr, hh1, hmem, -⟩ := refresh_ok s1 s2 hh
    obtain ⟨tree2, m, hh2, ⟨p1, p2, p3⟩, hl⟩ := ih tree1 (e + 1) (max m0 (treeMemory t tree1)) ps hh1
      (fun t' ht' => hs t' (by simp [ht']))
    refine ⟨tree2, m, hh2, ⟨by omega, ?_, ?_⟩, ?_⟩
    · intro t' ht' k hk
      rcases List.mem_cons.1 ht' with rfl | ht'
      · have := memory_unique hk hmem; omega
      · exact p2 t' ht' k hk
    · rcases p3 with h | ⟨t', ht', h⟩
      · rcases Nat.le_total (treeMemory t tree1) m0 with hle | hle
        · exact Or.inl (by omega)
        · right
          refine ⟨t, by simp, ?_⟩
          rw [show m = treeMemory t tree1 by omega]; exact hmem
      · exact Or.inr ⟨t', by simp [ht'], h⟩
    · simp only [List.map_cons, List.cons_append, loop, hr]
      rw [if_neg (by simp), hl, List.length_cons]
      congr 1
      omega

/-- Polls split into the uneventful ones at the start and the rest. -/
theorem split_polls (polls : List Poll) : ∃ tables rest, polls = List.map (Poll.timeout · false) tables ++ rest ∧
    (rest = [] ∨ (∃ t r, rest = .timeout t true :: r) ∨ (∃ b r, rest = .exited b :: r) ∨ ∃ r, rest = .failed :: r) := by
  induction polls with
  | nil => exact ⟨[], [], rfl, Or.inl rfl⟩
  | cons p ps ih =>
    cases p with
    | timeout t stop =>
      cases stop with
      | true => exact ⟨[], _, rfl, Or.inr (Or.inl ⟨_, _, rfl⟩)⟩
      | false =>
        obtain ⟨ts, r, h, hr⟩ := ih
        exact ⟨t :: ts, r, by simp [h], hr⟩
    | exited b => exact ⟨[], _, rfl, Or.inr (Or.inr (Or.inl ⟨_, _, rfl⟩))⟩
    | failed => exact ⟨[], _, rfl, Or.inr (Or.inr (Or.inr ⟨_, rfl⟩))⟩

/-- The whole run, case by case. -/
theorem run (env : Env) (pid : Nat) (polls : List Poll) (h0 : env.stopped = false) (h1 : env.program = true)
    (h2 : env.spawn = some pid) (hs : ∀ p ∈ polls, Sane pid p) :
    ∃ tables rest m, polls = List.map (Poll.timeout · false) tables ++ rest ∧ PeakFrom pid 0 tables m ∧
      ((rest = [] ∧ processJob env polls = .running tables.length m) ∨
       (∃ t r procs, rest = .timeout t true :: r ∧ TreeOf t pid procs ∧
          processJob env polls = .returned (.error .killed) (procs.map Proc.pid)) ∨
       (∃ b r, rest = .exited b :: r ∧ processJob env polls = finish env b m) ∨
       (∃ r, rest = .failed :: r ∧ processJob env polls = .returned (.error .waitFailed) [])) := by
  obtain ⟨tables, rest, rfl, hr⟩ := split_polls polls
  obtain ⟨tree, m, hh, hp, hl⟩ := loop_timeouts (finish env) pid tables (setRoot pid) 0 0 rest rfl
    (fun t ht => hs (.timeout t false) (by simp [ht]))
  have hpj : processJob env (List.map (Poll.timeout · false) tables ++ rest) =
      loop (finish env) tree (0 + tables.length) m rest := by
    unfold processJob
    rw [h0, h1, h2, if_neg (by simp), if_neg (by simp)]
    exact hl
  refine ⟨tables, rest, m, rfl, hp, ?_⟩
  rw [hpj, Nat.zero_add]
  rcases hr with rfl | ⟨t, r, rfl⟩ | ⟨b, r, rfl⟩ | ⟨r, rfl⟩
  · exact Or.inl ⟨rfl, rfl⟩
  · right; left
    obtain ⟨s1, s2⟩ := hs (.timeout t true) (by simp)
    obtain ⟨tree', hr', -, -, procs, ht, hk⟩ := refresh_ok s1 s2 hh
    refine ⟨t, r, procs, rfl, ht, ?_⟩
    simp only [loop, hr', if_true, hk]
  · exact Or.inr (Or.inr (Or.inl ⟨b, r, rfl, rfl⟩))
  · exact Or.inr (Or.inr (Or.inr ⟨r, rfl, rfl⟩))

/-- If the polls begin with uneventful ones followed by something else, they do so in one way. -/
theorem split_unique (ts ts' : List (List Proc)) (p p' : Poll) (r r' : List Poll)
    (hp : ∀ t, p ≠ .timeout t false) (hp' : ∀ t, p' ≠ .timeout t false)
    (h : List.map (Poll.timeout · false) ts ++ p :: r = List.map (Poll.timeout · false) ts' ++ p' :: r') :
    ts = ts' ∧ p = p' ∧ r = r' := by
  induction ts generalizing ts' with
  | nil =>
    cases ts' with
    | nil => simp at h; exact ⟨rfl, h.1, h.2⟩
    | cons t' ts' => simp at h; exact absurd h.1 (hp _)
  | cons t ts ih =>
    cases ts' with
    | nil => simp at h; exact absurd h.1.symm (hp' _)
    | cons t' ts' =>
      simp only [List.map_cons, List.cons_append, List.cons.injEq, Poll.timeout.injEq, and_true] at h
      obtain ⟨rfl, h⟩ := h
      obtain ⟨h1, h2, h3⟩ := ih ts' h
      exact ⟨by rw [h1], h2, h3⟩

/-! ## C71 -/

/-- **C71.** A job that was started succeeds exactly if, after any number of uneventful polls, its process is seen to
exit with success, having written valid UTF-8. Its `max_rss` is then the largest of the memories of its process tree
seen at these polls, and 0 if it was over before the first poll. -/
theorem c71_success (env : Env) (pid : Nat) (polls : List Poll) (h0 : env.stopped = false) (h1 : env.program = true)
    (h2 : env.spawn = some pid) (hs : ∀ p ∈ polls, Sane pid p) (p : Profile) (kills : List Nat) :
    processJob env polls = .returned (.ok p) kills ↔
      ∃ tables rest, polls = List.map (Poll.timeout · false) tables ++ .exited true :: rest ∧
        env.stdout.isSome = true ∧ env.stderr.isSome = true ∧ IsPeak pid tables p.maxRss ∧
        p.wallTime = (if env.measureTime = true then some env.elapsed else none) ∧ kills = [] := by
  obtain ⟨tables, rest, m, rfl, hp, hc⟩ := run env pid polls h0 h1 h2 hs
  have hpeak : ∀ x, IsPeak pid tables x ↔ x = m := by
    intro x
    have hx : IsPeak pid tables x ↔ PeakFrom pid 0 tables x := by
      unfold IsPeak PeakFrom; simp
    rw [hx]
    exact ⟨fun h => peak_unique h hp, fun h => h ▸ hp⟩
  rcases hc with ⟨rfl, hj⟩ | ⟨t, r, procs, rfl, ht, hj⟩ | ⟨b, r, rfl, hj⟩ | ⟨r, rfl, hj⟩
  · rw [hj]
    constructor
    · intro h; cases h
    · rintro ⟨ts, r, h, -⟩
      have := congrArg (fun l => (Poll.exited true) ∈ l) h
      simp at this
  · rw [hj]
    constructor
    · intro h; cases h
    · rintro ⟨ts, r', h, -⟩
      have := split_unique tables ts _ _ _ _ (by simp) (by simp) h
      simp at this
  · rw [hj]
    unfold finish
    constructor
    · intro h
      cases ho : env.stdout with
      | none => rw [ho] at h; cases h
      | some o =>
        cases he : env.stderr with
        | none => rw [ho, he] at h; cases h
        | some e =>
          rw [ho, he] at h
          cases b with
          | false => cases h
          | true =>
            simp only [if_true, Outcome.returned.injEq, Except.ok.injEq] at h
            obtain ⟨rfl, rfl⟩ := h
            exact ⟨tables, r, rfl, rfl, rfl, (hpeak _).2 rfl, rfl, rfl⟩
    · rintro ⟨ts, r', h, ho, he, hm, hw, rfl⟩
      obtain ⟨rfl, hb, rfl⟩ := split_unique tables ts _ _ _ _ (by simp) (by simp) h
      simp only [Poll.exited.injEq] at hb
      subst hb
      obtain ⟨o, ho⟩ := Option.isSome_iff_exists.1 ho
      obtain ⟨e, he⟩ := Option.isSome_iff_exists.1 he
      rw [ho, he]
      simp only [if_true, Outcome.returned.injEq, Except.ok.injEq, and_true]
      have := (hpeak _).1 hm
      cases p
      simp_all
  · rw [hj]
    constructor
    · intro h; cases h
    · rintro ⟨ts, r', h, -⟩
      have := split_unique tables ts _ _ _ _ (by simp) (by simp) h
      simp at this

/-- **C71.** A job that was started is stopped exactly if the stop flag is up at a poll before the process is seen to
exit. The processes that are then signalled are exactly the process and its descendants in the process table, once
each. -/
theorem c71_killed (env : Env) (pid : Nat) (polls : List Poll) (h0 : env.stopped = false) (h1 : env.program = true)
    (h2 : env.spawn = some pid) (hs : ∀ p ∈ polls, Sane pid p) (kills : List Nat) :
    processJob env polls = .returned (.error .killed) kills →
      ∃ tables table rest procs, polls = List.map (Poll.timeout · false) tables ++ .timeout table true :: rest ∧
        TreeOf table pid procs ∧ kills = procs.map Proc.pid := by
  obtain ⟨tables, rest, m, rfl, hp, hc⟩ := run env pid polls h0 h1 h2 hs
  rcases hc with ⟨rfl, hj⟩ | ⟨t, r, procs, rfl, ht, hj⟩ | ⟨b, r, rfl, hj⟩ | ⟨r, rfl, hj⟩
  · rw [hj]; intro h; cases h
  · rw [hj]
    intro h
    simp only [Outcome.returned.injEq, true_and] at h
    exact ⟨tables, t, r, procs, rfl, ht, h.symm⟩
  · rw [hj]
    unfold finish
    intro h
    cases ho : env.stdout <;> cases he : env.stderr <;> cases b <;> rw [ho, he] at h <;> simp at h
  · rw [hj]; intro h; simp at h

/-- Conversely, see `c71_killed`. -/
theorem c71_killed_conv (env : Env) (pid : Nat) (tables : List (List Proc)) (table : List Proc) (rest : List Poll)
    (h0 : env.stopped = false) (h1 : env.program = true) (h2 : env.spawn = some pid)
    (hs : ∀ p ∈ List.map (Poll.timeout · false) tables ++ .timeout table true :: rest, Sane pid p) :
    ∃ kills, processJob env (List.map (Poll.timeout · false) tables ++ .timeout table true :: rest) =
      .returned (.error .killed) kills := by
  obtain ⟨tables', rest', m, he, hp, hc⟩ := run env pid _ h0 h1 h2 hs
  rcases hc with ⟨rfl, hj⟩ | ⟨t, r, procs, rfl, ht, hj⟩ | ⟨b, r, rfl, hj⟩ | ⟨r, rfl, hj⟩
  · have := congrArg (fun l => (Poll.timeout table true) ∈ l) he
    simp at this
  · exact ⟨_, hj⟩
  · have := split_unique _ _ _ _ _ _ (by simp) (by simp) he
    simp at this
  · have := split_unique _ _ _ _ _ _ (by simp) (by simp) he
    simp at this

/-- **C71.** While the job is running, the number the worker publishes is the number of polls since its start, and the
running maximum is the peak of the samples so far. -/
theorem c71_running (env : Env) (pid : Nat) (tables : List (List Proc)) (h0 : env.stopped = false)
    (h1 : env.program = true) (h2 : env.spawn = some pid) (hs : ∀ t ∈ tables, Sane pid (.timeout t false)) :
    ∃ m, processJob env (List.map (Poll.timeout · false) tables) = .running tables.length m ∧ IsPeak pid tables m := by
  obtain ⟨tree, m, hh, ⟨p1, p2, p3⟩, hl⟩ := loop_timeouts (finish env) pid tables (setRoot pid) 0 0 [] rfl hs
  refine ⟨m, ?_, p2, p3⟩
  unfold processJob
  rw [h0, h1, h2, if_neg (by simp), if_neg (by simp)]
  rw [List.append_nil, Nat.zero_add] at hl
  exact hl

/-- **C71.** A job whose worker was told to stop before starting it runs no process, and neither does a job without
program; these and a failed spawn are the errors reported. -/
theorem c71_not_started (env : Env) (polls : List Poll) :
    (env.stopped = true → processJob env polls = .returned (.error .killed) []) ∧
    (env.stopped = false → env.program = false → processJob env polls = .returned (.error .noProgram) []) ∧
    (env.stopped = false → env.program = true → env.spawn = none →
      processJob env polls = .returned (.error .spawnFailed) []) := by
  refine ⟨fun h => by simp [processJob, h], fun h h' => by simp [processJob, h, h'],
    fun h h' h'' => by simp [processJob, h, h', h'']⟩

/-- **C71** (*defect*). A compilation that succeeds but whose messages are not valid UTF-8 makes the worker panic, and
with it the whole measurement. -/
theorem c71_not_utf8_panics (env : Env) (pid : Nat) (tables : List (List Proc)) (b : Bool) (rest : List Poll)
    (h0 : env.stopped = false) (h1 : env.program = true) (h2 : env.spawn = some pid)
    (hs : ∀ t ∈ tables, Sane pid (.timeout t false)) (hu : env.stdout = none ∨ env.stderr = none) :
    processJob env (List.map (Poll.timeout · false) tables ++ .exited b :: rest) = .panics := by
  obtain ⟨tree, m, hh, -, hl⟩ := loop_timeouts (finish env) pid tables (setRoot pid) 0 0 (.exited b :: rest) rfl hs
  unfold processJob
  rw [h0, h1, h2, if_neg (by simp), if_neg (by simp)]
  simp only [hl, loop, finish]
  rcases hu with hu | hu
  · rw [hu]
  · rw [hu]; cases env.stdout <;> rfl

/-! ## C72: the pipes -/

/-- `Stdio::piped()` (worker.rs 133-136): two pipes, which the worker only reads once the process has exited
(`report_process`, line 86). -/
inductive Pipe where
  | out | err
  deriving DecidableEq

/-- State of a job and its pipes: what the process still has to write, and how much each pipe holds. -/
structure PipeSt where
  /-- the writes still to be done, in order, in bytes -/
  todo : List (Pipe × Nat)
  held : Pipe → Nat
  exited : Bool
  /-- polls of the worker so far -/
  polls : Nat

/-- Steps of the process and of the worker; `cap` is the capacity of a pipe (64 KiB on Linux). A write to a full pipe
blocks; a write that fits partially continues later. -/
inductive PipeStep (cap : Nat) : PipeSt → PipeSt → Prop where
  /-- the process writes some bytes -/
  | write (s : PipeSt) (p : Pipe) (n k : Nat) (rest : List (Pipe × Nat)) (ht : s.todo = (p, n) :: rest)
      (hk : k ≤ n) (hroom : s.held p + k ≤ cap) :
      PipeStep cap s { s with todo := (p, n - k) :: rest, held := fun q => if q = p then s.held q + k else s.held q }
  /-- a write is complete -/
  | next (s : PipeSt) (p : Pipe) (rest : List (Pipe × Nat)) (ht : s.todo = (p, 0) :: rest) :
      PipeStep cap s { s with todo := rest }
  /-- the process exits -/
  | exit (s : PipeSt) (ht : s.todo = []) : PipeStep cap s { s with exited := true }
  /-- `wait_timeout` times out -/
  | poll (s : PipeSt) (he : s.exited = false) : PipeStep cap s { s with polls := s.polls + 1 }

inductive PipeReach (cap : Nat) (writes : List (Pipe × Nat)) : PipeSt → Prop where
  | start : PipeReach cap writes ⟨writes, fun _ => 0, false, 0⟩
  | step (s s' : PipeSt) : PipeReach cap writes s → PipeStep cap s s' → PipeReach cap writes s'

/-- All bytes written to a pipe. -/
def total (writes : List (Pipe × Nat)) (p : Pipe) : Nat :=
  ((writes.filter fun w => w.1 = p).map Prod.snd).sum

theorem total_cons (p q : Pipe) (n : Nat) (l : List (Pipe × Nat)) :
    total ((q, n) :: l) p = (if q = p then n else 0) + total l p := by
  unfold total
  by_cases h : q = p <;> simp [h]

theorem pipe_inv (cap : Nat) (writes : List (Pipe × Nat)) (s : PipeSt) (h : PipeReach cap writes s) :
    (∀ p, s.held p + total s.todo p = total writes p) ∧ (∀ p, s.held p ≤ cap) ∧ (s.exited = true → s.todo = []) := by
  induction h with
  | start => exact ⟨fun p => Nat.zero_add _, fun p => Nat.zero_le _, fun h => nomatch h⟩
  | step s s' hr st ih =>
    obtain ⟨i1, i2, i3⟩ := ih
    cases st with
    | write p n k rest ht hk hroom =>
      refine ⟨fun q => ?_, fun q => ?_, fun he => ?_⟩
      · have := i1 q
        rw [ht, total_cons] at this
        simp only [total_cons]
        by_cases hq : q = p
        · subst hq; simp only [if_true] at this ⊢; omega
        · rw [if_neg hq, if_neg (Ne.symm hq)]; rw [if_neg (Ne.symm hq)] at this; omega
      · by_cases hq : q = p
        · subst hq; simpa using hroom
        · simpa [hq] using i2 q
      · have := i3 he; rw [ht] at this; cases this
    | next p rest ht =>
      refine ⟨fun q => ?_, i2, fun he => ?_⟩
      · have := i1 q
        rw [ht, total_cons] at this
        simp only at this ⊢
        split at this <;> omega
      · have := i3 he; rw [ht] at this; cases this
    | exit ht => exact ⟨i1, i2, fun _ => ht⟩
    | poll he => exact ⟨i1, i2, i3⟩

/-- **C72** (*defect*). A job that writes more to its standard output or to its standard error than a pipe holds never
ends: in no execution, however long, does its process exit, so that the worker polls for ever. -/
theorem c72_too_much_output_never_ends (cap : Nat) (writes : List (Pipe × Nat)) (p : Pipe)
    (h : cap < total writes p) (s : PipeSt) (hr : PipeReach cap writes s) :
    s.exited = false ∧ ∃ s', PipeStep cap s s' ∧ s'.polls = s.polls + 1 := by
  obtain ⟨i1, i2, i3⟩ := pipe_inv cap writes s hr
  have he : s.exited = false := by
    by_contra hc
    rw [Bool.not_eq_false] at hc
    have h1 := i1 p
    have h2 := i2 p
    rw [i3 hc] at h1
    have : total [] p = 0 := rfl
    omega
  exact ⟨he, _, .poll s he, rfl⟩

/-- Work left to the process. -/
def left (s : PipeSt) : Nat := (s.todo.map fun w => w.2 + 1).sum

/-- **C72.** A job whose output fits in the pipes is never blocked: as long as its process has not exited it can take a
step that brings it closer to its end, and polls do not change that. -/
theorem c72_small_output_progress (cap : Nat) (writes : List (Pipe × Nat)) (h : ∀ p, total writes p ≤ cap) (s : PipeSt)
    (hr : PipeReach cap writes s) :
    s.exited = true ∨ ∃ s', PipeStep cap s s' ∧ (s'.exited = true ∨ left s' < left s) := by
  obtain ⟨i1, i2, i3⟩ := pipe_inv cap writes s hr
  cases he : s.exited with
  | true => exact Or.inl rfl
  | false =>
    right
    match ht : s.todo with
    | [] => exact ⟨_, .exit s ht, Or.inl rfl⟩
    | (p, 0) :: rest =>
      refine ⟨_, .next s p rest ht, Or.inr ?_⟩
      simp [left, ht]
    | (p, n + 1) :: rest =>
      have h1 := i1 p
      have h2 := h p
      rw [ht, total_cons, if_pos rfl] at h1
      refine ⟨_, .write s p (n + 1) (n + 1) rest ht (Nat.le_refl _) (by omega), Or.inr ?_⟩
      simp [left, ht]

/-- Steps of the process never add to the work left, polls leave it unchanged. -/
theorem c72_left_decreases (cap : Nat) (s s' : PipeSt) (st : PipeStep cap s s') :
    left s' ≤ left s := by
  cases st with
  | write p n k rest ht hk hroom => simp only [left, ht, List.map_cons, List.sum_cons]; omega
  | next p rest ht => simp only [left, ht, List.map_cons, List.sum_cons]; omega
  | exit ht => exact Nat.le_refl _
  | poll he => exact Nat.le_refl _

/-- **C72.** A job can end exactly if what it writes to each of its two outputs fits in a pipe. -/
theorem c72_can_end (cap : Nat) (writes : List (Pipe × Nat)) :
    (∃ s, PipeReach cap writes s ∧ s.exited = true) ↔ ∀ p, total writes p ≤ cap := by
  constructor
  · rintro ⟨s, hr, he⟩ p
    by_contra hc
    have := (c72_too_much_output_never_ends cap writes p (by omega) s hr).1
    rw [he] at this; cases this
  · intro h
    suffices ∀ (n : Nat) (s : PipeSt), PipeReach cap writes s → left s = n →
        ∃ s, PipeReach cap writes s ∧ s.exited = true from this _ _ .start rfl
    intro n
    induction n using Nat.strong_induction_on with
    | _ n ih =>
      intro s hr hn
      rcases c72_small_output_progress cap writes h s hr with he | ⟨s', st, he | hl⟩
      · exact ⟨s, hr, he⟩
      · exact ⟨s', .step _ _ hr st, he⟩
      · exact ih _ (by omega) s' (.step _ _ hr st) rfl

/-! ## Concrete cases -/

/-- A job sampled twice: the peak is the second sample. -/
def sampleEnv : Env := ⟨false, true, some 10, some [], some ['w'], true, 42⟩

def firstTable : List Proc := [⟨10, some 1, 5⟩, ⟨20, some 1, 7⟩]

example : processJob sampleEnv [.timeout firstTable false, .timeout sampleTable false, .timeout firstTable false,
    .exited true] = .returned (.ok ⟨185, some 42⟩) [] := by decide

example : processJob sampleEnv [.timeout sampleTable false, .timeout sampleTable true] =
    .returned (.error .killed) [10, 11, 12, 13] := by decide

example : processJob sampleEnv [.exited true] = .returned (.ok ⟨0, some 42⟩) [] := by decide

example : Sane 10 (.timeout sampleTable false) := by
  refine ⟨by decide, ?_⟩
  intro h
  obtain ⟨b, hb, hc⟩ := Relation.TransGen.tail'_iff.1 h
  obtain ⟨q, hq, h1, h2⟩ := hc
  have hb' : b = 1 := by
    have hall : ∀ q ∈ sampleTable, q.pid = 10 → q.parent = some 1 := by decide
    rw [hall q hq h1] at h2
    exact (Option.some.inj h2).symm
  subst hb'
  have key : ∀ x, Relation.ReflTransGen (IsChild sampleTable) 10 x → x ≠ 1 := by
    intro x hx
    rcases Relation.ReflTransGen.cases_tail hx with rfl | ⟨y, -, q, hq, h1, -⟩
    · decide
    · subst h1
      exact (by decide : ∀ q ∈ sampleTable, q.pid ≠ 1) q hq
  exact key _ hb rfl

example : total [(.out, 3), (.err, 70000)] .err = 70000 := by decide

end Verif.Measure.Job
