/-
C73: the measurement ends. Every execution of the protocol (`Verif.Measure.Protocol`) has at most a number of steps
that depends on the numbers of workers and jobs and on how often work stealing had to be retried or a thread was woken
up spuriously.
-/
import Verif.Measure.Liveness
import Mathlib.Tactic.Ring

set_option autoImplicit false
set_option linter.unusedVariables false
set_option linter.unusedSimpArgs false
set_option linter.unusedSectionVars false

namespace Verif.Measure

open Function (update)

variable {n : Nat} {J : Type}

/-! ## Specification -/

/-- Steps that delay a worker for reasons outside of the program: a spurious wake-up, or a work-stealing operation that
asks for a retry because of contention. (If a round of stealing already needs a retry, another request changes
nothing.) -/
inductive Delay (w : Fin n) : St n J → St n J → Prop where
  | spurious (s : St n J) (l : Nat) : s.ws w = .asleep l →
      Delay w s { s with ws := update s.ws w (.waitLoad l) }
  | stealRetry (s : St n J) (l : Nat) (i : Fin n) : s.ws w = .steal l i.val false →
      Delay w s { s with ws := update s.ws w (.steal l (i.val + 1) true) }
  | globalRetry (s : St n J) (l : Nat) : s.ws w = .stealGlobal l false →
      Delay w s { s with ws := update s.ws w (.steal l 0 false) }

theorem delay_is_step {w : Fin n} {s s' : St n J} (h : Delay w s s') : WStep w s s' := by
  cases h with
  | spurious l h => exact .spurious s l h
  | stealRetry l i h => exact .stealRetry s l i false h
  | globalRetry l h => exact .globalRetry s l false h

/-- Executions: `Exec jobs k m s` if `s` is reached by `k` steps, `m` of which are delays. -/
inductive Exec (jobs : List J) : Nat → Nat → St n J → Prop where
  | init : Exec jobs 0 0 (initSt n jobs)
  | delay (k m : Nat) (s s' : St n J) (w : Fin n) : Exec jobs k m s → Delay w s s' → Exec jobs (k + 1) (m + 1) s'
  | worker (k m : Nat) (s s' : St n J) (w : Fin n) : Exec jobs k m s → WStep w s s' → ¬ Delay w s s' →
      Exec jobs (k + 1) m s'
  | main (k m : Nat) (s s' : St n J) : Exec jobs k m s → MStep s s' → Exec jobs (k + 1) m s'

/-- Continuations by undelayed steps, in which the main thread does not panic. -/
inductive Goes : St n J → St n J → Prop where
  | refl (s : St n J) : Goes s s
  | worker (s s' t : St n J) (w : Fin n) : WStep w s s' → ¬ Delay w s s' → Goes s' t → Goes s t
  | main (s s' t : St n J) : MStep s s' → s'.main ≠ .closing .panicked → Goes s' t → Goes s t

/-- The measurement has ended: the main thread has its result and all workers have left. -/
def Ended (s : St n J) : Prop := (∃ r, s.main = .finished r) ∧ ∀ w, s.ws w = .done

theorem exec_reach (jobs : List J) (k m : Nat) (s : St n J) (h : Exec jobs k m s) : Reach n jobs s := by
  induction h with
  | init => exact .init
  | delay k m s s' w _ hd ih => exact .worker _ _ w ih (delay_is_step hd)
  | worker k m s s' w _ hs _ ih => exact .worker _ _ w ih hs
  | main k m s s' _ hs ih => exact .main _ _ ih hs

/-- Conversely, every reachable state is reached by an execution. -/
theorem reach_exec (jobs : List J) (s : St n J) (h : Reach n jobs s) : ∃ k m, Exec jobs k m s := by
  induction h with
  | init => exact ⟨0, 0, .init⟩
  | worker s s' w _ hs ih =>
    obtain ⟨k, m, h⟩ := ih
    by_cases hd : Delay w s s'
    · exact ⟨_, _, .delay k m s s' w h hd⟩
    · exact ⟨_, _, .worker k m s s' w h hs hd⟩
  | main s s' _ hs ih =>
    obtain ⟨k, m, h⟩ := ih
    exact ⟨_, _, .main k m s s' h hs⟩

/-! ## A rank that every step but a delay decreases -/

/-- Cost of a round through the queues. -/
def roundCost (n : Nat) : Nat := n + 12

/-- Weight of a queued job. -/
def jobCost (n : Nat) : Nat := n + 8

/-- Weight of the message that a job was stopped, and of every active worker. -/
def killCost (n : Nat) : Nat := n * roundCost n + jobCost n + 6

/-- What a worker that has last seen the futex value `l` owes. -/
def owe (n f l : Nat) : Nat := if l = f then 0 else roundCost n

/-- Steps that a worker may still take with the present value `f` of the futex, without taking a job. -/
def wRank (n f : Nat) : WSt J → Nat
  | .waitLoad l => if l = f then 2 else roundCost n
  | .waitSleep l => if l = f then 1 else roundCost n + 1
  | .asleep l => owe n f l
  | .popLocal l => n + 7 + owe n f l
  | .steal l i b => (n - i) + 5 + (if b then n + 7 else 0) + owe n f l
  | .stealGlobal l b => 4 + (if b then n + 7 else 0) + owe n f l
  | .got l _ => n + 10 + owe n f l
  | .running l _ => n + 9 + owe n f l
  | .done => 0

/-- The same with the cost of a kill. -/
def wCost (n f : Nat) (x : WSt J) : Nat := wRank n f x + if x.isDone then 0 else killCost n

def msgCost (n : Nat) : Msg J → Nat
  | .killed _ => killCost n
  | _ => 1

def mCost (n : Nat) : MSt J → Nat
  | .finished _ => 0
  | .closeWake _ => 2 * n + 1
  | .closing _ => n * roundCost n + 2 * n + 2
  | .loop => n * roundCost n + 2 * n + 3
  | .pushWake => n * roundCost n + 2 * n + 6
  | .pushStore => n * roundCost n + (n * roundCost n + 2 * n + 7)
  | .pushJob _ => jobCost n + (n * roundCost n + (n * roundCost n + 2 * n + 8))
  | .started => n * roundCost n + 4 * n + 4
  | .init => n * roundCost n + (n * roundCost n + 4 * n + 5)

def rank (s : St n J) : Nat :=
  (∑ w, wCost n s.futex (s.ws w)) + jobCost n * s.global.length + (s.chan.map (msgCost n)).sum + mCost n s.main +
    ∑ w, if s.stopped w then 0 else 1

theorem sum_wCost (f : Nat) (g : Fin n → WSt J) (w : Fin n) (x y : WSt J) (h : g w = x) :
    (∑ v, wCost n f (update g w y v)) + wCost n f x = (∑ v, wCost n f (g v)) + wCost n f y := by
  subst h
  exact sum_update g (wCost n f) w y

theorem rank_worker (s : St n J) (w : Fin n) (x y : WSt J) (g : List J) (c : List (Msg J)) (h : s.ws w = x)
    (hlt : wCost n s.futex y + jobCost n * g.length + (c.map (msgCost n)).sum <
      wCost n s.futex x + jobCost n * s.global.length + (s.chan.map (msgCost n)).sum) :
    rank { s with ws := update s.ws w y, global := g, chan := c } < rank s := by
  have := sum_wCost s.futex s.ws w x y h
  simp only [rank]
  omega

theorem rank_worker' (s : St n J) (w : Fin n) (x y : WSt J) (h : s.ws w = x)
    (hlt : wCost n s.futex y < wCost n s.futex x) : rank { s with ws := update s.ws w y } < rank s :=
  rank_worker s w x y s.global s.chan h (by omega)

theorem killCost_ge (n : Nat) : n + 14 ≤ killCost n := by unfold killCost jobCost; omega

/-- Every step of a worker that is not a delay decreases the rank. -/
theorem wstep_rank {w : Fin n} {s s' : St n J} (hl : ∀ w, s.locals w = []) (h : WStep w s s') (hd : ¬ Delay w s s') :
    rank s' < rank s := by
  have hK := killCost_ge n
  cases h with
  | loadSame l h hf =>
    refine rank_worker' s w _ _ h ?_
    simp [wCost, wRank, hf, WSt.isDone]
  | loadNew l h hf =>
    refine rank_worker' s w _ _ h ?_
    simp [wCost, wRank, owe, Ne.symm hf, WSt.isDone, roundCost]
  | sleep l h hf =>
    refine rank_worker' s w _ _ h ?_
    simp [wCost, wRank, owe, hf, WSt.isDone]
  | noSleep l h hf =>
    refine rank_worker' s w _ _ h ?_
    simp [wCost, wRank, Ne.symm hf, WSt.isDone]
  | spurious l h => exact absurd (.spurious s l h) hd
  | popSome l j r h hq => rw [hl] at hq; cases hq
  | popNone l h hq =>
    refine rank_worker' s w _ _ h ?_
    simp [wCost, wRank, WSt.isDone]
  | stealOk l i b j ts rest h hne hq => rw [hl] at hq; cases hq
  | stealSelf l b j r h hq => rw [hl] at hq; cases hq
  | stealEmpty l i b h hq =>
    refine rank_worker' s w _ _ h ?_
    have := i.isLt
    simp [wCost, wRank, WSt.isDone]
    omega
  | stealRetry l i b h =>
    cases b with
    | false => exact absurd (.stealRetry s l i h) hd
    | true =>
      refine rank_worker' s w _ _ h ?_
      have := i.isLt
      simp [wCost, wRank, WSt.isDone]
      omega
  | stealEnd l b h =>
    refine rank_worker' s w _ _ h ?_
    simp [wCost, wRank, WSt.isDone]
  | globalOk l b j r h hg =>
    refine rank_worker s w _ _ r s.chan h ?_
    rw [hg]
    simp [wCost, wRank, WSt.isDone, jobCost, Nat.mul_add]
    omega
  | globalRetry l b h =>
    cases b with
    | false => exact absurd (.globalRetry s l h) hd
    | true =>
      refine rank_worker' s w _ _ h ?_
      simp [wCost, wRank, WSt.isDone]
      omega
  | globalNone l h hg hf =>
    refine rank_worker' s w _ _ h ?_
    simp only [wCost, wRank, WSt.isDone, owe, Bool.false_eq_true, if_false]
    split <;> omega
  | globalFinished l h hg hf =>
    refine rank_worker' s w _ _ h ?_
    simp [wCost, wRank, WSt.isDone]
  | gotKilled l j h hs =>
    refine rank_worker s w _ _ s.global _ h ?_
    simp [wCost, wRank, WSt.isDone, msgCost]
    omega
  | gotStart l j h hs =>
    refine rank_worker' s w _ _ h ?_
    simp [wCost, wRank, WSt.isDone]
  | runKilled l j h hs =>
    refine rank_worker s w _ _ s.global _ h ?_
    simp [wCost, wRank, WSt.isDone, msgCost]
    omega
  | runOk l j h =>
    refine rank_worker s w _ _ s.global _ h ?_
    simp [wCost, wRank, WSt.isDone, msgCost]
    omega
  | runErr l j h =>
    refine rank_worker s w _ _ s.global _ h ?_
    simp [wCost, wRank, WSt.isDone, msgCost]
    omega

/-- A delay increases the rank by at most the cost of a round through the queues. -/
theorem delay_rank {w : Fin n} {s s' : St n J} (h : Delay w s s') : rank s' ≤ rank s + (n + 6) := by
  have key : ∀ x y : WSt J, s.ws w = x → wCost n s.futex y ≤ wCost n s.futex x + (n + 6) →
      rank { s with ws := update s.ws w y } ≤ rank s + (n + 6) := by
    intro x y hx hle
    have := sum_wCost s.futex s.ws w x y hx
    simp only [rank]
    omega
  cases h with
  | spurious l h =>
    refine key _ _ h ?_
    simp only [wCost, wRank, WSt.isDone, owe, Bool.false_eq_true, if_false]
    split <;> omega
  | stealRetry l i h =>
    refine key _ _ h ?_
    have := i.isLt
    simp [wCost, wRank, WSt.isDone]
    omega
  | globalRetry l h =>
    refine key _ _ h ?_
    simp [wCost, wRank, WSt.isDone]
    omega

/-- A change of the futex costs every worker at most one round. -/
theorem wCost_futex (f f' : Nat) (x : WSt J) : wCost n f' x ≤ wCost n f x + roundCost n := by
  unfold wCost
  have ho : ∀ l, owe n f' l ≤ owe n f l + roundCost n := by
    intro l; unfold owe; split <;> omega
  have : wRank n f' x ≤ wRank n f x + roundCost n := by
    cases x with
    | waitLoad l => simp only [wRank, roundCost]; split <;> split <;> omega
    | waitSleep l => simp only [wRank, roundCost]; split <;> split <;> omega
    | asleep l => exact ho l
    | popLocal l => have := ho l; simp only [wRank]; omega
    | steal l i b => have := ho l; simp only [wRank]; omega
    | stealGlobal l b => have := ho l; simp only [wRank]; omega
    | got l j => have := ho l; simp only [wRank]; omega
    | running l j => have := ho l; simp only [wRank]; omega
    | done => simp [wRank]
  omega

theorem wCost_wake (f : Nat) (x : WSt J) : wCost n f (wake x) ≤ wCost n f x + 2 := by
  cases x with
  | asleep l =>
    simp only [wake, wCost, wRank, WSt.isDone, owe, Bool.false_eq_true, if_false]
    split <;> omega
  | _ => simp [wake]

theorem sum_futex (f f' : Nat) (g : Fin n → WSt J) :
    ∑ v, wCost n f' (g v) ≤ (∑ v, wCost n f (g v)) + n * roundCost n := by
  have := Finset.sum_le_sum (s := Finset.univ) (fun v _ => wCost_futex (n := n) f f' (g v))
  rw [Finset.sum_add_distrib] at this
  simpa using this

theorem sum_wake (f : Nat) (g : Fin n → WSt J) :
    ∑ v, wCost n f (wake (g v)) ≤ (∑ v, wCost n f (g v)) + n * 2 := by
  have := Finset.sum_le_sum (s := Finset.univ) (fun v _ => wCost_wake (n := n) f (g v))
  rw [Finset.sum_add_distrib] at this
  simpa using this

/-- Every step of the main thread decreases the rank. -/
theorem mstep_rank {s s' : St n J} (h : MStep s s') : rank s' < rank s := by
  cases h with
  | start h =>
    have := sum_futex s.futex (FUTEX_INITIAL + 1) s.ws
    simp only [rank, h, mCost] at *
    omega
  | startWake h =>
    have := sum_wake s.futex s.ws
    simp only [rank, h, mCost] at *
    omega
  | kill h hr =>
    simp only [rank, h, mCost, if_true, Finset.sum_const_zero]
    omega
  | recvKilled j r h hr hc =>
    simp only [rank, h, hc, mCost, List.map_cons, List.sum_cons, msgCost, killCost] at *
    omega
  | pushJob j h =>
    simp only [rank, h, mCost, List.length_append, List.length_singleton, Nat.mul_add] at *
    omega
  | pushStore h =>
    have := sum_futex s.futex (nextFutex s.futex) s.ws
    simp only [rank, h, mCost] at *
    omega
  | pushWake w h ha =>
    have h1 := sum_wCost s.futex s.ws w _ (wake (s.ws w)) rfl
    have h2 := wCost_wake (n := n) s.futex (s.ws w)
    simp only [rank, h, mCost] at *
    omega
  | pushWakeNone h ha =>
    simp only [rank, h, mCost] at *
    omega
  | recvOk j r h hr hc =>
    simp only [rank, h, hc, mCost, List.map_cons, List.sum_cons, msgCost] at *
    omega
  | recvOkIo j r h hr hc =>
    simp only [rank, h, hc, mCost, List.map_cons, List.sum_cons, msgCost] at *
    omega
  | recvOkPanic j r h hr hc =>
    simp only [rank, h, hc, mCost, List.map_cons, List.sum_cons, msgCost] at *
    omega
  | recvErr j r h hr hc =>
    simp only [rank, h, hc, mCost, List.map_cons, List.sum_cons, msgCost] at *
    omega
  | stop w h hr hs ho =>
    have := sum_update s.stopped (fun b => if b then 0 else 1) w true
    simp only [rank, h, mCost, hs] at *
    simp at this
    omega
  | stopLast w h hr hs ho =>
    have := sum_update s.stopped (fun b => if b then 0 else 1) w true
    simp only [rank, h, mCost, hs] at *
    simp at this
    omega
  | panic h => simp only [rank, h, mCost] at *; omega
  | finish h hr => simp only [rank, h, mCost] at *; omega
  | finishIo h hr => simp only [rank, h, mCost] at *; omega
  | close r h =>
    have := sum_futex s.futex FUTEX_FINISHED s.ws
    simp only [rank, h, mCost] at *
    omega
  | closeWake r h =>
    have := sum_wake s.futex s.ws
    simp only [rank, h, mCost] at *
    omega

/-! ## C73 -/

/-- The number of steps that are always enough for `n` workers and `jobs` jobs. -/
def enoughSteps (n jobs : Nat) : Nat :=
  n * (2 + (n * (n + 12) + n + 14)) + (n + 8) * jobs + (2 * (n * (n + 12)) + 4 * n + 5) + n

theorem rank_init (jobs : List J) : rank (initSt n jobs) = enoughSteps n jobs.length := by
  simp only [rank, initSt, mCost, wCost, wRank, WSt.isDone, List.map_nil, List.sum_nil, Finset.sum_const,
    Finset.card_univ, Fintype.card_fin, smul_eq_mul, if_true, Bool.false_eq_true, if_false, killCost, jobCost, roundCost,
    enoughSteps]
  ring

/-- **C73.** Every execution, whatever the schedule, the kills and the failures, is finite: the number of its steps is at
most a number that depends on the numbers of workers and jobs, plus `n + 7` for each delay that comes from outside. -/
theorem c73_bounded (jobs : List J) (k m : Nat) (s : St n J) (h : Exec jobs k m s) :
    k ≤ enoughSteps n jobs.length + (n + 7) * m := by
  suffices k + rank s ≤ enoughSteps n jobs.length + (n + 7) * m by omega
  induction h with
  | init => rw [rank_init]; omega
  | delay k m s s' w _ hd ih =>
    have := delay_rank hd
    rw [Nat.mul_add]; omega
  | worker k m s s' w he hs hd ih =>
    have := wstep_rank (locals_empty jobs s (exec_reach jobs k m s he)) hs hd
    omega
  | main k m s s' _ hs ih =>
    have := mstep_rank hs
    omega

/-- A worker that is neither asleep nor finished has a step that is not a delay. -/
theorem ready_steps (jobs : List J) (s : St n J) (h : Reach n jobs s) (w : Fin n) (hw : workerReady s w) :
    ∃ s', WStep w s s' ∧ ¬ Delay w s s' := by
  have hidx : ∀ l i b, s.ws w = .steal l i b → i ≤ n := steal_index jobs s h w
  have hloc := locals_empty jobs s h
  obtain ⟨h1, h2⟩ := hw
  have nd : ∀ {s' : St n J} {x : WSt J}, s.ws w = x → (∀ l, x ≠ .asleep l) → (∀ l i, x ≠ .steal l i false) →
      (∀ l, x ≠ .stealGlobal l false) → ¬ Delay w s s' := by
    intro s' x hx a1 a2 a3 hd
    cases hd with
    | spurious l h => exact a1 l (hx ▸ h)
    | stealRetry l i h => exact a2 l _ (hx ▸ h)
    | globalRetry l h => exact a3 l (hx ▸ h)
  have nd' : ∀ {s' : St n J} {l : Nat}, s.ws w = .stealGlobal l false → s'.ws w ≠ .steal l 0 false → ¬ Delay w s s' := by
    intro s' l hx hne hd
    cases hd with
    | spurious l h => rw [hx] at h; cases h
    | stealRetry l i h => rw [hx] at h; cases h
    | globalRetry l' h => rw [hx] at h; cases h; exact hne (by simp)
  cases hx : s.ws w with
  | waitLoad l =>
    refine (?_ : ∃ s', WStep w s s').imp fun s' hs => ⟨hs, nd hx (fun _ e => nomatch e) (fun _ _ e => nomatch e)
      (fun _ e => nomatch e)⟩
    by_cases hf : s.futex = l
    · exact ⟨_, .loadSame s l hx hf⟩
    · exact ⟨_, .loadNew s l hx hf⟩
  | waitSleep l =>
    refine (?_ : ∃ s', WStep w s s').imp fun s' hs => ⟨hs, nd hx (fun _ e => nomatch e) (fun _ _ e => nomatch e)
      (fun _ e => nomatch e)⟩
    by_cases hf : s.futex = l
    · exact ⟨_, .sleep s l hx hf⟩
    · exact ⟨_, .noSleep s l hx hf⟩
  | asleep l => rw [hx] at h1; cases h1
  | done => rw [hx] at h2; cases h2
  | popLocal l =>
    exact ⟨_, .popNone s l hx (hloc w), nd hx (fun _ e => nomatch e) (fun _ _ e => nomatch e) (fun _ e => nomatch e)⟩
  | steal l i b =>
    have hi := hidx l i b hx
    rcases Nat.lt_or_ge i n with hlt | hge
    · refine ⟨_, .stealEmpty s l ⟨i, hlt⟩ b hx (hloc _), ?_⟩
      cases b with
      | true => exact nd hx (fun _ e => nomatch e) (fun _ _ e => by cases e) (fun _ e => nomatch e)
      | false =>
        intro hd
        generalize hs' : ({ s with ws := update s.ws w (.steal l (i + 1) false) } : St n J) = s' at hd
        have e1 : s'.ws w = .steal l (i + 1) false := by rw [← hs']; simp
        cases hd with
        | spurious l h => rw [hx] at h; cases h
        | stealRetry l i h => simp at e1
        | globalRetry l h => rw [hx] at h; cases h
    · have : i = n := by omega
      subst this
      refine ⟨_, .stealEnd s l b hx, ?_⟩
      intro hd
      cases b with
      | true => exact nd hx (fun _ e => nomatch e) (fun _ _ e => by cases e) (fun _ e => nomatch e) hd
      | false =>
        generalize hs' : ({ s with ws := update s.ws w (.stealGlobal l false) } : St _ J) = s' at hd
        have e1 : s'.ws w = .stealGlobal l false := by rw [← hs']; simp
        cases hd with
        | spurious l h => rw [hx] at h; cases h
        | stealRetry l i h => simp at e1
        | globalRetry l h => rw [hx] at h; cases h
  | stealGlobal l b =>
    cases b with
    | true =>
      exact ⟨_, .globalRetry s l true hx, nd hx (fun _ e => nomatch e) (fun _ _ e => nomatch e) (fun _ e => by cases e)⟩
    | false =>
      cases hg : s.global with
      | cons j r => exact ⟨_, .globalOk s l false j r hx hg, nd' hx (by simp)⟩
      | nil =>
        by_cases hf : l = FUTEX_FINISHED
        · exact ⟨_, .globalFinished s l hx hg hf, nd' hx (by simp)⟩
        · exact ⟨_, .globalNone s l hx hg hf, nd' hx (by simp)⟩
  | got l j =>
    refine (?_ : ∃ s', WStep w s s').imp fun s' hs => ⟨hs, nd hx (fun _ e => nomatch e) (fun _ _ e => nomatch e)
      (fun _ e => nomatch e)⟩
    by_cases hs : s.stopped w = true
    · exact ⟨_, .gotKilled s l j hx hs⟩
    · exact ⟨_, .gotStart s l j hx (by simpa using hs)⟩
  | running l j =>
    exact ⟨_, .runOk s l j hx, nd hx (fun _ e => nomatch e) (fun _ _ e => nomatch e) (fun _ e => nomatch e)⟩

variable [DecidableEq J]

/-- **C73.** As long as the measurement has not ended, some thread can go on without being delayed: a worker, or the main
thread, which is then not waiting for a message and need not panic. -/
theorem c73_not_stuck (hn : n + 3 < 2 ^ 32) (hpos : 0 < n) (jobs : List J) (k m : Nat) (s : St n J)
    (h : Exec jobs k m s) :
    Ended s ∨ (∃ w s', WStep w s s' ∧ ¬ Delay w s s') ∨ (mainReady s ∧ ∃ s', MStep s s' ∧ s'.main ≠ .closing .panicked) := by
  have hr := exec_reach jobs k m s h
  by_cases hf : ∃ r, s.main = .finished r
  · obtain ⟨r, hf⟩ := hf
    by_cases hd : ∀ w, s.ws w = .done
    · exact Or.inl ⟨⟨r, hf⟩, hd⟩
    · rw [not_forall] at hd
      obtain ⟨w, hd⟩ := hd
      obtain ⟨h1, h2⟩ := c22_no_sleeper_after_close jobs s hr r hf w
      have hw : workerReady s w := ⟨h1, by
        cases hx : s.ws w with
        | done => exact absurd hx hd
        | _ => rfl⟩
      obtain ⟨s', h3⟩ := ready_steps jobs s hr w hw
      exact Or.inr (Or.inl ⟨w, s', h3⟩)
  · rw [not_exists] at hf
    rcases c22_no_deadlock hn hpos jobs s hr hf with hm | ⟨w, hw⟩
    · right; right
      refine ⟨hm, ?_⟩
      cases hx : s.main with
      | init => exact ⟨_, .start s hx, fun e => nomatch e⟩
      | started => exact ⟨_, .startWake s hx, fun e => nomatch e⟩
      | loop =>
        rcases Nat.eq_zero_or_pos s.remaining with h0 | h0
        · exact ⟨_, .finish s hx h0, fun e => by cases e⟩
        · cases hc : s.chan with
          | nil =>
            simp only [mainReady, hx, hc] at hm
            rcases hm with hm | hm
            · exact absurd rfl hm
            · omega
          | cons msg r =>
            cases msg with
            | ok j => exact ⟨_, .recvOk s j r hx h0 hc, fun e => by simp only [hx] at e; cases e⟩
            | killed j => exact ⟨_, .recvKilled s j r hx h0 hc, fun e => nomatch e⟩
            | err j => exact ⟨_, .recvErr s j r hx h0 hc, fun e => by cases e⟩
      | pushJob j => exact ⟨_, .pushJob s j hx, fun e => nomatch e⟩
      | pushStore => exact ⟨_, .pushStore s hx, fun e => nomatch e⟩
      | pushWake =>
        by_cases ha : ∃ w, (s.ws w).isAsleep = true
        · obtain ⟨w, ha⟩ := ha; exact ⟨_, .pushWake s w hx ha, fun e => nomatch e⟩
        · exact ⟨_, .pushWakeNone s hx (fun w => by
            cases hy : (s.ws w).isAsleep with
            | false => rfl
            | true => exact absurd ⟨w, hy⟩ ha), fun e => nomatch e⟩
      | closing r => exact ⟨_, .close s r hx, fun e => nomatch e⟩
      | closeWake r => exact ⟨_, .closeWake s r hx, fun e => nomatch e⟩
      | finished r => exact absurd hx (hf r)
    · obtain ⟨s', h3⟩ := ready_steps jobs s hr w hw
      exact Or.inr (Or.inl ⟨w, s', h3⟩)

/-- **C73.** However far the measurement has come, it can be brought to its end by undelayed steps alone: there is no
state from which the end cannot be reached. -/
theorem c73_can_end (hn : n + 3 < 2 ^ 32) (hpos : 0 < n) (jobs : List J) (k m : Nat) (s : St n J)
    (h : Exec jobs k m s) : ∃ t, Goes s t ∧ Ended t := by
  generalize hr : rank s = r
  induction r using Nat.strong_induction_on generalizing s k with
  | _ r ih =>
    subst hr
    rcases c73_not_stuck hn hpos jobs k m s h with he | ⟨w, s', h1, h2⟩ | ⟨-, s', h1, h2⟩
    · exact ⟨s, .refl s, he⟩
    · obtain ⟨t, ht, he⟩ := ih _ (wstep_rank (locals_empty jobs s (exec_reach jobs k m s h)) h1 h2) (k + 1) s'
        (.worker k m s s' w h h1 h2) rfl
      exact ⟨t, .worker s s' t w h1 h2 ht, he⟩
    · obtain ⟨t, ht, he⟩ := ih _ (mstep_rank h1) (k + 1) s' (.main k m s s' h h1) rfl
      exact ⟨t, .main s s' t h1 h2 ht, he⟩

/-- The hypotheses are met: the run `run_ok` of `Verif.Measure.Liveness` is an execution, within the bound. -/
example : ∃ k m, ∃ s : St 1 Nat, Exec [7] k m s ∧ s.main = .finished .ok ∧ k ≤ enoughSteps 1 1 + 8 * m := by
  obtain ⟨s, h, h1, -⟩ := run_ok
  obtain ⟨k, m, he⟩ := reach_exec [7] s h
  exact ⟨k, m, s, he, h1, c73_bounded [7] k m s he⟩

end Verif.Measure
