import Verif.Measure.StopFlags
import Verif.Measure.Oom
import Verif.Measure.ProcTree
import Verif.Measure.Liveness
import Verif.Measure.Termination
import Verif.Measure.PollClock
import Verif.Measure.Job
import Verif.Measure.WeakMemory
import Verif.Measure.WeakStop
import Verif.Measure.Youngest

/-!
# Concrete cases that meet the hypotheses of the theorems of C20, C22–C26, C66, C71–C73, C80, C81 and C85

Nothing here is part of the model: each `example` applies a theorem to a concrete, non-trivial case.
-/
set_option autoImplicit false
set_option linter.unusedVariables false

namespace Verif.Measure

/-! ## C20: five workers on words of four bits -/

theorem wStop : ∃ ws, stopMany 4 (flagsNew 4 5) [1, 4] = .ok ws := by
  obtain ⟨ws, h, -⟩ := c20_stop_flags 4 5 (by omega) [1, 4] (by decide) (by decide)
  exact ⟨ws, h⟩

theorem wStop_not_last : ¬ ∃ k, OnlyLastActive 4 5 [1, 4] k := by
  rintro ⟨k, h1, h2, h3⟩
  have hk : k = 0 := by omega
  subst hk
  have := h3 0 (by omega)
  simp at this

theorem wLast : ∃ k, OnlyLastActive 4 5 [0, 1, 2] k := ⟨0, by unfold OnlyLastActive; decide⟩

example : ∃ ws, stopMany 4 (flagsNew 4 5) [1, 4] = .ok ws ∧ enumerateActive 4 ws = .ok [0, 2, 3] := by
  obtain ⟨ws, h⟩ := wStop
  refine ⟨ws, h, ?_⟩
  rw [c20_enumeration_ok 4 5 (by omega) [1, 4] (by decide) (by decide) ws h wStop_not_last]; decide

example : ∃ ws, stopMany 4 (flagsNew 4 5) [0, 1, 2] = .ok ws ∧ enumerateActive 4 ws = .error .shiftOverflow := by
  obtain ⟨ws, h, -⟩ := c20_stop_flags 4 5 (by omega) [0, 1, 2] (by decide) (by decide)
  exact ⟨ws, h, c20_enumeration_violated 4 5 (by omega) [0, 1, 2] (by decide) (by decide) ws h wLast⟩

example : ∃ ws, stopMany 64 (flagsNew 64 64) (List.range 63) = .ok ws ∧ enumerateActive 64 ws = .error .shiftOverflow := by
  obtain ⟨h1, h2, h3⟩ := c20_violated_at_64
  obtain ⟨ws, h, -⟩ := c20_stop_flags 64 64 (by omega) (List.range 63) h2 h3
  exact ⟨ws, h, (c20_enumeration 64 64 (by omega) (List.range 63) h2 h3 ws h).2.2 ⟨0, h1⟩⟩

/-! ## C22–C24, C73: a run that ends well, and one where the first worker is killed while the second sleeps -/

example : ∃ s : St 1 Nat, Reach 1 [7] s ∧ List.Perm s.csv [7] ∧ s.steps = 1 := by
  obtain ⟨s, h, h1, -⟩ := run_ok
  exact ⟨s, h, c24_ok_is_complete [7] s h h1⟩

example : ∃ s : St 1 Nat, Reach 1 [7] s ∧ List.Subperm s.csv [7] ∧ places s 7 = 1 := by
  obtain ⟨s, h, h1, -⟩ := run_ok
  exact ⟨s, h, (c24_rows_always_valid [7] s h).1, c23_exactly_one_place [7] (by decide) s h 7 (by decide)⟩

example : ∃ s : St 1 Nat, s.main = .finished .ok ∧ ((s.ws 0).isAsleep = false ∧ (s.ws 0 = .done ∨ ∃ s', WStep 0 s s')) := by
  obtain ⟨s, h, h1, -⟩ := run_ok
  exact ⟨s, h1, c22_no_sleeper_after_close [7] s h _ h1 0⟩

theorem wKilled_open {s : St 2 Nat} (h : s.main = .pushWake) : s.main.open? := by rw [h]; trivial

/-- The main thread is about to wake up a worker: the other one is asleep. -/
example : ∃ s : St 2 Nat, Reach 2 [7] s ∧ s.global ≠ [] ∧ ((∃ w, (s.ws w).covers s.futex) ∨ mainWillSignal s) ∧
    places s 7 = 1 ∧ (mainReady s ∨ ∃ w, workerReady s w) := by
  obtain ⟨s, h, h1, h2, -⟩ := run_killed
  have hg : s.global ≠ [] := by rw [h2]; simp
  exact ⟨s, h, hg, c22_work_is_noticed (by omega) (by omega) [7] s h (wKilled_open h1) hg,
    c23_jobs_conserved [7] s h 7, c22_no_deadlock (by omega) (by omega) [7] s h (by rw [h1]; intro r; simp)⟩

example : ∃ s : St 2 Nat, ∃ k m, Exec [7] k m s ∧
    (Ended s ∨ (∃ w s', WStep w s s' ∧ ¬ Delay w s s') ∨ (mainReady s ∧ ∃ s', MStep s s' ∧ s'.main ≠ .closing .panicked)) ∧
    ∃ t, Goes s t ∧ Ended t := by
  obtain ⟨s, h, -⟩ := run_killed
  obtain ⟨k, m, he⟩ := reach_exec [7] s h
  exact ⟨s, k, m, he, c73_not_stuck (by omega) (by omega) [7] k m s he, c73_can_end (by omega) (by omega) [7] k m s he⟩

/-- A worker that has not noticed the signal of the start. -/
example : ∃ s s' : St 2 Nat, Reach 2 [7] s ∧ WStep 0 s s' ∧ workerReady s 0 ∧ (∃ t, WStep 0 s t) ∧
    ((s'.ws 0).covers s'.futex ∨ (∃ m ∈ s'.chan, m.isKilled = true ∨ m.isErr = true) ∨ s'.global = []) := by
  have r0 : Reach 2 [7] (initSt 2 [7]) := .init
  have r1 := Reach.main _ _ r0 (.start _ rfl)
  have r2 := Reach.main _ _ r1 (.startWake _ rfl)
  have key := fun s' => c22_covering_worker_does_not_sleep (by omega) [7] _ s' r2 0 (by trivial)
    (by simp [initSt, wake, WSt.covers, FUTEX_INITIAL])
  obtain ⟨s', st⟩ := c22_ready_worker_steps [7] _ r2 0 (key (initSt 2 [7])).1
  exact ⟨_, s', r2, st, (key s').1, ⟨s', st⟩, (key s').2 st⟩

/-! ## C25: three workers, 64-bit words -/

theorem wGood : Good 64 1 3 [] 100000000 (flagsNew 64 3) 400000000 := ⟨by simp, by simp, rfl, rfl⟩

example := c25_oom 64 1 3 250000000 (by omega) (fun _ i => i) _ _ _ _ wGood (by decide)
example := c25_threshold 64 1 3 (by omega) 1000000000 300000000 _ _ _ _ wGood (by decide)
example := c25_every_update 64 1 3 (by omega) (by omega) _ _ (.new 900000000) 250000000 (fun _ i => i)
example := c25_every_update_below_word 64 1 3 (by omega) (by omega) (by omega) _ _ (.new 900000000) 250000000 (fun _ i => i)
/-- Two workers must be stopped at 250 MB with 100 MB per thread, and two are. -/
example : ∃ r, handleOom 64 1 250000000 (fun _ i => i) (flagsNew 64 3) 400000000 = .ok r ∧ r.victims.length ≤ 2 := by
  obtain ⟨r, h1, h2⟩ := c25_oom_below_word 64 1 3 250000000 (by omega) (by omega) (fun _ i => i) _ _ _ _ wGood (by decide)
  exact ⟨r, h1, c25_least_number 64 1 3 250000000 _ _ _ r h2 2 (by decide)⟩
/-- 64 workers of which only the last is active, and memory gets short. -/
example : ∃ words, stopMany 64 (flagsNew 64 64) (List.range 63) = .ok words ∧
    handleOom 64 1 150000000 (fun _ i => i) words 200000000 = .error .shiftOverflow := by
  obtain ⟨h1, h2, h3⟩ := c20_violated_at_64
  obtain ⟨ws, h, -⟩ := c20_stop_flags 64 64 (by omega) (List.range 63) h2 h3
  exact ⟨ws, h, c25_violated 64 1 64 150000000 (by omega) _ 100000000 _ _ _ ⟨h2, h3, h, by simp⟩ ⟨0, h1⟩ (by omega)⟩

/-! ## C26, C71: a shell (10) that started a compiler driver (11), which started two processes -/

theorem no_parent_cycle {t : List Proc} {r p : Nat} (h1 : ∀ q ∈ t, q.pid = r → q.parent = some p) (h2 : ∀ q ∈ t, q.pid ≠ p)
    (h3 : r ≠ p) : ¬ Relation.TransGen (IsChild t) r r := by
  intro h
  obtain ⟨b, hb, q, hq, e1, e2⟩ := Relation.TransGen.tail'_iff.1 h
  rw [h1 q hq e1] at e2
  obtain rfl : b = p := (Option.some.inj e2).symm
  rcases Relation.ReflTransGen.cases_tail hb with e | ⟨y, -, q', hq', e3, -⟩
  · exact h3 e.symm
  · exact h2 q' hq' e3

theorem wTree : ¬ Relation.TransGen (IsChild sampleTable) 10 10 := no_parent_cycle (p := 1) (by decide) (by decide) (by decide)

example := c26_refresh sampleTable (by decide) 10 wTree [10, 99]
example := c26_memory_kill sampleTable (by decide) 10 wTree [99] 6 [10, 11, 12, 13] (by decide) (fun p => p != 12)
example := c26_root_stable 10 [(sampleTable, 6), ([], 1), (sampleTable, 7)] [10, 11, 12, 13] (by decide)
/-- A process that is its own grandparent. -/
example := c26_cycle_diverges [⟨10, some 11, 1⟩, ⟨11, some 10, 1⟩] 10
  (.head (b := 11) ⟨⟨11, some 10, 1⟩, by simp, rfl, rfl⟩ (.single ⟨⟨10, some 11, 1⟩, by simp, rfl, rfl⟩)) [] 1000

namespace Job

theorem wSane (b : Bool) : Sane 10 (.timeout sampleTable b) := ⟨by decide, wTree⟩
theorem wSaneFirst (b : Bool) : Sane 10 (.timeout firstTable b) :=
  ⟨by decide, no_parent_cycle (p := 1) (by decide) (by decide) (by decide)⟩

example := (c71_success sampleEnv 10
  [.timeout firstTable false, .timeout sampleTable false, .timeout firstTable false, .exited true] rfl rfl rfl
  (by
    intro p hp
    simp only [List.mem_cons, List.not_mem_nil, or_false] at hp
    rcases hp with rfl | rfl | rfl | rfl
    · exact wSaneFirst _
    · exact wSane _
    · exact wSaneFirst _
    · trivial) ⟨185, some 42⟩ []).1 (by decide)

example := c71_killed sampleEnv 10 [.timeout sampleTable false, .timeout sampleTable true] rfl rfl rfl
  (by
    intro p hp
    simp only [List.mem_cons, List.not_mem_nil, or_false] at hp
    rcases hp with rfl | rfl
    · exact wSane _
    · exact wSane _) [10, 11, 12, 13] (by decide)

example := c71_killed_conv sampleEnv 10 [firstTable] sampleTable [.exited true] rfl rfl rfl
  (by
    intro p hp
    simp only [List.map_cons, List.map_nil, List.cons_append, List.nil_append, List.mem_cons, List.not_mem_nil, or_false] at hp
    rcases hp with rfl | rfl | rfl
    · exact wSaneFirst _
    · exact wSane _
    · trivial)

theorem wTables : ∀ t ∈ [firstTable, sampleTable], Sane 10 (.timeout t false) := by
  intro t ht
  simp only [List.mem_cons, List.not_mem_nil, or_false] at ht
  rcases ht with rfl | rfl
  · exact wSaneFirst _
  · exact wSane _

example := c71_running sampleEnv 10 [firstTable, sampleTable] rfl rfl rfl wTables
example := c71_not_utf8_panics { sampleEnv with stderr := none } 10 [firstTable, sampleTable] true [] rfl rfl rfl wTables (.inr rfl)

end Job

namespace Poll

theorem wRun : Run Binary64.rnd ⟨0, 50⟩ 0 [(.event, 1000000), (.timeout, 150000000)] ⟨100000000, 50⟩ 150000000 :=
  .cons (by decide) (.event 1000000 (by decide) (by decide))
    (.cons (by decide +kernel) (.timeout 150000000 (by decide +kernel)) (.nil _ _))

theorem wRun2 : Run Binary64.rnd ⟨0, 50⟩ 0 [(.timeout, 50000000), (.timeout, 120000000)] ⟨100000000, 50⟩ 120000000 :=
  .cons (by decide) (.timeout 50000000 (by decide +kernel))
    (.cons (by decide +kernel) (.timeout 120000000 (by decide +kernel)) (.nil _ _))

example := c66_deadline_not_past rounding_binary64 ⟨0, 50⟩ 100000000 (by decide)
example : 2 * (50 * MS) ≤ 150000000 := by
  have := c66_results_postpone_supervision rounding_binary64 wRun 1 (by decide) rfl
  simpa using this
example := c66_worker_polls_regularly rounding_binary64 wRun2 (by decide) (by decide) (by decide)
example : ∃ s' : Threads 2, TReach Binary64.rnd two s' ∧ s'.interval = 1100 ∧ two.interval ≤ s'.interval := by
  obtain ⟨a, b, h1, -, h3, -⟩ := c66_interval_shrinks_violated
  exact ⟨a, h1, h3, c66_interval_at_least_initial rounding_binary64 (fun _ => rfl) h1⟩

end Poll

namespace Job
example : ∃ s s', PipeReach 3 [(.out, 3)] s ∧ PipeStep 3 s s' ∧ left s' ≤ left s := by
  obtain h | ⟨s', st, -⟩ := c72_small_output_progress 3 [(.out, 3)] (by intro p; cases p <;> decide) _ .start
  · cases h
  · exact ⟨_, s', .start, st, c72_left_decreases 3 _ s' st⟩
end Job

namespace Weak

/-- Two workers sleep, a job is pushed and one of them is woken up. -/
theorem wSleep : ∃ s : St 2, Reach .sync .sync 0 s ∧ s.pushed = 1 ∧ s.main = .idle ∧ Asleep (s.ws 1) ∧ waiting s = 1 := by
  have h0 : Reach .sync .sync 0 (initial 2 0) := .init
  have h1 := Reach.step _ _ h0 (.start _ rfl)
  have h2 := Reach.step _ _ h1 (.startWake _ rfl)
  have h3 := Reach.step _ _ h2 (.loadNew _ 0 1 2 _ rfl
    (Load.mk 1 ⟨2, View.bump (fun _ => 0) .futex 1⟩ rfl (by decide)) (by decide))
  have h4 := Reach.step _ _ h3 (.empty _ 0 2 0 _ rfl (Load.mk 0 ⟨0, fun _ => 0⟩ rfl (by decide)) (fun j hj => absurd hj (Nat.not_lt_zero j)))
  have h5 := Reach.step _ _ h4 (.loadSame _ 0 2 _ rfl (Load.mk 1 ⟨2, View.bump (fun _ => 0) .futex 1⟩ rfl (by decide)))
  have h6 := Reach.step _ _ h5 (.sleep _ 0 2 rfl rfl)
  have h7 := Reach.step _ _ h6 (.loadNew _ 1 1 2 _ rfl
    (Load.mk 1 ⟨2, View.bump (fun _ => 0) .futex 1⟩ rfl (by decide)) (by decide))
  have h8 := Reach.step _ _ h7 (.empty _ 1 2 0 _ rfl (Load.mk 0 ⟨0, fun _ => 0⟩ rfl (by decide)) (fun j hj => absurd hj (Nat.not_lt_zero j)))
  have h9 := Reach.step _ _ h8 (.loadSame _ 1 2 _ rfl (Load.mk 1 ⟨2, View.bump (fun _ => 0) .futex 1⟩ rfl (by decide)))
  have h10 := Reach.step _ _ h9 (.sleep _ 1 2 rfl rfl)
  have h11 := Reach.step _ _ h10 (.push _ rfl)
  have h12 := Reach.step _ _ h11 (.pushStore _ 3 rfl rfl)
  have h13 := Reach.step _ _ h12 (.pushWake _ 0 rfl ⟨2, rfl⟩)
  exact ⟨_, h13, rfl, rfl, ⟨2, rfl⟩, rfl⟩

example : ∃ s : St 2, s.pushed = 1 ∧ Asleep (s.ws 1) ∧ waiting s ≤ lookers s := by
  obtain ⟨s, h, h1, h2, h3, -⟩ := wSleep
  exact ⟨s, h1, h3, c80_enough_awake h (by omega) h2 1 h3⟩

/-- The job is pushed and the worker does it, then leaves. -/
theorem wEnd : ∃ s : St 1, Reach .sync .sync 0 s ∧ s.pushed = 1 ∧ s.main = .over ∧ s.ws 0 = .left true := by
  have h0 : Reach .sync .sync 0 (initial 1 0) := .init
  have h1 := Reach.step _ _ h0 (.start _ rfl)
  have h2 := Reach.step _ _ h1 (.startWake _ rfl)
  have h3 := Reach.step _ _ h2 (.push _ rfl)
  have h4 := Reach.step _ _ h3 (.pushStore _ 3 rfl rfl)
  have h5 := Reach.step _ _ h4 (.pushWakeNone _ rfl (fun w => by
    have : w = 0 := Subsingleton.elim _ _
    subst this
    rintro ⟨l, hl⟩
    cases hl))
  have h6 := Reach.step _ _ h5 (.close _ (.inl rfl))
  have h7 := Reach.step _ _ h6 (.closeWake _ rfl)
  have h8 := Reach.step _ _ h7 (.loadNew _ 0 1 0 _ rfl (Load.mk 3
    ⟨0, ((((View.bump (fun _ => 0) .futex 1).bump .tail 1).bump .futex 2).bump .futex 3)⟩ rfl (by decide)) (by decide))
  have h9 := Reach.step _ _ h8 (.take _ 0 0 0 rfl (by decide) rfl)
  have h10 := Reach.step _ _ h9 (.again _ 0 0 rfl)
  have h11 := Reach.step _ _ h10 (.empty _ 0 0 1 _ rfl (Load.mk 1 ⟨1, View.bump (fun _ => 0) .tail 1⟩ rfl (by decide)) (fun j hj => by
    have : j = 0 := by omega
    subst this; rfl))
  exact ⟨_, h11, rfl, rfl, rfl⟩

example : ∃ s : St 1, s.pushed = 1 ∧ s.taken 0 = true := by
  obtain ⟨s, h, h1, h2, h3⟩ := wEnd
  exact ⟨s, h1, ((c80_end h (by omega)).1 0 h3).2 0 (by omega)⟩

/-- A worker which is about to sleep after the last signal. -/
example : ∃ s : St 1, s.ws 0 = .waitSleep 2 ∧
    ∀ j < s.pushed, s.taken j = true ∨ (s.main = .pushStore ∧ j + 1 = s.pushed) := by
  have h0 : Reach .sync .sync 0 (initial 1 0) := .init
  have h1 := Reach.step _ _ h0 (.start _ rfl)
  have h2 := Reach.step _ _ h1 (.startWake _ rfl)
  have h3 := Reach.step _ _ h2 (.loadNew _ 0 1 2 _ rfl
    (Load.mk 1 ⟨2, View.bump (fun _ => 0) .futex 1⟩ rfl (by decide)) (by decide))
  have h4 := Reach.step _ _ h3 (.empty _ 0 2 0 _ rfl (Load.mk 0 ⟨0, fun _ => 0⟩ rfl (by decide)) (fun j hj => absurd hj (Nat.not_lt_zero j)))
  have h5 := Reach.step _ _ h4 (.loadSame _ 0 2 _ rfl (Load.mk 1 ⟨2, View.bump (fun _ => 0) .futex 1⟩ rfl (by decide)))
  have h6 := Reach.step _ _ h5 (.push _ rfl)
  exact ⟨_, rfl, c80_sleep (w := 0) (l := 2) h6 (by decide) (.inr (.inl rfl)) rfl rfl⟩

example := c80_orderings .relaxed .sync (by decide)
example := c80_orderings .sync .relaxed (by decide)

end Weak

namespace WeakStop
open Verif.Measure.Weak (Load View)

theorem wRun : ∃ s : SSt 65, Run code 64 (sinit 64 65)
    [.write 0 5, .stop 64, .stopAll, .stopWord, .mustStop 64 true, .mustStop 3 false, .read 64 0 1] s ∧ s.stopping ≠ none := by
  have h1 := Run.snoc _ _ _ _ _ (.nil (o := code) (W := 64) (sinit 64 65)) (.write _ 0 5)
  have h2 := Run.snoc _ _ _ _ _ h1 (.stop _ 64 1 _ rfl (Load.mk 0 ⟨1, fun _ => 0⟩ rfl (by decide)) (by decide))
  have h3 := Run.snoc _ _ _ _ _ h2 (.stopAll _ rfl)
  have h4 := Run.snoc _ _ _ _ _ h3 (.stopWord _ 0 rfl (by decide +kernel))
  have h5 := Run.snoc _ _ _ _ _ h4 (.mustStop _ 64 0 _ (Load.mk 1 ⟨0, View.bump (View.bump (View.bump (fun _ => 0) (.data 0) 1)
    (.word 1) 0) (.word 1) 1⟩ rfl (by decide)))
  have h6 := Run.snoc _ _ _ _ _ h5 (.mustStop _ 3 (2 ^ 64 - 1) _ (Load.mk 0 ⟨2 ^ 64 - 1, fun _ => 0⟩ rfl (by decide)))
  have h7 := Run.snoc _ _ _ _ _ h6 (.read _ 64 0 1 ⟨5, View.bump (fun _ => 0) (.data 0) 1⟩ rfl (by decide))
  exact ⟨_, h7, by decide⟩

/-- The main thread writes, stops worker 64, which is told so twice and reads what was written before. -/
theorem wStop : ∃ s : SSt 65, Run code 64 (sinit 64 65)
    [.write 0 5, .stop 64, .hear 64, .mustStop 64 true, .mustStop 64 true, .read 64 0 1] s ∧ s.stopping = none := by
  have h1 := Run.snoc _ _ _ _ _ (.nil (o := code) (W := 64) (sinit 64 65)) (.write _ 0 5)
  have h2 := Run.snoc _ _ _ _ _ h1 (.stop _ 64 1 _ rfl (Load.mk 0 ⟨1, fun _ => 0⟩ rfl (by decide)) (by decide))
  have h3 := Run.snoc _ _ _ _ _ h2 (.hear _ 64)
  have h4 := Run.snoc _ _ _ _ _ h3 (.mustStop _ 64 0 _ (Load.mk 1 ⟨0, View.bump (View.bump (View.bump (fun _ => 0) (.data 0) 1)
    (.word 1) 0) (.word 1) 1⟩ rfl (by decide)))
  have h5 := Run.snoc _ _ _ _ _ h4 (.mustStop _ 64 0 _ (Load.mk 1 ⟨0, View.bump (View.bump (View.bump (fun _ => 0) (.data 0) 1)
    (.word 1) 0) (.word 1) 1⟩ rfl (by decide)))
  have h6 := Run.snoc _ _ _ _ _ h5 (.read _ 64 0 1 ⟨5, View.bump (fun _ => 0) (.data 0) 1⟩ rfl (by decide))
  exact ⟨_, h6, rfl⟩

theorem wPrefix {n W : Nat} {o : Orders} {s s' : SSt n} {as bs : List (Act n)} (h : Run o W s (as ++ bs) s') :
    ∃ t, Run o W s as t := by
  induction bs using List.reverseRecOn generalizing s' with
  | nil => exact ⟨s', by simpa using h⟩
  | append_singleton bs b ih =>
    rw [← List.append_assoc] at h
    generalize e : as ++ bs ++ [b] = l at h
    cases h with
    | nil => simp at e
    | snoc s1 _ cs a h1 h2 =>
      obtain ⟨e1, e2⟩ := List.append_inj' e rfl
      rw [← e1] at h1
      exact ih h1

example : Asked (n := 65) 64 [.write 0 5, .stop 64, .hear 64] := by
  obtain ⟨s, h, -⟩ := wStop
  obtain ⟨t, ht⟩ := wPrefix (as := [.write 0 5, .stop 64, .hear 64] ++ [.mustStop 64 true]) (bs := [.mustStop 64 true, .read 64 0 1]) h
  exact c81_only_asked code (by omega) ht

example : True := by
  obtain ⟨s, h, -⟩ := wStop
  obtain ⟨t, ht⟩ := wPrefix (as := [.write 0 5, .stop 64, .hear 64] ++ .mustStop 64 true :: [] ++ [.mustStop 64 true]) (bs := [.read 64 0 1]) h
  have := c81_latched code (by omega) ht
  obtain ⟨t, ht⟩ := wPrefix (as := [.write 0 5, .stop 64] ++ .hear 64 :: [.mustStop 64 true] ++ [.mustStop 64 true]) (bs := [.read 64 0 1]) h
  have := c81_obeyed code (by omega) ht (.inl (by simp))
  trivial

/-- Worker 64 cannot be stopped twice; worker 3 can be stopped. -/
example : ∃ s : SSt 65, (¬ ∃ s', SStep code 64 s (.stop 64) s') ∧ ∃ s', SStep code 64 s (.stop 3) s' := by
  obtain ⟨s, h, hs⟩ := wStop
  exact ⟨s, fun hx => (c81_stop_iff code (by omega) (w := 64) h hs).1 hx (.inl (by simp)),
    (c81_stop_iff code (by omega) (w := 3) h hs).2 (by unfold Asked; simp)⟩

example : writes (n := 65) 0 [.write 0 5] ≤ 1 := by
  obtain ⟨s, h, -⟩ := wStop
  exact c81_visible (by omega) (as := [.write 0 5]) (a := .stop 64) (bs := [.hear 64, .mustStop 64 true]) (cs := []) h
    (.inl rfl) (by unfold Asked; simp)

example := c81_orderings ⟨.relaxed, .sync, .sync⟩ (by simp [code])
example := c81_orderings ⟨.sync, .relaxed, .sync⟩ (by simp [code])
example := c81_orderings ⟨.sync, .sync, .relaxed⟩ (by simp [code])

end WeakStop

namespace Youngest

/-- The situation of `c85_idle_victim`: worker 0 is busy, worker 1, which has no job, is stopped. -/
example : ∃ es, polls 1 es ≤ polls 0 es := by
  obtain ⟨es, s, h1, -, -, -, hm, m', hr⟩ := c85_idle_victim 5
  have := (c85_victims (by omega) (by omega) hm ⟨s, h1⟩ (fun _ _ => es.length) (m' := m') (r := ⟨[1], [1], 200000000, .running⟩)
    (by simpa using hr) (k := 0) (v := 1) rfl (j := 0) (by omega) (by simp)).1
  exact ⟨es, by simpa using this⟩

/-- Worker 1 never had a job. -/
example : polls 1 [(0, Act.start false), (0, .poll false)] = 0 := by
  have := c85_jobless_first (W := 64) (bkg := 1) (len := 2) (by omega) (by omega) (.new 400000000)
    (es := [(0, .start false), (0, .poll false)]) ⟨_, rfl⟩ (fun _ _ => 2) (avail := 250000000)
    (m' := ⟨[1], 200000000, 250000000⟩) (r := ⟨[1], [1], 200000000, .running⟩)
    (by decide +kernel) (k := 0) (v := 1) rfl (j := 1) (by omega) (by simp) (by simp)
  exact this

end Youngest
end Verif.Measure
