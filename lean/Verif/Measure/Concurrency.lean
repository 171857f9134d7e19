import Verif.Measure.Protocol

/-!
# Property C91: how many compilers run at once

The number of worker threads (cmakeperf/src/measure/main.rs:160-177) and what it implies on every execution of the
protocol: never more compilers at once than configured, never twice the same command at once, and one after the other if
times are measured, so that they do not disturb one another's timing.
-/

set_option autoImplicit false
set_option linter.unusedSectionVars false
set_option linter.unusedVariables false
set_option linter.unusedSimpArgs false

namespace Verif.Measure

open Function (update)

/-- `concurrency` and `available_parallelism` (main.rs:160-177): `requested` is the number asked for by the user and
`cpus` the number of CPU threads if the system tells it. -/
def concurrency (measureTime : Bool) (requested cpus : Option Nat) : Nat :=
  requested.getD (if measureTime then 1 else cpus.getD 4)

variable {n : Nat} {J : Type}

/-- Commands whose compiler is running. -/
def compiling (s : St n J) : List J :=
  (List.finRange n).filterMap fun w => match s.ws w with
    | .running _ j => some j
    | _ => none

/-- **C91** the number of workers is the one asked for; by default it is one when times are measured, else the number of
CPU threads, else four. There is always at least one. -/
theorem c91_number (measureTime : Bool) (cpus : Option Nat) (hc : ∀ k, cpus = some k → 0 < k) :
    (∀ k, concurrency measureTime (some k) cpus = k) ∧
    concurrency true none cpus = 1 ∧
    (∀ k, concurrency false none (some k) = k) ∧ concurrency false none none = 4 ∧
    ∀ requested, (∀ k, requested = some k → 0 < k) → 0 < concurrency measureTime requested cpus := by
  refine ⟨fun _ => rfl, rfl, fun _ => rfl, rfl, fun r hr => ?_⟩
  unfold concurrency
  cases r with
  | some k => exact hr k rfl
  | none =>
    cases measureTime with
    | true => exact Nat.one_pos
    | false =>
      cases cpus with
      | some k => exact hc k rfl
      | none => decide

variable [DecidableEq J]

theorem count_compiling (s : St n J) (a : J) : (compiling s).count a ≤ ∑ w, (s.ws w).held.count a := by
  have key : ∀ l : List (Fin n), (l.filterMap fun w => match s.ws w with
      | .running _ j => some j
      | _ => none).count a ≤ (l.map fun w => (s.ws w).held.count a).sum := by
    intro l
    induction l with
    | nil => simp
    | cons w l ih =>
      rw [List.map_cons, List.sum_cons]
      cases hw : s.ws w with
      | running k j =>
        rw [List.filterMap_cons_some (b := j) (by rw [hw])]
        rw [List.count_cons, held_running, List.count_cons, List.count_nil]
        omega
      | _ =>
        rw [List.filterMap_cons_none (by rw [hw])]
        omega
  have := key (List.finRange n)
  rwa [← List.ofFn_eq_map, List.sum_ofFn] at this

/-- **C91** in every state of every execution, there are at most as many compilers as workers, they run commands of the
database which are not done, and no command is run by two workers at once. -/
theorem c91_bounded (jobs : List J) (hnd : jobs.Nodup) (s : St n J) (h : Reach n jobs s) :
    (compiling s).length ≤ n ∧ (compiling s).Nodup ∧ ∀ j ∈ compiling s, j ∈ jobs ∧ j ∉ s.csv ∧ j ∉ s.failed := by
  refine ⟨?_, ?_, ?_⟩
  · have := List.length_filterMap_le (fun w => match s.ws w with
      | .running _ j => some j
      | _ => none) (List.finRange n)
    rwa [List.length_finRange] at this
  · rw [List.nodup_iff_count_le_one]
    intro a
    have h1 := count_compiling s a
    have h2 := c23_jobs_conserved jobs s h a
    have h3 := List.nodup_iff_count_le_one.1 hnd a
    unfold places at h2
    omega
  · intro j hj
    have h0 : 0 < (compiling s).count j := List.count_pos_iff.2 hj
    have h1 := count_compiling s j
    have h2 := c23_jobs_conserved jobs s h j
    have h3 := List.nodup_iff_count_le_one.1 hnd j
    unfold places at h2
    refine ⟨List.count_pos_iff.1 (by omega), fun hc => ?_, fun hc => ?_⟩
    · have := List.count_pos_iff.2 hc; omega
    · have := List.count_pos_iff.2 hc; omega

/-- One step of any thread. -/
def Step (s s' : St n J) : Prop := (∃ w, WStep w s s') ∨ MStep s s'

omit [DecidableEq J] in
/-- **C91** if times are measured and the user does not ask for several workers, compilers run one after the other: while
one is running, no step of any thread starts another one. -/
theorem c91_timed_alone (cpus : Option Nat) (jobs : List J) (s s' : St (concurrency true none cpus) J)
    (h : Reach _ jobs s) (hs : Step s s') :
    (compiling s).length ≤ 1 ∧
    ∀ j, compiling s = [j] → compiling s' = [j] ∨ compiling s' = [] := by
  have hl : ∀ s : St (concurrency true none cpus) J, (compiling s).length ≤ 1 := by
    intro s
    have := List.length_filterMap_le (fun w => match s.ws w with
      | .running _ j => some j
      | _ => none) (List.finRange (concurrency true none cpus))
    rwa [List.length_finRange] at this
  refine ⟨hl s, fun j hj => ?_⟩
  have hw0 : ∀ w w' : Fin (concurrency true none cpus), w = w' := by
    intro w w'
    have : concurrency true none cpus = 1 := rfl
    ext; omega
  obtain ⟨w, hw⟩ : ∃ w l, s.ws w = .running l j := by
    have hm : j ∈ compiling s := by rw [hj]; simp
    obtain ⟨w, -, hw⟩ := List.mem_filterMap.1 hm
    refine ⟨w, ?_⟩
    split at hw
    · rename_i l j' h'; cases hw; exact ⟨l, h'⟩
    · cases hw
  obtain ⟨l, hw⟩ := hw
  -- what a worker becomes
  have hnext : (∃ l', s'.ws w = .running l' j) ∨ (∀ l' j', s'.ws w ≠ .running l' j') := by
    rcases hs with ⟨v, hs⟩ | hs
    · obtain rfl := hw0 v w
      cases hs <;> simp_all
    · have hk : wake (s.ws w) = .running l j := by rw [hw]; rfl
      cases hs <;> first
        | exact .inl ⟨l, hw⟩
        | exact .inl ⟨l, hk⟩
        | skip
      all_goals
        rename_i v _ _
        obtain rfl := hw0 v w
        simp_all [WSt.isAsleep]
  have hsub : ∀ j' ∈ compiling s', ∃ l', s'.ws w = .running l' j' := by
    intro j' hm
    obtain ⟨v, -, hv⟩ := List.mem_filterMap.1 hm
    obtain rfl := hw0 v w
    split at hv
    · rename_i l j' h'; cases hv; exact ⟨l, h'⟩
    · cases hv
  cases hc : compiling s' with
  | nil => exact .inr rfl
  | cons x r =>
    have hr : r = [] := by
      have := hl s'
      rw [hc] at this
      cases r with
      | nil => rfl
      | cons => simp at this
    obtain ⟨l1, h1⟩ := hsub x (by rw [hc]; simp)
    rcases hnext with ⟨l2, h2⟩ | h2
    · rw [h1] at h2; cases h2; rw [hr]; exact .inl rfl
    · exact absurd h1 (h2 _ _)

/-! ## Witnesses -/

/-- A single worker that has just started its first compiler. -/
theorem ex_reach : ∃ s : St (concurrency true none (some 16)) Nat, Reach _ [7, 8] s ∧ compiling s = [7] ∧
    ∃ s', Step s s' ∧ compiling s' = [] := by
  have h0 : Reach 1 [7, 8] (initSt 1 [7, 8]) := .init
  have h1 := Reach.main _ _ h0 (.start _ rfl)
  have h2 := Reach.main _ _ h1 (.startWake _ rfl)
  have h3 := Reach.worker _ _ 0 h2 (.loadNew _ _ rfl (by decide))
  have h4 := Reach.worker _ _ 0 h3 (.popNone _ _ rfl rfl)
  have h5 := Reach.worker _ _ 0 h4 (.stealEmpty _ _ 0 _ rfl rfl)
  have h6 := Reach.worker _ _ 0 h5 (.stealEnd _ _ _ rfl)
  have h7 := Reach.worker _ _ 0 h6 (.globalOk _ _ _ _ _ rfl rfl)
  have h8 := Reach.worker _ _ 0 h7 (.gotStart _ _ _ rfl rfl)
  exact ⟨_, h8, rfl, _, .inl ⟨(0 : Fin 1), .runOk _ _ _ rfl⟩, rfl⟩

/-- Non-vacuity of `c91_bounded` and `c91_timed_alone`. -/
example : ∃ s : St (concurrency true none (some 16)) Nat, compiling s = [7] ∧ (compiling s).Nodup ∧
    ∃ s', Step s s' ∧ (compiling s' = [7] ∨ compiling s' = []) := by
  obtain ⟨s, h, hc, s', hs, -⟩ := ex_reach
  exact ⟨s, hc, (c91_bounded [7, 8] (by decide) s h).2.1, s', hs, (c91_timed_alone (some 16) [7, 8] s s' h hs).2 7 hc⟩

example : concurrency true none (some 16) = 1 ∧ concurrency true (some 8) (some 16) = 8 ∧ 0 < concurrency false none (some 16) :=
  ⟨(c91_number true (some 16) (by simp)).2.1, (c91_number true (some 16) (by simp)).1 8,
    (c91_number false (some 16) (by simp)).2.2.2.2 none (by simp)⟩

end Verif.Measure
