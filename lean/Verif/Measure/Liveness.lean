/-
C22: no lost wake-up and no deadlock in the measurement protocol (model: `Verif.Measure.Protocol`).
-/
import Mathlib.Algebra.Order.BigOperators.Group.Finset
import Verif.Measure.Protocol

set_option autoImplicit false
set_option linter.unusedVariables false
set_option linter.unusedSimpArgs false
set_option linter.unusedSectionVars false
set_option linter.unusedTactic false
set_option linter.unnecessarySeqFocus false
set_option linter.unreachableTactic false

namespace Verif.Measure

open Function (update)

variable {n : Nat} {J : Type}

/-! ## Specification vocabulary -/

/-- The thread has left its loop. -/
def WSt.isDone : WSt J → Bool
  | .done => true
  | _ => false

/-- Is this message a killed job? -/
def Msg.isKilled : Msg J → Bool
  | .killed _ => true
  | _ => false

/-- Is this message a failure? -/
def Msg.isErr : Msg J → Bool
  | .err _ => true
  | _ => false

/-- The futex value the worker last saw satisfies `P` (vacuous for a finished thread). -/
def WSt.lastOk (P : Nat → Prop) : WSt J → Prop
  | .waitLoad l => P l
  | .waitSleep l => P l
  | .asleep l => P l
  | .popLocal l => P l
  | .steal l _ _ => P l
  | .stealGlobal l _ => P l
  | .got l _ => P l
  | .running l _ => P l
  | .done => True

/-- Without any further signal, this worker will look into the global queue before it goes to sleep. -/
def WSt.covers (futex : Nat) : WSt J → Prop
  | .waitLoad l => l ≠ futex
  | .waitSleep l => l ≠ futex
  | .asleep _ => False
  | .done => False
  | _ => True

/-! ## Invariants -/

/-- The worker-local queues are never filled: all jobs go through the global injector, from which they are stolen one
by one. -/
theorem locals_empty (jobs : List J) (s : St n J) (h : Reach n jobs s) : ∀ w, s.locals w = [] := by
  induction h with
  | init => intro w; rfl
  | worker s s' w _ hst ih =>
    cases hst with
    | popSome l j r h1 h2 => rw [ih w] at h2; cases h2
    | stealSelf l b j r h1 h2 => rw [ih w] at h2; cases h2
    | stealOk l i b j ts rest h1 h2 h3 => rw [ih i] at h3; cases h3
    | _ => exact ih
  | main s s' _ hst ih => cases hst <;> exact ih

/-- A worker waiting for a signal never waits for the end signal itself, and the futex says "finished" once the main
thread has closed the queue. -/
def WaitInv (s : St n J) : Prop :=
  (∀ w, ∀ l, (s.ws w = .waitLoad l ∨ s.ws w = .waitSleep l ∨ s.ws w = .asleep l) → l ≠ FUTEX_FINISHED) ∧
  (∀ r, s.main = .closeWake r ∨ s.main = .finished r → s.futex = FUTEX_FINISHED) ∧
  (∀ r, s.main = .finished r → ∀ w, (s.ws w).isAsleep = false)

theorem waitInv (jobs : List J) (s : St n J) (h : Reach n jobs s) : WaitInv s := by
  induction h with
  | init =>
    refine ⟨?_, ?_, ?_⟩
    · intro w l h
      simp [initSt, FUTEX_INITIAL] at h
      simp [FUTEX_FINISHED]; omega
    · intro r h; simp [initSt] at h
    · intro r h; simp [initSt] at h
  | worker s s' w _ hst ih =>
    obtain ⟨i1, i2, i3⟩ := ih
    refine ⟨?_, ?_, ?_⟩
    · intro v l hv
      by_cases hvw : v = w
      · subst hvw
        cases hst <;> simp only [Function.update_self, reduceCtorEq, or_false, false_or, WSt.waitLoad.injEq,
          WSt.waitSleep.injEq, WSt.asleep.injEq] at hv <;> subst hv
        · exact i1 v _ (Or.inl ‹_›)
        · exact i1 v _ (Or.inr (Or.inl ‹_›))
        · exact i1 v _ (Or.inr (Or.inl ‹_›))
        · exact i1 v _ (Or.inr (Or.inr ‹_›))
        · assumption
      · cases hst <;> simp only [Function.update_of_ne hvw] at hv <;> exact i1 v l hv
    · cases hst <;> exact i2
    · intro r hr v
      have hm : s.main = .finished r := by cases hst <;> exact hr
      have hf := i2 r (Or.inr hm)
      by_cases hvw : v = w
      · subst hvw
        cases hst <;> simp only [Function.update_self, WSt.isAsleep]
        case sleep l h1 h2 => exact absurd (h2 ▸ hf) (i1 v l (Or.inr (Or.inl h1)))
      · have := i3 r hm v
        cases hst <;> simp only [Function.update_of_ne hvw] <;> exact this
  | main s s' _ hst ih =>
    obtain ⟨i1, i2, i3⟩ := ih
    have hwake : ∀ w l, (wake (s.ws w) = .waitLoad l ∨ wake (s.ws w) = .waitSleep l ∨ wake (s.ws w) = .asleep l) →
        l ≠ FUTEX_FINISHED := by
      intro w l h
      apply i1 w l
      cases hx : s.ws w <;> rw [hx] at h <;> simp [wake] at h ⊢ <;> exact h
    cases hst with
    | startWake h1 => exact ⟨hwake, by simp, by simp⟩
    | closeWake r h1 =>
      refine ⟨hwake, ?_, ?_⟩
      · intro r' _; exact i2 r (Or.inl h1)
      · intro r' _ w
        simp only
        cases s.ws w <;> rfl
    | pushWake w h1 h2 =>
      refine ⟨?_, by simp, by simp⟩
      intro v l hv
      by_cases hvw : v = w
      · subst hvw; simp only [Function.update_self] at hv; exact hwake v l hv
      · simp only [Function.update_of_ne hvw] at hv; exact i1 v l hv
    | close r h1 => exact ⟨i1, fun _ _ => rfl, by simp⟩
    | recvOk j r h1 h2 h3 => exact ⟨i1, by simp [h1], by simp [h1]⟩
    | stop w h1 h2 h3 h4 => exact ⟨i1, by simp [h1], by simp [h1]⟩
    | _ => exact ⟨i1, by simp, by simp⟩

/-- Number of workers that have left their loop. -/
def nDone (s : St n J) : Nat := ∑ w, (s.ws w).isDone.toNat

/-- Number of killed jobs on their way back to the injector. -/
def nKilled (s : St n J) : Nat :=
  (s.chan.countP Msg.isKilled) + (match s.main with | .pushJob _ => 1 | .pushStore => 1 | _ => 0)

/-- While the main thread is in its loop: the futex does not wrap, and every worker has seen an older (or the current)
value. -/
def FutexInv (s : St n J) : Prop :=
  (s.main = .init ∧ s.futex = 1 ∧ s.chan = [] ∧
    ∀ w, s.ws w = .waitLoad 1 ∨ s.ws w = .waitSleep 1 ∨ s.ws w = .asleep 1) ∨
  (s.main ≠ .init ∧ s.main.open? ∧ 2 ≤ s.futex ∧ (∀ w, (s.ws w).lastOk (fun l => 1 ≤ l ∧ l ≤ s.futex)) ∧
    s.futex + nKilled s ≤ 2 + nDone s) ∨
  ¬ s.main.open?

theorem nDone_le (s : St n J) : nDone s ≤ n := by
  unfold nDone
  calc _ ≤ ∑ w : Fin n, 1 := Finset.sum_le_sum (fun w _ => by cases (s.ws w).isDone <;> simp)
    _ = n := by simp

theorem done_sum (f : Fin n → WSt J) (w : Fin n) (x y : WSt J) (h : f w = x) :
    (∑ v, (update f w y v).isDone.toNat) + x.isDone.toNat = (∑ v, (f v).isDone.toNat) + y.isDone.toNat := by
  have := sum_update f (fun x => x.isDone.toNat) w y
  rw [h] at this
  exact this

theorem done_wake (x : WSt J) : (wake x).isDone = x.isDone := by cases x <;> rfl
theorem lastOk_wake (P : Nat → Prop) (x : WSt J) : (wake x).lastOk P ↔ x.lastOk P := by cases x <;> rfl

theorem lastOk_update (P : Nat → Prop) (f : Fin n → WSt J) (w : Fin n) (y : WSt J) (h : ∀ v, (f v).lastOk P)
    (hy : y.lastOk P) : ∀ v, (update f w y v).lastOk P := by
  intro v
  by_cases hv : v = w
  · subst hv; rw [Function.update_self]; exact hy
  · rw [Function.update_of_ne hv]; exact h v

theorem lastOk_mono {P Q : Nat → Prop} (hPQ : ∀ l, P l → Q l) (x : WSt J) (h : x.lastOk P) : x.lastOk Q := by
  cases x <;> first | exact hPQ _ h | trivial

theorem main_of_wstep {w : Fin n} {s s' : St n J} (h : WStep w s s') : s'.main = s.main := by cases h <;> rfl
theorem futex_of_wstep {w : Fin n} {s s' : St n J} (h : WStep w s s') : s'.futex = s.futex := by cases h <;> rfl
theorem stopped_of_wstep {w : Fin n} {s s' : St n J} (h : WStep w s s') : s'.stopped = s.stopped := by
  cases h <;> rfl

/-- A worker step changes the state of that worker only. -/
theorem ws_of_wstep {w : Fin n} {s s' : St n J} (h : WStep w s s') (v : Fin n) (hv : v ≠ w) : s'.ws v = s.ws v := by
  cases h <;> exact Function.update_of_ne hv _ _

theorem lastOk_of_wstep {w : Fin n} {s s' : St n J} (P : Nat → Prop) (h : WStep w s s') (hf : P s.futex)
    (hw : ∀ v, (s.ws v).lastOk P) : ∀ v, (s'.ws v).lastOk P := by
  have h0 := hw w
  cases h <;> rename_i h1 <;> apply lastOk_update P _ _ _ hw
  all_goals first
    | exact hf
    | trivial
    | (rename_i hh; rw [hh] at h0; exact h0)
    | (rename_i hh _; rw [hh] at h0; exact h0)
    | (rename_i hh _ _; rw [hh] at h0; exact h0)
    | (rename_i hh _ _ _; rw [hh] at h0; exact h0)
    | (rw [h1] at h0; exact h0)

theorem done_killed_of_wstep {w : Fin n} {s s' : St n J} (h : WStep w s s') :
    nDone s + nKilled s' ≤ nDone s' + nKilled s := by
  have key : ∀ (x y : WSt J), s.ws w = x → x.isDone = false →
      nDone s + y.isDone.toNat = ∑ v, (update s.ws w y v).isDone.toNat := by
    intro x y hx hd
    have := done_sum s.ws w x y hx
    rw [hd] at this
    simp only [Bool.toNat_false, Nat.add_zero] at this
    unfold nDone
    omega
  cases h with
  | gotKilled l j h1 h2 | runKilled l j h1 h2 =>
    have h4 := key _ .done h1 rfl
    simp only [nDone, nKilled, List.countP_append, List.countP_cons, List.countP_nil, Msg.isKilled] at h4 ⊢
    have h5 : (WSt.done : WSt J).isDone.toNat = 1 := rfl
    rw [h5] at h4
    simp only [if_true]
    omega
  | runErr l j h1 =>
    have h4 := key _ .done h1 rfl
    simp only [nDone, nKilled, List.countP_append, List.countP_cons, List.countP_nil, Msg.isKilled] at h4 ⊢
    rw [← h4]
    simp
  | runOk l j h1 =>
    have h4 := key _ (.popLocal l) h1 rfl
    simp only [nDone, nKilled, List.countP_append, List.countP_cons, List.countP_nil, Msg.isKilled] at h4 ⊢
    rw [← h4]
    simp
  | loadSame l h1 h2 | loadNew l h1 h2 | sleep l h1 h2 | noSleep l h1 h2 | globalRetry l b h1 | popNone l h1 h2
  | stealEmpty l i b h1 h2 | stealRetry l i b h1 | stealEnd l b h1 | globalNone l h1 h2 h3 | spurious l h1
  | globalFinished l h1 h2 h3 | popSome l j r h1 h2 | stealSelf l b j r h1 h2 | stealOk l i b j ts rest h1 h2 h3
  | globalOk l b j r h1 h2 | gotStart l j h1 h2 =>
    show nDone s + nKilled s ≤ (∑ v, (update s.ws w _ v).isDone.toNat) + nKilled s
    rw [← key _ _ h1 rfl]
    omega

theorem futexInv (hn : n + 3 < 2 ^ 32) (jobs : List J) (s : St n J) (h : Reach n jobs s) : FutexInv s := by
  induction h with
  | init => exact Or.inl ⟨rfl, rfl, rfl, fun w => Or.inl rfl⟩
  | worker s s' w _ hst ih =>
    rcases ih with ⟨h1, h2, h3, h4⟩ | ⟨h1, h2, h3, h4, h5⟩ | h1
    · refine Or.inl ⟨(main_of_wstep hst).trans h1, (futex_of_wstep hst).trans h2, ?_, ?_⟩
      · have := h4 w
        cases hst <;> simp_all
      · intro v
        by_cases hv : v = w
        · subst hv
          have := h4 v
          cases hst <;> simp_all [Function.update_self]
        · rw [ws_of_wstep hst v hv]; exact h4 v
    · refine Or.inr (Or.inl ⟨?_, ?_, ?_, ?_, ?_⟩)
      · rw [main_of_wstep hst]; exact h1
      · rw [main_of_wstep hst]; exact h2
      · rw [futex_of_wstep hst]; exact h3
      · rw [futex_of_wstep hst]
        exact lastOk_of_wstep _ hst ⟨by omega, Nat.le_refl _⟩ h4
      · rw [futex_of_wstep hst]
        have := done_killed_of_wstep hst
        omega
    · exact Or.inr (Or.inr (by rw [main_of_wstep hst]; exact h1))
  | main s s' _ hst ih =>
    have hD := nDone_le s
    cases hst with
    | start h1 =>
      rcases ih with ⟨-, h2, h3, h4⟩ | ⟨h2, -⟩ | h2
      · refine Or.inr (Or.inl ⟨by simp, trivial, by simp [FUTEX_INITIAL], ?_, ?_⟩)
        · intro w
          simp only [FUTEX_INITIAL]
          rcases h4 w with h | h | h <;> rw [h] <;> simp [WSt.lastOk]
        · simp [nKilled, h3, FUTEX_INITIAL]
      · exact absurd h1 h2
      · exact absurd (by rw [h1]; trivial) h2
    | startWake h1 | pushWake w h1 h2 | pushWakeNone h1 h2 | recvKilled j r h1 _ hc | pushJob j h1 | pushStore h1
    | recvOk j r h1 _ hc | stop w h1 _ _ _ =>
      rcases ih with ⟨h2, -⟩ | ⟨h2, h3, h4, h5, h6⟩ | h2
      · rw [h1] at h2; cases h2
      · refine Or.inr (Or.inl ⟨?_, ?_, ?_, ?_, ?_⟩)
        · simp [h1]
        · first | trivial | (rw [h1]; trivial)
        · first
            | exact h4
            | (simp only [nextFutex, FUTEX_INITIAL]; split <;> omega)
        · first
            | exact h5
            | (intro w; exact (lastOk_wake _ _).2 (h5 w))
            | exact lastOk_update _ _ _ _ h5 ((lastOk_wake _ _).2 (h5 w))
            | (intro w
               apply lastOk_mono _ _ (h5 w)
               intro l hl
               simp only [nKilled, h1] at h6
               simp only [nextFutex]
               rw [if_pos (by omega)]
               omega)
        · first
            | (simp only [nKilled, h1, nDone, done_wake] at h6 ⊢; omega)
            | (simp only [nKilled, hc, nDone, List.countP_cons, Msg.isKilled, h1] at h6 ⊢; simp at h6 ⊢; omega)
            | (simp only [nKilled, h1, nDone, nextFutex] at h6 hD ⊢
               rw [if_pos (by omega)]
               omega)
            | (have h7 := done_sum s.ws w _ (wake (s.ws w)) rfl
               rw [done_wake] at h7
               simp only [nKilled, h1, nDone] at h6 ⊢; omega)
      · exact absurd (by rw [h1]; trivial) h2
    | kill h1 h2 | recvOkIo j r h1 h2 h3 | recvOkPanic j r h1 h2 h3 | recvErr j r h1 h2 h3 | stopLast w h1 h2 h3 h4
    | panic h1 | finishIo h1 h2 | finish h1 h2 | close r h1 | closeWake r h1 =>
      exact Or.inr (Or.inr (fun h => h))

/-- While the main thread is in its loop some worker is not stopped, and workers only leave their loop because they
were stopped or because of an error that is still unread. -/
def AliveInv (s : St n J) : Prop :=
  s.main.open? → (∃ w, s.stopped w = false) ∧
    ∀ w, s.ws w = .done → s.stopped w = true ∨ ∃ m ∈ s.chan, m.isErr = true

theorem aliveInv (hn : n + 3 < 2 ^ 32) (hpos : 0 < n) (jobs : List J) (s : St n J) (h : Reach n jobs s) :
    AliveInv s := by
  induction h with
  | init => intro _; exact ⟨⟨⟨0, hpos⟩, rfl⟩, by simp [initSt]⟩
  | worker s s' w hr hst ih =>
    have hfi := futexInv hn jobs s hr
    intro ho
    rw [main_of_wstep hst] at ho
    obtain ⟨i1, i2⟩ := ih ho
    refine ⟨by rw [stopped_of_wstep hst]; exact i1, ?_⟩
    intro v hv
    rw [stopped_of_wstep hst]
    have hchan : (∃ m ∈ s.chan, m.isErr = true) → ∃ m ∈ s'.chan, m.isErr = true := by
      rintro ⟨m, hm, he⟩
      refine ⟨m, ?_, he⟩
      cases hst <;> first | exact hm | exact List.mem_append_left _ hm
    by_cases hvw : v = w
    · subst hvw
      cases hst with
      | gotKilled l j h1 h2 | runKilled l j h1 h2 => exact Or.inl h2
      | runErr l j h1 => exact Or.inr ⟨.err j, by simp, rfl⟩
      | globalFinished l h1 h2 h3 =>
        rcases hfi with ⟨-, -, -, h4⟩ | ⟨-, -, -, h5, -⟩ | h4
        · rcases h4 v with h | h | h <;> rw [h1] at h <;> cases h
        · have := h5 v
          rw [h1] at this
          simp only [WSt.lastOk] at this
          simp only [FUTEX_FINISHED] at h3
          omega
        · exact absurd ho h4
      | _ => simp [Function.update_self] at hv
    · rw [ws_of_wstep hst v hvw] at hv
      exact (i2 v hv).imp id hchan
  | main s s' _ hst ih =>
    cases hst with
    | start h1 | pushStore h1 | pushJob j h1 | pushWakeNone h1 h2 =>
      intro _; exact ih (by rw [h1]; trivial)
    | startWake h1 =>
      intro _
      obtain ⟨i1, i2⟩ := ih (by rw [h1]; trivial)
      refine ⟨i1, fun w hw => i2 w ?_⟩
      simp only at hw
      cases hx : s.ws w <;> rw [hx] at hw <;> simp [wake] at hw ⊢
    | pushWake w h1 h2 =>
      intro _
      obtain ⟨i1, i2⟩ := ih (by rw [h1]; trivial)
      refine ⟨i1, fun v hv => i2 v ?_⟩
      by_cases hvw : v = w
      · subst hvw
        simp only [Function.update_self] at hv
        cases hx : s.ws v <;> rw [hx] at hv <;> simp [wake] at hv ⊢
      · simpa only [Function.update_of_ne hvw] using hv
    | recvKilled j r h1 h2 h3 | recvOk j r h1 h2 h3 =>
      intro _
      obtain ⟨i1, i2⟩ := ih (by rw [h1]; trivial)
      refine ⟨i1, fun v hv => (i2 v hv).imp id ?_⟩
      rintro ⟨m, hm, he⟩
      rw [h3] at hm
      rcases List.mem_cons.1 hm with rfl | hm
      · cases he
      · exact ⟨m, hm, he⟩
    | stop w h1 h2 h3 h4 =>
      intro _
      obtain ⟨i1, i2⟩ := ih (by rw [h1]; trivial)
      refine ⟨h4, fun v hv => (i2 v hv).imp ?_ id⟩
      intro hs
      by_cases hvw : v = w
      · subst hvw; simp
      · simpa [Function.update_of_ne hvw] using hs
    | kill h1 h2 | recvOkIo j r h1 h2 h3 | recvOkPanic j r h1 h2 h3 | recvErr j r h1 h2 h3 | stopLast w h1 h2 h3 h4
    | panic h1 | finishIo h1 h2 | finish h1 h2 | close r h1 | closeWake r h1 => intro h; exact h.elim

/-- Queued work is never forgotten. -/
def CoverInv (s : St n J) : Prop :=
  s.main.open? → s.global ≠ [] →
    (∃ w, (s.ws w).covers s.futex) ∨ (∃ m ∈ s.chan, m.isKilled = true ∨ m.isErr = true) ∨
    s.main = .init ∨ (∃ j, s.main = .pushJob j) ∨ s.main = .pushStore ∨
    ((s.main = .started ∨ s.main = .pushWake) ∧
      ∀ w, s.ws w = .done ∨ ∃ l, s.ws w = .asleep l ∧ l ≠ s.futex)

theorem covers_or (f : Nat) (x : WSt J) (h : x.lastOk (fun l => l ≠ f)) :
    x.covers f ∨ x = .done ∨ ∃ l, x = .asleep l ∧ l ≠ f := by
  cases x with
  | waitLoad l => exact Or.inl h
  | waitSleep l => exact Or.inl h
  | asleep l => exact Or.inr (Or.inr ⟨l, rfl, h⟩)
  | done => exact Or.inr (Or.inl rfl)
  | _ => exact Or.inl trivial

/-- All workers have seen an older futex value: either one of them covers, or all are asleep or done. -/
theorem cover_all (s : St n J) (h : ∀ w, (s.ws w).lastOk (fun l => l ≠ s.futex)) :
    (∃ w, (s.ws w).covers s.futex) ∨ ∀ w, s.ws w = .done ∨ ∃ l, s.ws w = .asleep l ∧ l ≠ s.futex := by
  by_cases hc : ∃ w, (s.ws w).covers s.futex
  · exact Or.inl hc
  · right
    intro w
    rcases covers_or s.futex (s.ws w) (h w) with h | h
    · exact absurd ⟨w, h⟩ hc
    · exact h

/-- One step of a worker that covers: it still covers, or it sent a message, or the queue is empty. -/
theorem covers_wstep {w : Fin n} {s s' : St n J} (hst : WStep w s s') (hl : ∀ w, s.locals w = [])
    (hlast : (s.ws w).lastOk (fun l => l ≠ FUTEX_FINISHED)) (hc : (s.ws w).covers s.futex) :
    (s'.ws w).covers s'.futex ∨ (∃ m ∈ s'.chan, m.isKilled = true ∨ m.isErr = true) ∨ s'.global = [] := by
  cases hst with
  | loadSame l h1 h2 | sleep l h1 h2 => rw [h1] at hc; exact absurd h2.symm hc
  | noSleep l h1 h2 => left; simp only [Function.update_self]; exact fun h => h2 h.symm
  | spurious l h1 => rw [h1] at hc; exact hc.elim
  | globalNone l h1 h2 h3 => exact Or.inr (Or.inr h2)
  | globalFinished l h1 h2 h3 => exact Or.inr (Or.inr h2)
  | gotKilled l j h1 h2 | runKilled l j h1 h2 => exact Or.inr (Or.inl ⟨.killed j, by simp, Or.inl rfl⟩)
  | runErr l j h1 => exact Or.inr (Or.inl ⟨.err j, by simp, Or.inr rfl⟩)
  | _ => left; simp only [Function.update_self]; trivial

theorem global_of_wstep {w : Fin n} {s s' : St n J} (hst : WStep w s s') (h : s'.global ≠ []) : s.global ≠ [] := by
  cases hst with
  | globalOk l b j r h1 h2 => rw [h2]; simp
  | _ => exact h

theorem chan_of_wstep {w : Fin n} {s s' : St n J} (hst : WStep w s s') (m : Msg J) (h : m ∈ s.chan) : m ∈ s'.chan := by
  cases hst <;> first | exact h | exact List.mem_append_left _ h

theorem covers_wake (f : Nat) (x : WSt J) (h : x.covers f) : (wake x).covers f := by
  cases x <;> first | exact h | exact h.elim

theorem coverInv (hn : n + 3 < 2 ^ 32) (hpos : 0 < n) (jobs : List J) (s : St n J) (h : Reach n jobs s) :
    CoverInv s := by
  induction h with
  | init => intro _ _; exact Or.inr (Or.inr (Or.inl rfl))
  | worker s s' w hr hst ih =>
    intro ho hg
    rw [main_of_wstep hst] at ho
    have hfi := futexInv hn jobs s hr
    rw [main_of_wstep hst]
    rcases ih ho (global_of_wstep hst hg) with ⟨v, hv⟩ | ⟨m, hm, he⟩ | h | h | h | ⟨hm, hall⟩
    · by_cases hvw : v = w
      · subst hvw
        have hlast : (s.ws v).lastOk (fun l => l ≠ FUTEX_FINISHED) := by
          rcases hfi with ⟨-, -, -, h4⟩ | ⟨-, -, -, h5, -⟩ | h4
          · rcases h4 v with h | h | h <;> rw [h] <;> simp [WSt.lastOk]
          · exact lastOk_mono (by intro l hl; simp only [FUTEX_FINISHED]; omega) _ (h5 v)
          · exact absurd ho h4
        rcases covers_wstep hst (locals_empty jobs s hr) hlast hv with h | h | h
        · exact Or.inl ⟨v, h⟩
        · exact Or.inr (Or.inl h)
        · exact absurd h hg
      · left; refine ⟨v, ?_⟩
        rw [ws_of_wstep hst v hvw, futex_of_wstep hst]; exact hv
    · exact Or.inr (Or.inl ⟨m, chan_of_wstep hst m hm, he⟩)
    · exact Or.inr (Or.inr (Or.inl h))
    · exact Or.inr (Or.inr (Or.inr (Or.inl h)))
    · exact Or.inr (Or.inr (Or.inr (Or.inr (Or.inl h))))
    · -- the only possible step is a spurious wake-up
      left; refine ⟨w, ?_⟩
      rcases hall w with h | ⟨l, h, hl⟩
      · cases hst <;> simp_all
      · cases hst with
        | spurious l' h1 =>
          rw [h] at h1; cases h1
          simp only [Function.update_self]; exact hl
        | _ => simp_all
  | main s s' hr hst ih =>
    have hfi := futexInv hn jobs s hr
    have hal := aliveInv hn hpos jobs s hr
    cases hst with
    | start h1 =>
      intro _ _
      have h4 : ∀ w, (s.ws w).lastOk (fun l => l ≠ FUTEX_INITIAL + 1) := by
        rcases hfi with ⟨-, -, -, h4⟩ | ⟨h2, -⟩ | h2
        · intro w
          rcases h4 w with h | h | h <;> rw [h] <;> simp [WSt.lastOk, FUTEX_INITIAL]
        · exact absurd h1 h2
        · exact absurd (by rw [h1]; trivial) h2
      rcases cover_all ({ s with futex := FUTEX_INITIAL + 1, main := .started } : St n J) h4 with h | h
      · exact Or.inl h
      · exact Or.inr (Or.inr (Or.inr (Or.inr (Or.inr ⟨Or.inl rfl, h⟩))))
    | startWake h1 =>
      intro _ hg
      rcases ih (by rw [h1]; trivial) hg with ⟨v, hv⟩ | h | h | ⟨j, h⟩ | h | ⟨-, hall⟩
      · exact Or.inl ⟨v, covers_wake _ _ hv⟩
      · exact Or.inr (Or.inl h)
      · rw [h1] at h; cases h
      · rw [h1] at h; cases h
      · rw [h1] at h; cases h
      · obtain ⟨⟨w, hw⟩, i2⟩ := hal (by rw [h1]; trivial)
        rcases hall w with h | ⟨l, h, hl⟩
        · rcases i2 w h with h' | ⟨m, hm, he⟩
          · rw [hw] at h'; cases h'
          · exact Or.inr (Or.inl ⟨m, hm, Or.inr he⟩)
        · left; refine ⟨w, ?_⟩
          simp only [h, wake]; exact hl
    | recvKilled j r h1 h2 h3 => intro _ _; exact Or.inr (Or.inr (Or.inr (Or.inl ⟨j, rfl⟩)))
    | pushJob j h1 => intro _ _; exact Or.inr (Or.inr (Or.inr (Or.inr (Or.inl rfl))))
    | pushStore h1 =>
      intro _ _
      have h4 : ∀ w, (s.ws w).lastOk (fun l => l ≠ nextFutex s.futex) := by
        rcases hfi with ⟨h2, -⟩ | ⟨h2, h3, h4, h5, h6⟩ | h2
        · rw [h1] at h2; cases h2
        · intro w
          apply lastOk_mono _ _ (h5 w)
          intro l hl
          have hD := nDone_le s
          simp only [nKilled, h1] at h6
          simp only [nextFutex]
          rw [if_pos (by omega)]
          omega
        · exact absurd (by rw [h1]; trivial) h2
      rcases cover_all ({ s with futex := nextFutex s.futex, main := .pushWake } : St n J) h4 with h | h
      · exact Or.inl h
      · exact Or.inr (Or.inr (Or.inr (Or.inr (Or.inr ⟨Or.inr rfl, h⟩))))
    | pushWake w h1 h2 =>
      intro _ hg
      rcases ih (by rw [h1]; trivial) hg with ⟨v, hv⟩ | h | h | ⟨j, h⟩ | h | ⟨-, hall⟩
      · left; refine ⟨v, ?_⟩
        by_cases hvw : v = w
        · subst hvw; simp only [Function.update_self]; exact covers_wake _ _ hv
        · simp only [Function.update_of_ne hvw]; exact hv
      · exact Or.inr (Or.inl h)
      · rw [h1] at h; cases h
      · rw [h1] at h; cases h
      · rw [h1] at h; cases h
      · left; refine ⟨w, ?_⟩
        rcases hall w with h | ⟨l, h, hl⟩
        · rw [h] at h2; cases h2
        · simp only [Function.update_self, h, wake]; exact hl
    | pushWakeNone h1 h2 =>
      intro _ hg
      rcases ih (by rw [h1]; trivial) hg with ⟨v, hv⟩ | h | h | ⟨j, h⟩ | h | ⟨-, hall⟩
      · exact Or.inl ⟨v, hv⟩
      · exact Or.inr (Or.inl h)
      · rw [h1] at h; cases h
      · rw [h1] at h; cases h
      · rw [h1] at h; cases h
      · obtain ⟨⟨w, hw⟩, i2⟩ := hal (by rw [h1]; trivial)
        rcases hall w with h | ⟨l, h, hl⟩
        · rcases i2 w h with h' | ⟨m, hm, he⟩
          · rw [hw] at h'; cases h'
          · exact Or.inr (Or.inl ⟨m, hm, Or.inr he⟩)
        · have := h2 w; rw [h] at this; cases this
    | recvOk j r h1 h2 h3 =>
      intro _ hg
      rcases ih (by rw [h1]; trivial) hg with ⟨v, hv⟩ | ⟨m, hm, he⟩ | h | ⟨j, h⟩ | h | ⟨h, -⟩
      · exact Or.inl ⟨v, hv⟩
      · rw [h3] at hm
        rcases List.mem_cons.1 hm with rfl | hm
        · rcases he with he | he <;> cases he
        · exact Or.inr (Or.inl ⟨m, hm, he⟩)
      · rw [h1] at h; cases h
      · rw [h1] at h; cases h
      · rw [h1] at h; cases h
      · rw [h1] at h; rcases h with h | h <;> cases h
    | stop w h1 h2 h3 h4 =>
      intro _ hg
      exact ih (by rw [h1]; trivial) hg
    | kill h1 h2 | recvOkIo j r h1 h2 h3 | recvOkPanic j r h1 h2 h3 | recvErr j r h1 h2 h3 | stopLast w h1 h2 h3 h4
    | panic h1 | finishIo h1 h2 | finish h1 h2 | close r h1 | closeWake r h1 => intro h; exact h.elim

/-! ## C22 -/

/-- The main thread can go on without waiting for a worker: it is not blocked on an empty results channel. -/
def mainReady (s : St n J) : Prop :=
  match s.main with
  | .finished _ => False
  | .loop => s.chan ≠ [] ∨ s.remaining = 0
  | _ => True

/-- The worker is neither in the futex wait queue nor finished: it can take a step by itself. -/
def workerReady (s : St n J) (w : Fin n) : Prop := (s.ws w).isAsleep = false ∧ (s.ws w).isDone = false

/-- A worker that steals looks at the queue of one of the workers. -/
theorem steal_index (jobs : List J) (s : St n J) (h : Reach n jobs s) (w : Fin n) :
    ∀ l i b, s.ws w = .steal l i b → i ≤ n := by
  induction h with
  | init => intro l i b h; simp [initSt] at h
  | worker s s' v _ hst ih =>
    intro l i b hi
    by_cases hvw : w = v
    · subst hvw
      cases hst <;> simp only [Function.update_self, reduceCtorEq, WSt.steal.injEq] at hi <;> omega
    · rw [ws_of_wstep hst w hvw] at hi; exact ih l i b hi
  | main s s' _ hst ih =>
    intro l i b hi
    cases hst with
    | startWake h1 | closeWake r h1 =>
      apply ih l i b
      simp only at hi
      cases hx : s.ws w <;> rw [hx] at hi <;> simp [wake] at hi ⊢ <;> exact hi
    | pushWake v h1 h2 =>
      apply ih l i b
      by_cases hvw : w = v
      · subst hvw
        simp only [Function.update_self] at hi
        cases hx : s.ws w <;> rw [hx] at hi <;> simp [wake] at hi ⊢ <;> exact hi
      · simpa only [Function.update_of_ne hvw] using hi
    | _ => exact ih l i b hi

/-- **C22, steps exist.** A worker that is not asleep and not finished always has an enabled step. -/
theorem c22_ready_worker_steps (jobs : List J) (s : St n J) (h : Reach n jobs s) (w : Fin n) (hw : workerReady s w) :
    ∃ s', WStep w s s' := by
  have hidx : ∀ l i b, s.ws w = .steal l i b → i ≤ n := steal_index jobs s h w
  have hloc := locals_empty jobs s h
  obtain ⟨h1, h2⟩ := hw
  cases hx : s.ws w with
  | waitLoad l =>
    by_cases hf : s.futex = l
    · exact ⟨_, .loadSame s l hx hf⟩
    · exact ⟨_, .loadNew s l hx hf⟩
  | waitSleep l =>
    by_cases hf : s.futex = l
    · exact ⟨_, .sleep s l hx hf⟩
    · exact ⟨_, .noSleep s l hx hf⟩
  | asleep l => rw [hx] at h1; cases h1
  | done => rw [hx] at h2; cases h2
  | popLocal l => exact ⟨_, .popNone s l hx (hloc w)⟩
  | steal l i b =>
    have hi := hidx l i b hx
    rcases Nat.lt_or_ge i n with hlt | hge
    · exact ⟨_, .stealEmpty s l ⟨i, hlt⟩ b hx (hloc _)⟩
    · have : i = n := by omega
      subst this
      exact ⟨_, .stealEnd s l b hx⟩
  | stealGlobal l b => exact ⟨_, .globalRetry s l b hx⟩
  | got l j =>
    by_cases hs : s.stopped w = true
    · exact ⟨_, .gotKilled s l j hx hs⟩
    · exact ⟨_, .gotStart s l j hx (by simpa using hs)⟩
  | running l j => exact ⟨_, .runOk s l j hx⟩

variable [DecidableEq J]

/-- The main thread is about to send a signal to the workers (or to handle a message that makes it do so or stop). -/
def mainWillSignal (s : St n J) : Prop :=
  (∃ m ∈ s.chan, m.isKilled = true ∨ m.isErr = true) ∨ s.main = .init ∨ s.main = .started ∨
    (∃ j, s.main = .pushJob j) ∨ s.main = .pushStore ∨ s.main = .pushWake

/-- **C22, no lost wake-up.** While the main thread is in its loop and there is a job in the queue, some worker that
neither sleeps nor has finished will look into the queue before it goes to sleep (`WSt.covers`), or the main thread is
about to signal workers. -/
theorem c22_work_is_noticed (hn : n + 3 < 2 ^ 32) (hpos : 0 < n) (jobs : List J) (s : St n J) (h : Reach n jobs s)
    (ho : s.main.open?) (hg : s.global ≠ []) : (∃ w, (s.ws w).covers s.futex) ∨ mainWillSignal s := by
  rcases coverInv hn hpos jobs s h ho hg with hw | hm | h | h | h | ⟨h | h, -⟩
  · exact Or.inl hw
  · exact Or.inr (Or.inl hm)
  · exact Or.inr (Or.inr (Or.inl h))
  · exact Or.inr (Or.inr (Or.inr (Or.inr (Or.inl h))))
  · exact Or.inr (Or.inr (Or.inr (Or.inr (Or.inr (Or.inl h)))))
  · exact Or.inr (Or.inr (Or.inr (Or.inl h)))
  · exact Or.inr (Or.inr (Or.inr (Or.inr (Or.inr (Or.inr h)))))

/-- **C22, a noticed job stays noticed.** A covering worker is neither asleep nor finished, and each step it takes
leaves it covering, or the queue empty, or a killed/failed message in the channel; so it cannot fall asleep while the
job is in the queue. -/
theorem c22_covering_worker_does_not_sleep (hn : n + 3 < 2 ^ 32) (jobs : List J) (s s' : St n J)
    (h : Reach n jobs s) (w : Fin n) (ho : s.main.open?) (hc : (s.ws w).covers s.futex) :
    workerReady s w ∧ (WStep w s s' → (s'.ws w).covers s'.futex ∨
      (∃ m ∈ s'.chan, m.isKilled = true ∨ m.isErr = true) ∨ s'.global = []) := by
  constructor
  · unfold workerReady
    cases hx : s.ws w <;> rw [hx] at hc <;> first | exact ⟨rfl, rfl⟩ | exact hc.elim
  · intro hst
    refine covers_wstep hst (locals_empty jobs s h) ?_ hc
    rcases futexInv hn jobs s h with ⟨-, -, -, h4⟩ | ⟨-, -, -, h5, -⟩ | h4
    · rcases h4 w with h | h | h <;> rw [h] <;> simp [WSt.lastOk]
    · exact lastOk_mono (by intro l hl; simp only [FUTEX_FINISHED]; omega) _ (h5 w)
    · exact absurd ho h4

/-- **C22, no deadlock.** In every reachable state in which the measurement has not ended, the main thread can go on
without waiting, or some worker is neither asleep nor finished (and has an enabled step,
`c22_ready_worker_steps`). -/
theorem c22_no_deadlock (hn : n + 3 < 2 ^ 32) (hpos : 0 < n) (jobs : List J) (s : St n J) (h : Reach n jobs s)
    (hnf : ∀ r, s.main ≠ .finished r) : mainReady s ∨ ∃ w, workerReady s w := by
  by_cases hm : mainReady s
  · exact Or.inl hm
  · right
    have hloop : s.main = .loop ∧ s.chan = [] ∧ 0 < s.remaining := by
      cases hx : s.main <;> simp only [mainReady, hx] at hm <;> try (exact (hm trivial).elim)
      · simp only [not_or, not_not] at hm
        exact ⟨rfl, hm.1, by omega⟩
      · exact absurd hx (hnf _)
    obtain ⟨h1, h2, h3⟩ := hloop
    by_cases hall : ∃ w, workerReady s w
    · exact hall
    · exfalso
      have hheld : ∀ w, (s.ws w).held = [] := by
        intro w
        have : ¬ workerReady s w := fun hw => hall ⟨w, hw⟩
        unfold workerReady at this
        cases hx : s.ws w <;> rw [hx] at this <;> first | rfl | exact absurd ⟨rfl, rfl⟩ this
      obtain ⟨p1, p2, p3⟩ := (progress_inv jobs s h).1 (by rw [h1]; trivial)
      have hg : s.global ≠ [] := by
        intro hg
        have hperm : List.Perm s.csv jobs := by
          rw [List.perm_iff_count]
          intro a
          have := c23_jobs_conserved jobs s h a
          simpa [places, hg, locals_empty jobs s h, hheld, h2, h1, MSt.held, p3] using this
        have := hperm.length_eq
        omega
      have ho : s.main.open? := by rw [h1]; trivial
      rcases c22_work_is_noticed hn hpos jobs s h ho hg with ⟨w, h⟩ | ⟨m, hm, -⟩ | h | h | ⟨j, h⟩ | h | h
      · exact hall ⟨w, (c22_covering_worker_does_not_sleep hn jobs s s ‹_› w ho h).1⟩
      · rw [h2] at hm; cases hm
      all_goals (rw [h1] at h; cases h)

/-- **C22, close wakes everybody.** When the main thread has left, no worker is or will be in the wait queue, and every
worker that has not finished has an enabled step: nobody sleeps forever. -/
theorem c22_no_sleeper_after_close (jobs : List J) (s : St n J) (h : Reach n jobs s) (r : MRes)
    (hf : s.main = .finished r) (w : Fin n) : (s.ws w).isAsleep = false ∧ (s.ws w = .done ∨ ∃ s', WStep w s s') := by
  have h1 := (waitInv jobs s h).2.2 r hf w
  refine ⟨h1, ?_⟩
  by_cases hd : (s.ws w).isDone = true
  · left; cases hx : s.ws w <;> rw [hx] at hd <;> first | rfl | cases hd
  · right; exact c22_ready_worker_steps jobs s h w ⟨h1, by simpa using hd⟩

/-! ## The hypotheses are met: a full run with one worker and one job -/

/-- A run in which the only worker falls asleep before the start signal, is woken up, runs the job, and the measurement
ends well; so `c22_*`, `c23_*` and `c24_ok_is_complete` are not vacuous. -/
theorem run_ok : ∃ s : St 1 Nat, Reach 1 [7] s ∧ s.main = .finished .ok ∧ s.csv = [7] ∧ s.ws 0 = .popLocal 2 := by
  have r0 : Reach 1 [7] (initSt 1 [7]) := .init
  have r1 := Reach.worker _ _ 0 r0 (.loadSame _ 1 rfl rfl)
  have r2 := Reach.worker _ _ 0 r1 (.sleep _ 1 (by simp) rfl)
  have r3 := Reach.main _ _ r2 (.start _ rfl)
  have r4 := Reach.main _ _ r3 (.startWake _ rfl)
  have r5 := Reach.worker _ _ 0 r4 (.loadNew _ 1 (by simp [wake]) (by simp [FUTEX_INITIAL]))
  have r6 := Reach.worker _ _ 0 r5 (.popNone _ 2 (by simp [FUTEX_INITIAL]) rfl)
  have r7 := Reach.worker _ _ 0 r6 (.stealEmpty _ 2 0 false (by simp) rfl)
  have r8 := Reach.worker _ _ 0 r7 (.stealEnd _ 2 false (by simp))
  have r9 := Reach.worker _ _ 0 r8 (.globalOk _ 2 false 7 [] (by simp) rfl)
  have r10 := Reach.worker _ _ 0 r9 (.gotStart _ 2 7 (by simp) rfl)
  have r11 := Reach.worker _ _ 0 r10 (.runOk _ 2 7 (by simp))
  have r12 := Reach.main _ _ r11 (.recvOk _ 7 [] rfl (by simp [initSt]) rfl)
  have r13 := Reach.main _ _ r12 (.finish _ rfl rfl)
  have r14 := Reach.main _ _ r13 (.close _ .ok rfl)
  have r15 := Reach.main _ _ r14 (.closeWake _ .ok rfl)
  exact ⟨_, r15, rfl, rfl, by simp [wake]⟩

/-- A run in which the monitor stops a worker, whose job goes back to the queue and wakes the other, sleeping worker:
the state of `c22_work_is_noticed` with a sleeper and a queued job is reached. -/
theorem run_killed : ∃ s : St 2 Nat, Reach 2 [7] s ∧ s.main = .pushWake ∧ s.global = [7] ∧ s.ws 0 = .done ∧
    s.ws 1 = .asleep 2 ∧ s.futex = 3 := by
  have r0 : Reach 2 [7] (initSt 2 [7]) := .init
  have r1 := Reach.main _ _ r0 (.start _ rfl)
  have r2 := Reach.main _ _ r1 (.startWake _ rfl)
  -- worker 0 takes the job
  have a1 := Reach.worker _ _ 0 r2 (.loadNew _ 1 (by simp [initSt, wake]) (by simp [FUTEX_INITIAL]))
  have a2 := Reach.worker _ _ 0 a1 (.popNone _ 2 (by simp [FUTEX_INITIAL]) rfl)
  have a3 := Reach.worker _ _ 0 a2 (.stealEmpty _ 2 0 false (by simp) rfl)
  have a4 := Reach.worker _ _ 0 a3 (.stealEmpty _ 2 1 false (by simp) rfl)
  have a5 := Reach.worker _ _ 0 a4 (.stealEnd _ 2 false (by simp))
  have a6 := Reach.worker _ _ 0 a5 (.globalOk _ 2 false 7 [] (by simp) rfl)
  have a7 := Reach.worker _ _ 0 a6 (.gotStart _ 2 7 (by simp) rfl)
  -- worker 1 finds nothing and sleeps
  have b1 := Reach.worker _ _ 1 a7 (.loadNew _ 1 (by simp [initSt, wake]) (by simp [FUTEX_INITIAL]))
  have b2 := Reach.worker _ _ 1 b1 (.popNone _ 2 (by simp [FUTEX_INITIAL]) rfl)
  have b3 := Reach.worker _ _ 1 b2 (.stealEmpty _ 2 0 false (by simp) rfl)
  have b4 := Reach.worker _ _ 1 b3 (.stealEmpty _ 2 1 false (by simp) rfl)
  have b5 := Reach.worker _ _ 1 b4 (.stealEnd _ 2 false (by simp))
  have b6 := Reach.worker _ _ 1 b5 (.globalNone _ 2 (by simp) rfl (by simp [FUTEX_FINISHED]))
  have b7 := Reach.worker _ _ 1 b6 (.loadSame _ 2 (by simp) rfl)
  have b8 := Reach.worker _ _ 1 b7 (.sleep _ 2 (by simp) rfl)
  -- the monitor stops worker 0
  have c1 := Reach.main _ _ b8 (.stop _ 0 rfl (by simp [initSt]) rfl ⟨1, by simp [initSt]⟩)
  have c2 := Reach.worker _ _ 0 c1 (.runKilled _ 2 7 (by simp) (by simp))
  have c3 := Reach.main _ _ c2 (.recvKilled _ 7 [] rfl (by simp [initSt]) rfl)
  have c4 := Reach.main _ _ c3 (.pushJob _ 7 rfl)
  have c5 := Reach.main _ _ c4 (.pushStore _ rfl)
  exact ⟨_, c5, rfl, rfl, by simp, by simp, rfl⟩

end Verif.Measure
