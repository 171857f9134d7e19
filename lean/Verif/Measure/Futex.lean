/-
Model of the work queue's futex word: `WorkSender` (cmakeperf/src/measure/main.rs:180-248) and `WorkQueue`'s constants
(cmakeperf/src/measure/mod.rs:148-154).  Property C21.
-/
import Mathlib.Data.Nat.ModEq
import Mathlib.Tactic.Ring

set_option autoImplicit false
set_option linter.unusedVariables false

namespace Verif.Measure

/-- measure/mod.rs:151 -/
abbrev FUTEX_FINISHED : Nat := 0
/-- measure/mod.rs:154 -/
abbrev FUTEX_INITIAL : Nat := 1

/-- Operations on the sending side, as called by the main thread. -/
inductive FOp where
  /-- main.rs:205-211 `WorkSender::start` -/
  | start
  /-- main.rs:214-227 `WorkSender::push` -/
  | push
  /-- main.rs:230-233, 244-248: `WorkSender::close`, on drop -/
  | close
  deriving DecidableEq

inductive FPanic where
  | startedTwice
  | pushAfterClose
  deriving DecidableEq

/-- The new futex value, main.rs:236-241 `update_futex` with the updater of each operation; `2^32` is the size of the
`u32` word (`checked_add(1)` fails at the maximum). -/
def futexNext (v : Nat) : FOp → Except FPanic Nat
  | .start => if v = FUTEX_INITIAL then .ok (FUTEX_INITIAL + 1) else .error .startedTwice
  | .push => if v = FUTEX_FINISHED then .error .pushAfterClose
      else .ok (if v + 1 < 2 ^ 32 then v + 1 else FUTEX_INITIAL + 1)
  | .close => .ok FUTEX_FINISHED

/-- The futex value after a history of operations, main.rs:191-199 `WorkSender::new` first. -/
def futexAfter : List FOp → Except FPanic Nat
  | [] => .ok FUTEX_INITIAL
  | o :: os => match futexAfter os with   -- `os` is the earlier history, most recent operation first
    | .error e => .error e
    | .ok v => futexNext v o

/-- The history of the main thread: start, then `n` pushes, then close if `closed` (most recent first). -/
def mainHistory (n : Nat) (closed : Bool) : List FOp :=
  (if closed then [.close] else []) ++ List.replicate n .push ++ [.start]

theorem futexAfter_pushes (n : Nat) :
    futexAfter (List.replicate n .push ++ [.start]) = .ok (2 + n % (2 ^ 32 - 2)) := by
  induction n with
  | zero => rfl
  | succ n ih =>
    rw [List.replicate_succ, List.cons_append, futexAfter, ih]
    simp only [futexNext]
    rw [if_neg (show ¬ (2 + n % (2 ^ 32 - 2) = FUTEX_FINISHED) by simp only [FUTEX_FINISHED]; omega)]
    congr 1
    simp only [FUTEX_INITIAL]; split <;> omega

/-- **C21.** In every history of the main thread -- start, any number of pushes (including more than `2^32`), possibly a
close -- no assertion fails; the word is FINISHED iff the queue was closed; it is never INITIAL again; every push
changes it; and two moments of the open queue see the same word only if they are separated by a multiple of
`2^32 - 2` pushes. -/
theorem c21_futex (n : Nat) :
    (∃ v, futexAfter (mainHistory n false) = .ok v ∧ v ≠ FUTEX_FINISHED ∧ v ≠ FUTEX_INITIAL ∧ v < 2 ^ 32) ∧
    futexAfter (mainHistory n true) = .ok FUTEX_FINISHED ∧
    (∀ v v', futexAfter (mainHistory n false) = .ok v → futexAfter (mainHistory (n + 1) false) = .ok v' → v ≠ v') ∧
    (∀ m v v', futexAfter (mainHistory n false) = .ok v → futexAfter (mainHistory m false) = .ok v' →
      (v = v' ↔ n ≡ m [MOD 2 ^ 32 - 2])) := by
  have hf : ∀ n, futexAfter (mainHistory n false) = .ok (2 + n % (2 ^ 32 - 2)) := by
    intro n; simpa [mainHistory] using futexAfter_pushes n
  refine ⟨⟨_, hf n, ?_, ?_, ?_⟩, ?_, ?_, ?_⟩
  · simp only [FUTEX_FINISHED]; omega
  · simp only [FUTEX_INITIAL]; omega
  · omega
  · have := futexAfter_pushes n
    simp only [mainHistory, if_true, List.cons_append, List.nil_append, futexAfter, this, futexNext]
  · intro v v' h h'
    rw [hf] at h h'
    cases h; cases h'
    omega
  · intro m v v' h h'
    rw [hf] at h h'
    cases h; cases h'
    unfold Nat.ModEq
    omega

/-- **C21, misuse.** Starting twice and pushing after closing are detected. -/
theorem c21_misuse (n : Nat) (b : Bool) :
    futexAfter (.start :: mainHistory n b) = .error .startedTwice ∧
    futexAfter (.push :: mainHistory n true) = .error .pushAfterClose := by
  obtain ⟨⟨v, h1, h2, h3, -⟩, h4, -⟩ := c21_futex n
  constructor
  · cases b with
    | false =>
      simp only [futexAfter, h1, futexNext]
      rw [if_neg h3]
    | true =>
      simp only [futexAfter, h4, futexNext, FUTEX_FINISHED, FUTEX_INITIAL]
      rfl
  · simp only [futexAfter, h4, futexNext]
    rfl

/-- Non-vacuity: the wrap-around itself. -/
example : futexAfter (mainHistory (2 ^ 32 - 3) false) = .ok (2 ^ 32 - 1) ∧
    futexAfter (mainHistory (2 ^ 32 - 2) false) = .ok 2 := by
  constructor <;> (simp only [mainHistory, if_false, List.nil_append, Bool.false_eq_true]; rw [futexAfter_pushes]; rfl)

end Verif.Measure
