/-
C83: waiting for a trace measurement (src/ui/tui/trace/measure.rs 105-235 and 302-431): when it ends, how fast Abort is
obeyed, and what is on the screen afterwards. What happens to the files is C43.
-/
import Verif.Measure.Job

set_option autoImplicit false
set_option linter.unusedVariables false
set_option linter.unusedSimpArgs false

namespace Verif.Tui.TraceWait

open Verif.Measure.Job (Pipe PipeReach)

/-! ## Model -/

/-- `std::io::ErrorKind`, as far as `wait` tells it apart. -/
inductive Kind where
  | invalidInput | notFound | other
  deriving DecidableEq

/-- `std::io::Error`: its kind and its text. -/
structure IoErr where
  kind : Kind
  text : List Char
  deriving DecidableEq

/-- `std::process::ExitStatus`: `success()` and its text. -/
structure Status where
  success : Bool
  text : List Char
  deriving DecidableEq

/-- `RESPONSE_TIME` (measure.rs 339): `1000 / 30` ms. -/
def responseTime : Nat := 1000 / 30

/-- The world of one measurement; times in milliseconds. -/
structure Env where
  /-- when clang ends by itself, if it ever does, and its status -/
  exit : Option (Nat × Status)
  /-- when the user presses Abort, if ever -/
  abort : Option Nat
  /-- the calls of `wait_timeout` that fail -/
  fail : Nat → Option IoErr
  /-- how late the thread is when such a call returns -/
  slack : Nat → Nat
  /-- the error of `kill()`, if it fails -/
  kill : Option IoErr
  /-- everything that clang has written, with invalid UTF-8 replaced (`from_utf8_lossy`) -/
  stdout : List Char
  stderr : List Char

/-- Result of `wait_timeout`. -/
inductive Poll where
  | exited (st : Status)
  | timedOut
  | err (e : IoErr)
  deriving DecidableEq

/-- The call number `k` of `wait_timeout`, at time `t` (measure.rs 340): its result, and when it returns. -/
def poll (env : Env) (k t : Nat) : Poll × Nat :=
  match env.fail k with
  | some e => (.err e, t + env.slack k)
  | none =>
    match env.exit with
    | some (x, st) => if x ≤ t + responseTime then (.exited st, max t x + env.slack k)
                      else (.timedOut, t + responseTime + env.slack k)
    | none => (.timedOut, t + responseTime + env.slack k)

/-- `self.canceled.load(..)` at time `u` (343). Simplification: the flag is seen as soon as it is stored. -/
def abortSeen (env : Env) (u : Nat) : Bool :=
  match env.abort with
  | some a => decide (a ≤ u)
  | none => false

/-- The loop of `CancelableClang::wait` (338-353), from call number `k` at time `t` on: it leaves with a result at a time.
It may never do so, hence a relation. -/
inductive Loop (env : Env) : Nat → Nat → Poll → Nat → Prop where
  | other {k t u : Nat} {p : Poll} : poll env k t = (p, u) → p ≠ .timedOut → Loop env k t p u
  | canceled {k t u : Nat} : poll env k t = (.timedOut, u) → abortSeen env u = true → Loop env k t .timedOut u
  | again {k t u v : Nat} {p : Poll} : poll env k t = (.timedOut, u) → abortSeen env u = false →
      Loop env (k + 1) u p v → Loop env k t p v

/-- `append_pipe` in `child_failure_message` (413-424). -/
def appendPipe (error : List Char) (isFirst : Bool) (name data : List Char) : List Char :=
  error ++ (if isFirst then " with".toList else "\nand".toList) ++ " the following ".toList ++ name ++
    " output:\n---\n".toList ++ data ++ "---".toList

/-- `child_failure_message` (394-431). Simplification: the pipes are read without an error. -/
def failureMessage (st : Status) (stdout stderr : List Char) : List Char :=
  let error := "clang time-trace run failed (".toList ++ st.text ++ ")".toList
  let error := if stdout.isEmpty then error else appendPipe error true "stdout".toList stdout
  if stderr.isEmpty then error else appendPipe error stdout.isEmpty "stderr".toList stderr

/-- What `wait` returns: `Ok(false)`, `Ok(true)`, `Err(message)`. -/
inductive Result where
  | success
  | canceled
  | error (msg : List Char)
  deriving DecidableEq

/-- `CancelableClang::wait`, after its loop (355-384). -/
def handle (env : Env) : Poll → Result
  | .exited st => if st.success then .success else .error (failureMessage st env.stdout env.stderr)
  | .timedOut =>
    match env.kill with
    | none => .canceled
    | some e => if e.kind = .invalidInput ∨ e.kind = .notFound then .canceled
                else .error ("Failed to kill clang: ".toList ++ e.text)
  | .err e => .error ("Failed to await clang: ".toList ++ e.text)

/-- `CancelableClang::wait`, started at time `t`, returns `r` at time `u`. -/
def Waits (env : Env) (t : Nat) (r : Result) (u : Nat) : Prop := ∃ p, Loop env 0 t p u ∧ r = handle env p

/-- Layers of the screen. -/
inductive Layer where
  | measuring
  | loader
  | info (msg : List Char)
  /-- anything else -/
  | other (n : Nat)
  deriving DecidableEq

/-- What the measurement changes in the UI. -/
structure Ui where
  screen : List Layer
  below : Nat
  noEscape : Bool
  /-- `None` for no automatic refresh -/
  fps : Option Nat
  deriving DecidableEq

/-- `set_fps` of cursive: zero for no refresh. -/
def setFps (n : Nat) (ui : Ui) : Ui := { ui with fps := if n = 0 then none else some n }

/-- `start_measure` once clang runs (129-147); `set_autorefresh(true)` sets 30 frames per second. -/
def begin (ui : Ui) : Ui :=
  let ui := { ui with below := ui.screen.length, noEscape := true }
  let ui := setFps 30 ui
  { ui with screen := ui.screen ++ [.measuring] }

/-- `end_measure` (225-234). -/
def endMeasure (oldFps : Option Nat) (ui : Ui) : Ui :=
  let ui := { ui with noEscape := false }
  let ui := setFps (oldFps.getD 0) ui
  { ui with screen := ui.screen.take ui.below }

/-- The callbacks that the measurement thread sends after `end_measure` (167-201). `backupErr` is the message of
`cleanup()` or of `restore_or_delete()`, if any. -/
def dialogs (r : Result) (backupErr : Option (List Char)) : List Layer :=
  let problem := (backupErr.map Layer.info).toList
  match r with
  | .success => .loader :: problem
  | .canceled => problem
  | .error msg => .info msg :: problem

/-- All callbacks, run in the order in which they were sent. -/
def finish (oldFps : Option Nat) (r : Result) (backupErr : Option (List Char)) (ui : Ui) : Ui :=
  (dialogs r backupErr).foldl (fun ui l => { ui with screen := ui.screen ++ [l] }) (endMeasure oldFps ui)

/-! ## The loop -/

theorem poll_time (env : Env) (k t u : Nat) (h : poll env k t = (.timedOut, u)) :
    env.fail k = none ∧ u = t + responseTime + env.slack k ∧ ∀ x st, env.exit = some (x, st) → t + responseTime < x := by
  unfold poll at h
  split at h
  · cases h
  · rename_i hf
    split at h
    · rename_i x st he
      split at h
      · cases h
      · rename_i hx
        cases h
        exact ⟨hf, rfl, fun x' st' e => by rw [he] at e; cases e; omega⟩
    · rename_i he
      cases h
      exact ⟨hf, rfl, fun x' st' e => by rw [he] at e; cases e⟩

theorem poll_exit (env : Env) (k t u : Nat) (st : Status) (h : poll env k t = (.exited st, u)) :
    ∃ x, env.exit = some (x, st) ∧ x ≤ u ∧ u = max t x + env.slack k ∧ x ≤ t + responseTime := by
  unfold poll at h
  split at h
  · cases h
  · split at h
    · rename_i x st' he
      split at h
      · rename_i hx; cases h; exact ⟨x, he, by omega, rfl, hx⟩
      · cases h
    · cases h

theorem poll_err (env : Env) (k t u : Nat) (e : IoErr) (h : poll env k t = (.err e, u)) : env.fail k = some e := by
  unfold poll at h
  split at h
  · rename_i e' hf; cases h; exact hf
  · split at h
    · split at h <;> cases h
    · cases h

theorem abortSeen_iff (env : Env) (u : Nat) : abortSeen env u = true ↔ ∃ a, env.abort = some a ∧ a ≤ u := by
  unfold abortSeen
  split
  · rename_i a h; simp [h]
  · rename_i h; simp [h]

/-- The loop leaves with what it says it does. -/
theorem loop_sound (env : Env) {k t u : Nat} {p : Poll} (h : Loop env k t p u) :
    (∀ st, p = .exited st → ∃ x, env.exit = some (x, st) ∧ x ≤ u) ∧
    (p = .timedOut → ∃ a, env.abort = some a ∧ a ≤ u) ∧
    (∀ e, p = .err e → ∃ k, env.fail k = some e) := by
  induction h with
  | @other k t u p hp hn =>
    refine ⟨fun st e => ?_, fun e => absurd e hn, fun e he => ?_⟩
    · subst e
      obtain ⟨x, h1, h2, -⟩ := poll_exit env _ _ _ _ hp
      exact ⟨x, h1, h2⟩
    · subst he; exact ⟨_, poll_err env _ _ _ _ hp⟩
  | canceled hp hs => exact ⟨fun st e => (nomatch e), fun _ => (abortSeen_iff _ _).1 hs, fun e he => (nomatch he)⟩
  | again hp hs hl ih => exact ih

/-- The loop is deterministic. -/
theorem loop_unique (env : Env) {k t u u' : Nat} {p p' : Poll} (h : Loop env k t p u) (h' : Loop env k t p' u') :
    p = p' ∧ u = u' := by
  induction h with
  | other hp hn =>
    cases h' with
    | other hp' hn' => rw [hp] at hp'; cases hp'; exact ⟨rfl, rfl⟩
    | canceled hp' hs' => rw [hp] at hp'; cases hp'; exact absurd rfl hn
    | again hp' hs' hl' => rw [hp] at hp'; cases hp'; exact absurd rfl hn
  | canceled hp hs =>
    cases h' with
    | other hp' hn' => rw [hp] at hp'; cases hp'; exact absurd rfl hn'
    | canceled hp' hs' => rw [hp] at hp'; cases hp'; exact ⟨rfl, rfl⟩
    | again hp' hs' hl' => rw [hp] at hp'; cases hp'; rw [hs] at hs'; cases hs'
  | again hp hs hl ih =>
    cases h' with
    | other hp' hn' => rw [hp] at hp'; cases hp'; exact absurd rfl hn'
    | canceled hp' hs' => rw [hp] at hp'; cases hp'; rw [hs] at hs'; cases hs'
    | again hp' hs' hl' => rw [hp] at hp'; cases hp'; exact ih hl'

/-- Either the loop leaves within `n` calls, or it makes them all, and time passes. -/
theorem loop_or (env : Env) (n : Nat) : ∀ k t, (∃ p u, Loop env k t p u) ∨
    ∃ u, t + n * responseTime ≤ u ∧ (∀ j < n, env.fail (k + j) = none) ∧
      (∀ x st, env.exit = some (x, st) → 0 < n → t + n * responseTime < x) ∧
      (∀ a, env.abort = some a → 0 < n → t + n * responseTime < a) ∧
      ∀ p v, Loop env (k + n) u p v → Loop env k t p v := by
  induction n with
  | zero =>
    intro k t
    exact Or.inr ⟨t, by omega, fun j hj => by omega, fun _ _ _ h => by omega, fun _ _ h => by omega, fun p v h => h⟩
  | succ n ih =>
    intro k t
    rcases hp : poll env k t with ⟨p, u⟩
    by_cases hn : p = .timedOut
    · subst hn
      obtain ⟨h1, h2, h3⟩ := poll_time env k t u hp
      cases hs : abortSeen env u with
      | true => exact Or.inl ⟨_, _, .canceled hp hs⟩
      | false =>
        have hns : ∀ a, env.abort = some a → u < a := by
          intro a ha
          by_contra hc
          have := (abortSeen_iff env u).2 ⟨a, ha, by omega⟩
          rw [hs] at this; cases this
        rcases ih (k + 1) u with ⟨q, v, hl⟩ | ⟨v, g1, g2, g3, g4, g5⟩
        · exact Or.inl ⟨q, v, .again hp hs hl⟩
        · have hmul : (n + 1) * responseTime = n * responseTime + responseTime := by
            rw [Nat.add_mul, Nat.one_mul]
          refine Or.inr ⟨v, by omega, ?_, ?_, ?_, ?_⟩
          · intro j hj
            cases j with
            | zero => exact h1
            | succ j => rw [show k + (j + 1) = k + 1 + j by omega]; exact g2 j (by omega)
          · intro x st he _
            have := h3 x st he
            cases n with
            | zero => omega
            | succ n => have := g3 x st he (by omega); omega
          · intro a ha _
            have := hns a ha
            cases n with
            | zero => omega
            | succ n => have := g4 a ha (by omega); omega
          · intro q w hl
            rw [show k + (n + 1) = k + 1 + n by omega] at hl
            exact .again hp hs (g5 q w hl)
    · exact Or.inl ⟨p, u, .other hp hn⟩

/-! ## Theorems -/

/-- **C83 (end).** A measurement ends exactly if clang ends by itself, the user presses Abort, or the operating system
refuses to report on the process. It ends in one way only. -/
theorem c83_ends (env : Env) (t : Nat) :
    ((∃ r u, Waits env t r u) ↔ env.exit ≠ none ∨ env.abort ≠ none ∨ ∃ k, env.fail k ≠ none) ∧
    ∀ r u r' u', Waits env t r u → Waits env t r' u' → r = r' ∧ u = u' := by
  constructor
  · constructor
    · rintro ⟨r, u, p, hl, -⟩
      obtain ⟨h1, h2, h3⟩ := loop_sound env hl
      cases p with
      | exited st => obtain ⟨x, h, -⟩ := h1 st rfl; exact Or.inl (by rw [h]; simp)
      | timedOut => obtain ⟨x, h, -⟩ := h2 rfl; exact Or.inr (Or.inl (by rw [h]; simp))
      | err e => obtain ⟨k, h⟩ := h3 e rfl; exact Or.inr (Or.inr ⟨k, by rw [h]; simp⟩)
    · intro h
      have hR : 0 < responseTime := by decide
      have big : ∀ n : Nat, n ≤ n * responseTime := fun n => Nat.le_mul_of_pos_right n hR
      have key : ∀ n, (∃ p u, Loop env 0 t p u) ∨ _ := fun n => loop_or env n 0 t
      have : ∃ p u, Loop env 0 t p u := by
        rcases h with h | h | ⟨k, h⟩
        · obtain ⟨⟨x, st⟩, he⟩ := Option.ne_none_iff_exists'.1 h
          rcases key (x + 1) with h | ⟨u, -, -, g, -⟩
          · exact h
          · have := g x st he (by omega); have := big (x + 1); omega
        · obtain ⟨a, he⟩ := Option.ne_none_iff_exists'.1 h
          rcases key (a + 1) with h | ⟨u, -, -, -, g, -⟩
          · exact h
          · have := g a he (by omega); have := big (a + 1); omega
        · rcases key (k + 1) with h' | ⟨u, -, g, -⟩
          · exact h'
          · have := g k (by omega); rw [Nat.zero_add] at this; exact absurd this h
      obtain ⟨p, u, hl⟩ := this
      exact ⟨_, u, p, hl, rfl⟩
  · rintro r u r' u' ⟨p, hl, rfl⟩ ⟨p', hl', rfl⟩
    obtain ⟨rfl, rfl⟩ := loop_unique env hl hl'
    exact ⟨rfl, rfl⟩

/-- **C83 (meaning of the result).** Success is only reported for a clang that has succeeded, an abortion only if the
user asked for it, and an error only if clang has failed, or it could not be killed after Abort, or the operating system
refused to report on it; the message says which. -/
theorem c83_meaning (env : Env) (t : Nat) (r : Result) (u : Nat) (h : Waits env t r u) :
    (r = .success → ∃ x st, env.exit = some (x, st) ∧ x ≤ u ∧ st.success = true) ∧
    (r = .canceled → ∃ a, env.abort = some a ∧ a ≤ u) ∧
    (∀ msg, r = .error msg →
      (∃ x st, env.exit = some (x, st) ∧ x ≤ u ∧ st.success = false ∧ msg = failureMessage st env.stdout env.stderr) ∨
      (∃ a e, env.abort = some a ∧ a ≤ u ∧ env.kill = some e ∧ e.kind = .other ∧
        msg = "Failed to kill clang: ".toList ++ e.text) ∨
      ∃ k e, env.fail k = some e ∧ msg = "Failed to await clang: ".toList ++ e.text) := by
  obtain ⟨p, hl, rfl⟩ := h
  obtain ⟨h1, h2, h3⟩ := loop_sound env hl
  cases p with
  | exited st =>
    obtain ⟨x, hx, hu⟩ := h1 st rfl
    cases hs : st.success with
    | true =>
      simp only [handle, hs, if_true]
      exact ⟨fun _ => ⟨x, st, hx, hu, hs⟩, fun e => (nomatch e), fun _ e => (nomatch e)⟩
    | false =>
      simp only [handle, hs, Bool.false_eq_true, if_false]
      refine ⟨fun e => (nomatch e), fun e => (nomatch e), fun m e => ?_⟩
      cases e
      exact Or.inl ⟨x, st, hx, hu, hs, rfl⟩
  | timedOut =>
    obtain ⟨a, ha, hu⟩ := h2 rfl
    cases hk : env.kill with
    | none =>
      simp only [handle, hk]
      exact ⟨fun e => (nomatch e), fun _ => ⟨a, ha, hu⟩, fun _ e => (nomatch e)⟩
    | some e =>
      simp only [handle, hk]
      split
      · exact ⟨fun e => (nomatch e), fun _ => ⟨a, ha, hu⟩, fun _ e => (nomatch e)⟩
      · rename_i hkind
        refine ⟨fun e => (nomatch e), fun e => (nomatch e), fun m h => ?_⟩
        cases h
        refine Or.inr (Or.inl ⟨a, e, ha, hu, rfl, ?_, rfl⟩)
        cases hk' : e.kind with
        | other => rfl
        | invalidInput => exact absurd (Or.inl hk') hkind
        | notFound => exact absurd (Or.inr hk') hkind
  | err e =>
    obtain ⟨k, hk⟩ := h3 e rfl
    refine ⟨fun e => (nomatch e), fun e => (nomatch e), fun m h => ?_⟩
    cases h
    exact Or.inr (Or.inr ⟨k, e, hk, rfl⟩)

theorem obeyed (env : Env) (S : Nat) (hf : ∀ k, env.fail k = none) (hS : ∀ k, env.slack k ≤ S) (a : Nat)
    (ha : env.abort = some a) (hx : ∀ x st, env.exit = some (x, st) → a + responseTime < x) :
    ∀ n k t, a < t + n → t ≤ a → ∃ u, Loop env k t .timedOut u ∧ a ≤ u ∧ u ≤ a + responseTime + S := by
  intro n
  induction n with
  | zero => intro k t h1 h2; omega
  | succ n ih =>
    intro k t h1 h2
    have hp : poll env k t = (.timedOut, t + responseTime + env.slack k) := by
      unfold poll
      rw [hf k]
      cases he : env.exit with
      | none => rfl
      | some y =>
        obtain ⟨x, st⟩ := y
        have := hx x st he
        simp only
        rw [if_neg (by omega)]
    have := hS k
    by_cases hseen : a ≤ t + responseTime + env.slack k
    · exact ⟨_, .canceled hp ((abortSeen_iff _ _).2 ⟨a, ha, hseen⟩), hseen, by omega⟩
    · have hR : 0 < responseTime := by decide
      obtain ⟨u, g1, g2, g3⟩ := ih (k + 1) (t + responseTime + env.slack k) (by omega) (by omega)
      refine ⟨u, .again hp ?_ g1, g2, g3⟩
      cases hs : abortSeen env (t + responseTime + env.slack k) with
      | false => rfl
      | true =>
        obtain ⟨a', ha', hl⟩ := (abortSeen_iff _ _).1 hs
        rw [ha] at ha'; cases ha'; omega

/-- **C83 (Abort).** If nothing fails and the thread is never late by more than `S` ms: an Abort at time `a` is obeyed
within 33 ms (plus `S`), unless clang ends by itself within 33 ms; a clang that is gone by the time it is to be killed
does not matter. -/
theorem c83_abort (env : Env) (S t a : Nat) (hf : ∀ k, env.fail k = none) (hS : ∀ k, env.slack k ≤ S)
    (ha : env.abort = some a) (ht : t ≤ a) (hx : ∀ x st, env.exit = some (x, st) → a + 33 < x)
    (hk : ∀ e, env.kill = some e → e.kind = .invalidInput ∨ e.kind = .notFound) :
    ∃ u, Waits env t .canceled u ∧ a ≤ u ∧ u ≤ a + 33 + S := by
  obtain ⟨u, h1, h2, h3⟩ := obeyed env S hf hS a ha hx (a - t + 1) 0 t (by omega) ht
  refine ⟨u, ⟨_, h1, ?_⟩, h2, h3⟩
  simp only [handle]
  cases he : env.kill with
  | none => rfl
  | some e => simp only; rw [if_pos (hk e he)]

theorem completed (env : Env) (S : Nat) (hf : ∀ k, env.fail k = none) (hS : ∀ k, env.slack k ≤ S) (x : Nat) (st : Status)
    (he : env.exit = some (x, st)) (ha : ∀ a, env.abort = some a → x + S ≤ a) :
    ∀ n k t, x < t + n → t ≤ x + S → ∃ u, Loop env k t (.exited st) u ∧ x ≤ u ∧ u ≤ x + 2 * S := by
  intro n
  induction n with
  | zero =>
    intro k t h1 h2
    have := hS k
    refine ⟨max t x + env.slack k, .other ?_ (by simp), by omega, by omega⟩
    unfold poll
    rw [hf k, he]
    simp only
    rw [if_pos (by omega)]
  | succ n ih =>
    intro k t h1 h2
    have := hS k
    by_cases hle : x ≤ t + responseTime
    · refine ⟨max t x + env.slack k, .other ?_ (by simp), by omega, by omega⟩
      unfold poll
      rw [hf k, he]
      simp only
      rw [if_pos hle]
    · have hp : poll env k t = (.timedOut, t + responseTime + env.slack k) := by
        unfold poll
        rw [hf k, he]
        simp only
        rw [if_neg hle]
      have hR : 0 < responseTime := by decide
      obtain ⟨u, g1, g2, g3⟩ := ih (k + 1) (t + responseTime + env.slack k) (by omega) (by omega)
      refine ⟨u, .again hp ?_ g1, g2, g3⟩
      cases hs : abortSeen env (t + responseTime + env.slack k) with
      | false => rfl
      | true =>
        obtain ⟨a', ha', hl⟩ := (abortSeen_iff _ _).1 hs
        have := ha a' ha'
        omega

/-- **C83 (no Abort).** If nothing fails, the thread is never late by more than `S` ms, clang ends by itself at time `x`
and Abort is not pressed before `x + S`, then the measurement reports how clang ended, at once (plus `2 S`). -/
theorem c83_completed (env : Env) (S t x : Nat) (st : Status) (hf : ∀ k, env.fail k = none) (hS : ∀ k, env.slack k ≤ S)
    (he : env.exit = some (x, st)) (ht : t ≤ x) (ha : ∀ a, env.abort = some a → x + S ≤ a) :
    ∃ u, Waits env t (if st.success then .success else .error (failureMessage st env.stdout env.stderr)) u ∧
      x ≤ u ∧ u ≤ x + 2 * S := by
  obtain ⟨u, h1, h2, h3⟩ := completed env S hf hS x st he ha (x + 1) 0 t (by omega) (by omega)
  exact ⟨u, ⟨_, h1, rfl⟩, h2, h3⟩

/-- **C83 (message).** The message about a failed clang gives its status, and then what it has written, on standard
output and on standard error, if anything. -/
theorem c83_message (st : Status) (stdout stderr : List Char) (ho : stdout ≠ []) (he : stderr ≠ []) :
    failureMessage st [] [] = "clang time-trace run failed (".toList ++ st.text ++ ")".toList ∧
    failureMessage st stdout [] = "clang time-trace run failed (".toList ++ st.text ++
      ") with the following stdout output:\n---\n".toList ++ stdout ++ "---".toList ∧
    failureMessage st [] stderr = "clang time-trace run failed (".toList ++ st.text ++
      ") with the following stderr output:\n---\n".toList ++ stderr ++ "---".toList ∧
    failureMessage st stdout stderr = "clang time-trace run failed (".toList ++ st.text ++
      ") with the following stdout output:\n---\n".toList ++ stdout ++
      "---\nand the following stderr output:\n---\n".toList ++ stderr ++ "---".toList := by
  have h1 : stdout.isEmpty = false := by cases stdout <;> simp_all
  have h2 : stderr.isEmpty = false := by cases stderr <;> simp_all
  have e1 : ") with the following stdout output:\n---\n".toList =
    ")".toList ++ " with".toList ++ " the following ".toList ++ "stdout".toList ++ " output:\n---\n".toList := by decide +kernel
  have e2 : ") with the following stderr output:\n---\n".toList =
    ")".toList ++ " with".toList ++ " the following ".toList ++ "stderr".toList ++ " output:\n---\n".toList := by decide +kernel
  have e3 : "---\nand the following stderr output:\n---\n".toList =
    "---".toList ++ "\nand".toList ++ " the following ".toList ++ "stderr".toList ++ " output:\n---\n".toList := by decide +kernel
  rw [e1, e2, e3]
  unfold failureMessage appendPipe
  clear e1 e2 e3
  generalize "clang time-trace run failed (".toList = s1
  generalize ")".toList = s2
  generalize " with".toList = s3
  generalize "\nand".toList = s4
  generalize " the following ".toList = s5
  generalize "stdout".toList = s6
  generalize "stderr".toList = s7
  generalize " output:\n---\n".toList = s8
  generalize "---".toList = s9
  simp only [h1, h2, Bool.false_eq_true, if_false, if_true, List.isEmpty_nil, List.append_assoc, and_self]

/-- **C83 (screen).** Whatever other dialogs the user has opened meanwhile, in the end the measurement dialog and these
are gone, the layers from before are back, the refresh rate is what it was, leaving is possible again, and above there
is: after success, the loading screen; after an error, a message that tells it; after an abortion, nothing; and on top a
message if the backup could not be restored or deleted. -/
theorem c83_screen (ui : Ui) (hfps : ui.fps ≠ some 0) (over : List Layer) (r : Result) (problem : Option (List Char)) :
    let start := begin ui
    let ui' := finish ui.fps r problem { start with screen := start.screen ++ over }
    start.noEscape = true ∧ start.screen = ui.screen ++ [.measuring] ∧
    ui'.noEscape = false ∧ ui'.fps = ui.fps ∧
    (r = .success → problem = none → ui'.screen = ui.screen ++ [.loader]) ∧
    (r = .canceled → problem = none → ui'.screen = ui.screen) ∧
    (∀ msg, r = .error msg → problem = none → ui'.screen = ui.screen ++ [.info msg]) ∧
    (∀ msg, r = .success → problem = some msg → ui'.screen = ui.screen ++ [.loader, .info msg]) ∧
    (∀ msg, r = .canceled → problem = some msg → ui'.screen = ui.screen ++ [.info msg]) ∧
    (∀ msg msg', r = .error msg → problem = some msg' → ui'.screen = ui.screen ++ [.info msg, .info msg']) := by
  have hfps' : (if ui.fps.getD 0 = 0 then none else some (ui.fps.getD 0)) = ui.fps := by
    cases h : ui.fps with
    | none => rfl
    | some n =>
      rw [Option.getD_some, if_neg]
      rintro rfl
      exact hfps h
  have fold : ∀ (l : List Layer) (v : Ui),
      l.foldl (fun ui l => { ui with screen := ui.screen ++ [l] }) v = { v with screen := v.screen ++ l } := by
    intro l
    induction l with
    | nil => intro v; simp
    | cons a l ih => intro v; rw [List.foldl_cons, ih]; simp
  have hend : endMeasure ui.fps { begin ui with screen := (begin ui).screen ++ over } =
      { screen := ui.screen, below := ui.screen.length, noEscape := false, fps := ui.fps } := by
    have h1 : (ui.screen ++ [Layer.measuring] ++ over).take ui.screen.length = ui.screen := by
      rw [List.append_assoc, List.take_left' rfl]
    show Ui.mk ((ui.screen ++ [Layer.measuring] ++ over).take ui.screen.length) ui.screen.length false
      (if ui.fps.getD 0 = 0 then none else some (ui.fps.getD 0)) = _
    rw [h1, hfps']
  intro start ui'
  have hui : ui' = { screen := ui.screen ++ dialogs r problem, below := ui.screen.length, noEscape := false, fps := ui.fps } := by
    show finish ui.fps r problem { begin ui with screen := (begin ui).screen ++ over } = _
    rw [finish, fold, hend]
  rw [hui]
  refine ⟨rfl, rfl, rfl, rfl, ?_, ?_, ?_, ?_, ?_, ?_⟩
  · rintro rfl rfl; rfl
  · rintro rfl rfl; exact List.append_nil _
  · rintro m rfl rfl; rfl
  · rintro m rfl rfl; rfl
  · rintro m rfl rfl; rfl
  · rintro m m' rfl rfl; rfl

/-- **C83** (*defect*). `wait` reads the pipes of clang only once clang has ended. If clang writes more on standard
output or on standard error (say, warnings) than a pipe holds, it never ends by itself (C72), so that the measurement
never succeeds: unless the operating system reports an error, it goes on until the user aborts it. -/
theorem c83_too_much_output (cap : Nat) (writes : List (Pipe × Nat)) (p : Pipe) (hw : cap < Verif.Measure.Job.total writes p)
    (env : Env) (hx : env.exit ≠ none → ∃ s, PipeReach cap writes s ∧ s.exited = true)
    (hf : ∀ k, env.fail k = none) (t : Nat) :
    (∀ u, ¬ Waits env t .success u) ∧ ((∃ r u, Waits env t r u) ↔ env.abort ≠ none) := by
  have hnone : env.exit = none := by
    by_contra hc
    have := (Verif.Measure.Job.c72_can_end cap writes).1 (hx hc) p
    omega
  constructor
  · intro u h
    obtain ⟨x, st, he, -⟩ := (c83_meaning env t _ u h).1 rfl
    rw [hnone] at he; cases he
  · rw [(c83_ends env t).1]
    simp [hnone, hf]

/-! ## Concrete cases -/

/-- Clang fails after 100 ms. -/
def failing : Env := ⟨some (100, ⟨false, "exit status: 1".toList⟩), none, fun _ => none, fun _ => 2, none, [], "oops\n".toList⟩

example : ∃ u, Waits failing 0
    (.error "clang time-trace run failed (exit status: 1) with the following stderr output:\n---\noops\n---".toList) u ∧
    100 ≤ u ∧ u ≤ 104 := by
  obtain ⟨u, h1, h2, h3⟩ := c83_completed failing 2 0 100 _ (fun _ => rfl) (fun _ => Nat.le_refl _) rfl (by decide)
    (fun a h => (nomatch h))
  refine ⟨u, ?_, h2, by omega⟩
  have : failureMessage ⟨false, "exit status: 1".toList⟩ [] "oops\n".toList =
    "clang time-trace run failed (exit status: 1) with the following stderr output:\n---\noops\n---".toList := by decide +kernel
  rw [← this]
  exact h1

/-- The user aborts after 50 ms, and would otherwise wait for a second. -/
example : ∃ u, Waits ⟨some (1000, ⟨true, []⟩), some 50, fun _ => none, fun k => k % 3, none, [], []⟩ 0 .canceled u ∧
    50 ≤ u ∧ u ≤ 85 :=
  c83_abort _ 2 0 50 (fun _ => rfl) (fun k => by show k % 3 ≤ 2; omega) rfl (by decide)
    (fun x st h => by cases h; decide) (fun e h => (nomatch h))

/-- An Abort that comes when clang is about to end has no effect: the trace is loaded. -/
example : Waits ⟨some (60, ⟨true, []⟩), some 50, fun _ => none, fun _ => 0, none, [], []⟩ 0 .success 60 :=
  ⟨.exited ⟨true, []⟩, .again (u := 33) (by decide) (by decide) (.other (by decide) (by decide)), by decide⟩

/-- 100 kB of warnings on Linux. -/
example : 65536 < Verif.Measure.Job.total [(.err, 100000)] .err := by decide

example : (begin ⟨[.other 0], 0, false, none⟩).fps = some 30 := by decide

end Verif.Tui.TraceWait
