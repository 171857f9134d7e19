/-
C80: the work queue without sequential consistency.
The protocol of C21/C22/C73 was modelled with interleaved atomic steps. Here is the part of it that goes through the
`futex` word and the shared queue (cmakeperf/src/measure/main.rs:180-248, worker.rs:281-370, mod.rs:87-155), on a memory with
release/acquire semantics: a load may return an old value, and what another thread wrote is only known to be visible once a
release store of that thread has been read by an acquire load.

The memory is the usual machine of views. Every location considered here is written by a single thread, so its
modification order is the order of that thread's stores, and a value is named by its index in that order. A view says, for
each location, which is the oldest value that may still be read.

Simplifications: the shared queue (crossbeam's `Injector`) is a counter of pushed jobs, stored with `Relaxed` ordering (so
that nothing but the `futex` makes pushes visible), and a set of taken jobs (taking is an atomic read-modify-write); a steal
may return `Empty` whenever all the jobs that it sees have been taken, jobs may be taken in any order. `Retry` is a step
that changes nothing and is left out, and so are the queues of the workers, which stay empty since only the shared queue gives
jobs (worker.rs:354). The futex system call compares with the latest value. Any other synchronization between threads
(channel of results, locks) may or may not happen at any time.
-/
import Mathlib.Data.Fintype.Card
import Mathlib.Data.Fintype.BigOperators
import Mathlib.Data.Nat.ModEq
import Verif.Measure.Futex

set_option autoImplicit false
set_option linter.unusedVariables false
set_option linter.unusedSimpArgs false
set_option linter.unusedSectionVars false

namespace Verif.Measure.Weak

open Function (update)

/-! ## Memory -/

/-- Ordering of an access: `Relaxed`, or `Acquire` (loads) / `Release` (stores) -/
inductive Ord where
  | relaxed
  | sync
  deriving DecidableEq

/-- For each location, the index of the oldest value that may be read -/
abbrev View (L : Type) := L → Nat

/-- A stored value, and what a thread that acquires it gets to know -/
structure Msg (L : Type) where
  val : Nat
  view : View L

/-- All the values that were stored at each location, in modification order -/
abbrev Mem (L : Type) := L → List (Msg L)

/-- A thread: what it knows (`cur`), what it would know after an acquire fence (`acq`), what it knew at its last release
fence (`rel`) -/
structure TView (L : Type) where
  cur : View L
  acq : View L
  rel : View L

variable {L : Type} [DecidableEq L]

def View.join (a b : View L) : View L := fun l => max (a l) (b l)

/-- Having read or written the value number `i` of `l` -/
def View.bump (a : View L) (l : L) (i : Nat) : View L := fun k => if k = l then max (a k) i else a k

/-- The thread after it loaded message number `i` of `l` -/
def TView.load (o : Ord) (t : TView L) (l : L) (i : Nat) (m : Msg L) : TView L :=
  match o with
  | .relaxed => ⟨t.cur.bump l i, (t.acq.bump l i).join m.view, t.rel⟩
  | .sync => ⟨(t.cur.bump l i).join m.view, (t.acq.bump l i).join m.view, t.rel⟩

/-- A load returns any value that is not older than what the thread knows. -/
inductive Load (o : Ord) (mem : Mem L) (l : L) (t : TView L) : Nat → TView L → Prop
  | mk (i : Nat) (m : Msg L) (hi : (mem l)[i]? = some m) (hc : t.cur l ≤ i) : Load o mem l t m.val (t.load o l i m)

/-- The view of a message: that of the thread for a release store, that of its last release fence otherwise -/
def TView.publish (o : Ord) (t : TView L) : View L :=
  match o with
  | .relaxed => t.rel
  | .sync => t.cur

/-- Memory after a store -/
def stored (o : Ord) (mem : Mem L) (t : TView L) (l : L) (v : Nat) : Mem L :=
  update mem l (mem l ++ [⟨v, (t.publish o).bump l (mem l).length⟩])

/-- The thread after a store -/
def TView.store (t : TView L) (mem : Mem L) (l : L) : TView L :=
  ⟨t.cur.bump l (mem l).length, t.acq.bump l (mem l).length, t.rel⟩

def TView.fenceAcquire (t : TView L) : TView L := ⟨t.cur.join t.acq, t.acq.join t.cur, t.rel⟩

def TView.fenceRelease (t : TView L) : TView L := ⟨t.cur, t.acq, t.cur⟩

/-- Synchronization by other means: the thread gets to know what another one knew -/
def TView.sync (t u : TView L) : TView L := ⟨t.cur.join u.cur, t.acq.join u.cur, t.rel⟩

/-- The latest value of a location -/
def latest (mem : Mem L) (l : L) : Nat :=
  match (mem l).getLast? with
  | some m => m.val
  | none => 0

/-! ## The work queue -/

/-- `WorkQueue::futex` and the number of pushed jobs, inside `WorkQueue::global` (mod.rs:87-107) -/
inductive Loc where
  | futex
  | tail
  deriving DecidableEq

/-- Main thread -/
inductive MainSt where
  /-- before `start()` -/
  | init
  /-- in `start()`, about to `wake_all` (main.rs:210) -/
  | started
  /-- main loop -/
  | idle
  /-- in `push()`, job pushed, about to store the futex (main.rs:216) -/
  | pushStore
  /-- in `push()`, about to `wake_one` (main.rs:226) -/
  | pushWake
  /-- in `close()`, about to `wake_all` (main.rs:232) -/
  | closeWake
  | over
  deriving DecidableEq

/-- Worker thread; `last` is `last_futex_value` -/
inductive WorkSt where
  /-- about to load the futex in `wait()` (worker.rs:316) -/
  | waitLoad (last : Nat)
  /-- about to call `atomic_wait::wait` (worker.rs:320) -/
  | waitSleep (last : Nat)
  /-- in the kernel's queue -/
  | asleep (last : Nat)
  /-- in `next()`, about to look for a job (worker.rs:343-358) -/
  | look (last : Nat)
  /-- with a job -/
  | got (last : Nat)
  /-- left the loop: because the queue is closed (`true`), or after a failure -/
  | left (finished : Bool)
  deriving DecidableEq

structure St (n : Nat) where
  mem : Mem Loc
  main : MainSt
  /-- `WorkSender::last_futex_value` -/
  last : Nat
  mview : TView Loc
  ws : Fin n → WorkSt
  views : Fin n → TView Loc
  /-- number of jobs pushed so far; jobs are named by their rank -/
  pushed : Nat
  taken : Nat → Bool

variable {n : Nat}

/-- A sleeping worker is woken up. -/
def wake : WorkSt → WorkSt
  | .asleep l => .waitLoad l
  | x => x

/-- Is it in the kernel's queue? -/
def Asleep (x : WorkSt) : Prop := ∃ l, x = .asleep l

/-- No view at all -/
def TView.zero : TView Loc := ⟨fun _ => 0, fun _ => 0, fun _ => 0⟩

/-- Start of the measurement of `jobs` jobs: they were pushed before the threads were spawned (mod.rs:110-119); the workers
call `wait()` first (worker.rs:32, 292-299). -/
def initial (n jobs : Nat) : St n where
  mem := fun l => match l with
    | .futex => [⟨FUTEX_INITIAL, fun _ => 0⟩]
    | .tail => [⟨jobs, fun _ => 0⟩]
  main := .init
  last := FUTEX_INITIAL
  mview := .zero
  ws := fun _ => .waitLoad FUTEX_INITIAL
  views := fun _ => .zero
  pushed := jobs
  taken := fun _ => false

/-- Steps, for the given orderings of the store and of the load of the futex (the code has `Release`, main.rs:240, and
`Acquire`, worker.rs:316). -/
inductive Step (os ol : Ord) : St n → St n → Prop where
  /-- main.rs:205-211 `start()`: store -/
  | start (s : St n) (h : s.main = .init) :
      Step os ol s { s with mem := stored os s.mem s.mview .futex 2, mview := s.mview.store s.mem .futex, last := 2, main := .started }
  /-- ... and `wake_all` -/
  | startWake (s : St n) (h : s.main = .started) : Step os ol s { s with ws := fun w => wake (s.ws w), main := .idle }
  /-- main.rs:215 `push()`: the job -/
  | push (s : St n) (h : s.main = .idle) :
      Step os ol s { s with
        mem := stored .relaxed s.mem s.mview .tail (s.pushed + 1), mview := s.mview.store s.mem .tail,
        pushed := s.pushed + 1, main := .pushStore }
  /-- main.rs:216-225 `push()`: the futex -/
  | pushStore (s : St n) (v : Nat) (h : s.main = .pushStore) (hv : futexNext s.last .push = .ok v) :
      Step os ol s { s with
        mem := stored os s.mem s.mview .futex v, mview := s.mview.store s.mem .futex, last := v, main := .pushWake }
  /-- main.rs:226 `wake_one`, when a worker sleeps ... -/
  | pushWake (s : St n) (w : Fin n) (h : s.main = .pushWake) (hw : Asleep (s.ws w)) :
      Step os ol s { s with ws := update s.ws w (wake (s.ws w)), main := .idle }
  /-- ... and when none does -/
  | pushWakeNone (s : St n) (h : s.main = .pushWake) (hw : ∀ w, ¬ Asleep (s.ws w)) : Step os ol s { s with main := .idle }
  /-- main.rs:230-233, 244-248: the sender is dropped (also by a panic before the start) -/
  | close (s : St n) (h : s.main = .idle ∨ s.main = .init) :
      Step os ol s { s with
        mem := stored os s.mem s.mview .futex FUTEX_FINISHED, mview := s.mview.store s.mem .futex, last := FUTEX_FINISHED,
        main := .closeWake }
  | closeWake (s : St n) (h : s.main = .closeWake) : Step os ol s { s with ws := fun w => wake (s.ws w), main := .over }
  /-- worker.rs:316-320: the value loaded is the last one seen -/
  | loadSame (s : St n) (w : Fin n) (l : Nat) (t : TView Loc) (h : s.ws w = .waitLoad l) (hl : Load ol s.mem .futex (s.views w) l t) :
      Step os ol s { s with ws := update s.ws w (.waitSleep l), views := update s.views w t }
  /-- worker.rs:316-318: it is another one -/
  | loadNew (s : St n) (w : Fin n) (l v : Nat) (t : TView Loc) (h : s.ws w = .waitLoad l)
      (hl : Load ol s.mem .futex (s.views w) v t) (hv : v ≠ l) :
      Step os ol s { s with ws := update s.ws w (.look v), views := update s.views w t }
  /-- `atomic_wait::wait`: sleep if the futex has the expected value -/
  | sleep (s : St n) (w : Fin n) (l : Nat) (h : s.ws w = .waitSleep l) (hl : latest s.mem .futex = l) :
      Step os ol s { s with ws := update s.ws w (.asleep l) }
  | noSleep (s : St n) (w : Fin n) (l : Nat) (h : s.ws w = .waitSleep l) (hl : latest s.mem .futex ≠ l) :
      Step os ol s { s with ws := update s.ws w (.waitLoad l) }
  /-- spurious wake-up -/
  | spurious (s : St n) (w : Fin n) (l : Nat) (h : s.ws w = .asleep l) : Step os ol s { s with ws := update s.ws w (.waitLoad l) }
  /-- worker.rs:354: a job is stolen -/
  | take (s : St n) (w : Fin n) (l j : Nat) (h : s.ws w = .look l) (hj : j < s.pushed) (ht : s.taken j = false) :
      Step os ol s { s with ws := update s.ws w (.got l), taken := update s.taken j true }
  /-- worker.rs:354, 364-367, 308-310: all the jobs that are seen are taken; wait, or leave if the end has been seen -/
  | empty (s : St n) (w : Fin n) (l c : Nat) (t : TView Loc) (h : s.ws w = .look l)
      (hl : Load .relaxed s.mem .tail (s.views w) c t) (hc : ∀ j < c, s.taken j = true) :
      Step os ol s { s with
        ws := update s.ws w (if l = FUTEX_FINISHED then .left true else .waitLoad l), views := update s.views w t }
  /-- worker.rs:33-39: the job has been processed ... -/
  | again (s : St n) (w : Fin n) (l : Nat) (h : s.ws w = .got l) : Step os ol s { s with ws := update s.ws w (.look l) }
  /-- ... or has failed -/
  | fail (s : St n) (w : Fin n) (l : Nat) (h : s.ws w = .got l) : Step os ol s { s with ws := update s.ws w (.left false) }
  /-- A worker, the main thread learns something by other means. -/
  | workerSync (s : St n) (w : Fin n) (u : TView Loc) (hu : u = s.mview ∨ ∃ x, u = s.views x) :
      Step os ol s { s with views := update s.views w ((s.views w).sync u) }
  | mainSync (s : St n) (w : Fin n) : Step os ol s { s with mview := s.mview.sync (s.views w) }

/-- States reached from the start -/
inductive Reach (os ol : Ord) (jobs : Nat) : St n → Prop where
  | init : Reach os ol jobs (initial n jobs)
  | step (s s' : St n) (h : Reach os ol jobs s) (hs : Step os ol s s') : Reach os ol jobs s'

/-! ## Specification -/

/-- Jobs that wait in the queue -/
def waiting (s : St n) : Nat := (List.range s.pushed).countP fun j => !s.taken j

/-- The worker is awake, and will look at the queue before it can sleep: it is looking, or has not seen the latest value of
the futex. -/
def AboutToLook (s : St n) (w : Fin n) : Prop :=
  (∃ l, s.ws w = .look l) ∨ ∃ l, (s.ws w = .waitLoad l ∨ s.ws w = .waitSleep l) ∧ l ≠ latest s.mem .futex

instance (s : St n) (w : Fin n) : Decidable (AboutToLook s w) := by
  unfold AboutToLook
  cases h : s.ws w with
  | waitLoad l => exact decidable_of_iff (l ≠ latest s.mem .futex) (by simp)
  | waitSleep l => exact decidable_of_iff (l ≠ latest s.mem .futex) (by simp)
  | look l => exact .isTrue (by simp)
  | asleep l => exact .isFalse (by simp)
  | got l => exact .isFalse (by simp)
  | left b => exact .isFalse (by simp)

/-- Workers about to look -/
def lookers (s : St n) : Nat := (Finset.univ.filter fun w => AboutToLook s w).card

/-! ## Invariant -/

theorem stored_same (o : Ord) (mem : Mem L) (t : TView L) (l : L) (v : Nat) :
    stored o mem t l v l = mem l ++ [⟨v, (t.publish o).bump l (mem l).length⟩] := by
  simp [stored]

theorem stored_other (o : Ord) (mem : Mem L) (t : TView L) (l k : L) (v : Nat) (h : k ≠ l) : stored o mem t l v k = mem k := by
  simp [stored, h]

theorem latest_stored (o : Ord) (mem : Mem L) (t : TView L) (l : L) (v : Nat) : latest (stored o mem t l v) l = v := by
  simp [latest, stored_same]

theorem latest_other (o : Ord) (mem : Mem L) (t : TView L) (l k : L) (v : Nat) (h : k ≠ l) :
    latest (stored o mem t l v) k = latest mem k := by
  simp [latest, stored_other o mem t l k v h]

theorem bump_le (a : View L) (l k : L) (i : Nat) : a k ≤ a.bump l i k := by
  unfold View.bump; split <;> omega

theorem le_bump (a : View L) (l : L) (i : Nat) : i ≤ a.bump l i l := by
  unfold View.bump; rw [if_pos rfl]; omega

theorem join_left (a b : View L) (k : L) : a k ≤ a.join b k := by
  unfold View.join; omega

theorem join_right (a b : View L) (k : L) : b k ≤ a.join b k := by
  unfold View.join; omega

theorem load_cur (o : Ord) (t : TView L) (l k : L) (i : Nat) (m : Msg L) : t.cur k ≤ (t.load o l i m).cur k := by
  cases o
  · exact bump_le _ _ _ _
  · exact (bump_le _ _ _ _).trans (join_left _ _ _)

theorem load_acquire (t : TView L) (l k : L) (i : Nat) (m : Msg L) : m.view k ≤ (t.load .sync l i m).cur k :=
  join_right _ _ _

/-- Has the main thread stored the end? -/
def MainSt.closed : MainSt → Bool
  | .closeWake | .over => true
  | _ => false

/-- What is known of a worker whose view of the queue is `cur` -/
def WInv (m0 : Nat) (closed : Bool) (flen tlen pushed : Nat) (taken : Nat → Bool) (cur : Nat) : WorkSt → Prop
  | .waitLoad l | .waitSleep l | .asleep l => l ≠ 0 ∧ l ≤ flen ∧ ∀ j, 2 ≤ l → j < m0 + (l - 2) → taken j = true
  | .look l | .got l => l ≤ flen ∧ (2 ≤ l → l - 2 ≤ cur) ∧ (l = 0 → closed = true ∧ tlen - 1 ≤ cur)
  | .left true => closed = true ∧ ∀ j < pushed, taken j = true
  | .left false => True

theorem WInv.mono {m0 : Nat} {c c' : Bool} {f f' t t' p p' : Nat} {k k' : Nat → Bool} {u u' : Nat} {x : WorkSt}
    (h : WInv m0 c f t p k u x) (hf : f ≤ f') (hk : ∀ j, k j = true → k' j = true) (hu : u ≤ u')
    (hc : c = true → c' = true ∧ t' = t ∧ p' = p) : WInv m0 c' f' t' p' k' u' x := by
  cases x with
  | waitLoad l => exact ⟨h.1, h.2.1.trans hf, fun j a b => hk j (h.2.2 j a b)⟩
  | waitSleep l => exact ⟨h.1, h.2.1.trans hf, fun j a b => hk j (h.2.2 j a b)⟩
  | asleep l => exact ⟨h.1, h.2.1.trans hf, fun j a b => hk j (h.2.2 j a b)⟩
  | look l =>
    refine ⟨h.1.trans hf, fun a => (h.2.1 a).trans hu, fun a => ?_⟩
    obtain ⟨h1, h2⟩ := h.2.2 a
    obtain ⟨a1, a2, a3⟩ := hc h1
    exact ⟨a1, by omega⟩
  | got l =>
    refine ⟨h.1.trans hf, fun a => (h.2.1 a).trans hu, fun a => ?_⟩
    obtain ⟨h1, h2⟩ := h.2.2 a
    obtain ⟨a1, a2, a3⟩ := hc h1
    exact ⟨a1, by omega⟩
  | left b =>
    cases b with
    | false => trivial
    | true =>
      obtain ⟨a1, a2, a3⟩ := hc h.1
      exact ⟨a1, fun j hj => hk j (h.2 j (by omega))⟩

theorem WInv.wake {m0 : Nat} {c : Bool} {f t p : Nat} {k : Nat → Bool} {u : Nat} {x : WorkSt}
    (h : WInv m0 c f t p k u x) : WInv m0 c f t p k u (wake x) := by
  cases x <;> exact h

/-- What holds of the lengths of the two histories in each phase of the main thread -/
def Phase (main : MainSt) (f t : Nat) : Prop :=
  match main with
  | .init => f = 1 ∧ t = 1
  | .started => f = 2 ∧ t = 1
  | .idle | .pushWake => f = t + 1
  | .pushStore => f = t ∧ 2 ≤ t
  | .closeWake | .over => True

structure Inv (m0 : Nat) (s : St n) : Prop where
  tlen : 1 ≤ (s.mem .tail).length
  flen : 1 ≤ (s.mem .futex).length
  pushed : s.pushed + 1 = m0 + (s.mem .tail).length
  tval : ∀ i m, (s.mem .tail)[i]? = some m → m.val = m0 + i
  fval : ∀ i m, (s.mem .futex)[i]? = some m → (m.val = i + 1 ∧ i - 1 ≤ m.view .tail) ∨
    (m.val = 0 ∧ s.main.closed = true ∧ (s.mem .tail).length - 1 ≤ m.view .tail)
  phase : Phase s.main (s.mem .futex).length (s.mem .tail).length
  last : s.last = latest s.mem .futex
  opened : s.main.closed = false → latest s.mem .futex = (s.mem .futex).length
  ended : s.main.closed = true → latest s.mem .futex = 0
  mcur : (s.mem .tail).length - 1 ≤ s.mview.cur .tail
  workers : ∀ w, WInv m0 s.main.closed (s.mem .futex).length (s.mem .tail).length s.pushed s.taken ((s.views w).cur .tail) (s.ws w)

theorem inv_initial (m0 : Nat) : Inv m0 (initial n m0) := by
  refine ⟨by simp [initial], by simp [initial], by simp [initial], ?_, ?_, ?_, rfl, fun _ => rfl, fun h => (nomatch h), ?_, ?_⟩
  · intro i m h
    match i with
    | 0 => simp only [initial, List.getElem?_cons_zero, Option.some.injEq] at h; subst h; rfl
    | i + 1 => simp [initial] at h
  · intro i m h
    match i with
    | 0 => simp only [initial, List.getElem?_cons_zero, Option.some.injEq] at h; subst h; exact .inl ⟨rfl, Nat.zero_le _⟩
    | i + 1 => simp [initial] at h
  · exact ⟨rfl, rfl⟩
  · simp [initial]
  · intro w
    refine ⟨by simp [FUTEX_INITIAL], by simp [initial, FUTEX_INITIAL], fun j h => ?_⟩
    simp [FUTEX_INITIAL] at h

theorem getElem?_append_one {α : Type} (xs : List α) (x y : α) (i : Nat) (h : (xs ++ [x])[i]? = some y) :
    xs[i]? = some y ∨ (i = xs.length ∧ x = y) := by
  rcases Nat.lt_trichotomy i xs.length with hi | hi | hi
  · rw [List.getElem?_append_left hi] at h; exact .inl h
  · subst hi; simp at h; exact .inr ⟨rfl, h⟩
  · rw [List.getElem?_eq_none (by simp; omega)] at h; cases h

/-- A store of the futex by the main thread, with release ordering -/
theorem Inv.futex {m0 : Nat} {s : St n} (h : Inv m0 s) (v : Nat) (main : MainSt)
    (hmono : s.main.closed = true → main.closed = true)
    (hv : (main.closed = false ∧ v = (s.mem .futex).length + 1 ∧ (s.mem .futex).length - 1 ≤ (s.mem .tail).length - 1) ∨
      (main.closed = true ∧ v = 0))
    (hphase : Phase main ((s.mem .futex).length + 1) (s.mem .tail).length) :
    Inv m0 { s with mem := stored .sync s.mem s.mview .futex v, mview := s.mview.store s.mem .futex, last := v, main := main } := by
  have et : stored .sync s.mem s.mview .futex v .tail = s.mem .tail := stored_other _ _ _ _ _ _ (by decide)
  have ef := stored_same .sync s.mem s.mview .futex v
  have ev : (TView.publish .sync s.mview).bump .futex (s.mem .futex).length .tail = s.mview.cur .tail := by
    simp [View.bump, TView.publish]
  refine ⟨?_, ?_, ?_, ?_, ?_, ?_, ?_, ?_, ?_, ?_, ?_⟩
  · simp only [et]; exact h.tlen
  · simp [ef]
  · simp only [et]; exact h.pushed
  · simp only [et]; exact h.tval
  · intro i m hm
    simp only [ef] at hm
    simp only [et]
    rcases getElem?_append_one _ _ _ _ hm with hm | ⟨rfl, rfl⟩
    · rcases h.fval i m hm with a | ⟨a, b, c⟩
      · exact .inl a
      · exact .inr ⟨a, hmono b, c⟩
    · have hc := h.mcur
      simp only [ev]
      rcases hv with ⟨a, b, c⟩ | ⟨a, b⟩
      · exact .inl ⟨b, by omega⟩
      · exact .inr ⟨b, a, hc⟩
  · simp only [ef, et, List.length_append, List.length_singleton]; exact hphase
  · simp only [latest_stored]
  · simp only [latest_stored, ef, List.length_append, List.length_singleton]
    intro hc
    rcases hv with ⟨a, b, c⟩ | ⟨a, b⟩
    · exact b
    · rw [a] at hc; cases hc
  · simp only [latest_stored]
    intro hc
    rcases hv with ⟨a, b, c⟩ | ⟨a, b⟩
    · rw [a] at hc; cases hc
    · exact b
  · simp only [et]
    exact h.mcur.trans (bump_le s.mview.cur Loc.futex Loc.tail (s.mem .futex).length)
  · intro w
    simp only [et, ef, List.length_append, List.length_singleton]
    exact (h.workers w).mono (by omega) (fun _ a => a) (Nat.le_refl _) (fun c => ⟨hmono c, rfl, rfl⟩)

/-- A change of the workers only -/
theorem Inv.work {m0 : Nat} {s : St n} (h : Inv m0 s) (ws : Fin n → WorkSt) (views : Fin n → TView Loc) (taken : Nat → Bool)
    (hw : ∀ w, WInv m0 s.main.closed (s.mem .futex).length (s.mem .tail).length s.pushed taken ((views w).cur .tail) (ws w)) :
    Inv m0 { s with ws := ws, views := views, taken := taken } :=
  ⟨h.tlen, h.flen, h.pushed, h.tval, h.fval, h.phase, h.last, h.opened, h.ended, h.mcur, hw⟩

theorem Inv.one {m0 : Nat} {s : St n} (h : Inv m0 s) (w : Fin n) (x : WorkSt) (t : TView Loc) (taken : Nat → Bool)
    (hk : ∀ j, s.taken j = true → taken j = true)
    (hw : WInv m0 s.main.closed (s.mem .futex).length (s.mem .tail).length s.pushed taken (t.cur .tail) x) :
    Inv m0 { s with ws := update s.ws w x, views := update s.views w t, taken := taken } := by
  refine h.work _ _ _ fun w' => ?_
  by_cases e : w' = w
  · subst e; simpa using hw
  · simp only [ne_eq, e, not_false_eq_true, Function.update_of_ne]
    exact (h.workers w').mono (Nat.le_refl _) hk (Nat.le_refl _) (fun c => ⟨c, rfl, rfl⟩)

theorem Inv.oneSt {m0 : Nat} {s : St n} (h : Inv m0 s) (w : Fin n) (x : WorkSt)
    (hw : WInv m0 s.main.closed (s.mem .futex).length (s.mem .tail).length s.pushed s.taken ((s.views w).cur .tail) x) :
    Inv m0 { s with ws := update s.ws w x } := by
  have := h.one w x (s.views w) s.taken (fun _ a => a) hw
  simpa using this

theorem Inv.oneView {m0 : Nat} {s : St n} (h : Inv m0 s) (w : Fin n) (t : TView Loc) (ht : (s.views w).cur .tail ≤ t.cur .tail) :
    Inv m0 { s with views := update s.views w t } := by
  have := h.one w (s.ws w) t s.taken (fun _ a => a) ((h.workers w).mono (Nat.le_refl _) (fun _ a => a) ht (fun c => ⟨c, rfl, rfl⟩))
  simpa using this

theorem Inv.step {m0 : Nat} {s s' : St n} (h : Inv m0 s) (hs : Step .sync .sync s s') (hb : s'.pushed < m0 + 2 ^ 32 - 2) :
    Inv m0 s' := by
  cases hs with
  | start hm =>
    have hp := h.phase; rw [hm] at hp
    refine h.futex 2 .started (fun a => by rw [hm] at a; cases a) (.inl ⟨rfl, ?_, ?_⟩) ?_
    · have := hp.1; omega
    · have := hp.1; omega
    · exact ⟨by have := hp.1; omega, hp.2⟩
  | startWake hm =>
    have hp := h.phase; rw [hm] at hp
    have hc : MainSt.closed .idle = s.main.closed := by rw [hm]; rfl
    refine ⟨h.tlen, h.flen, h.pushed, h.tval, ?_, ?_, h.last, ?_, ?_, h.mcur, ?_⟩
    · simp only [hc]; exact h.fval
    · show _ = _; have := hp.1; have := hp.2; simp only; omega
    · simp only [hc]; exact h.opened
    · simp only [hc]; exact h.ended
    · intro w; simp only [hc]; exact (h.workers w).wake
  | push hm =>
    have hp := h.phase; rw [hm] at hp
    have hc : MainSt.closed .pushStore = s.main.closed := by rw [hm]; rfl
    have hc' : s.main.closed = false := by rw [hm]; rfl
    have et := stored_same .relaxed s.mem s.mview .tail (s.pushed + 1)
    have ef : stored .relaxed s.mem s.mview .tail (s.pushed + 1) .futex = s.mem .futex := stored_other _ _ _ _ _ _ (by decide)
    have el : latest (stored .relaxed s.mem s.mview .tail (s.pushed + 1)) .futex = latest s.mem .futex :=
      latest_other _ _ _ _ _ _ (by decide)
    have hpu := h.pushed
    refine ⟨?_, ?_, ?_, ?_, ?_, ?_, ?_, ?_, ?_, ?_, ?_⟩
    · simp [et]
    · simp only [ef]; exact h.flen
    · simp only [et, List.length_append, List.length_singleton]; omega
    · intro i m hi
      simp only [et] at hi
      rcases getElem?_append_one _ _ _ _ hi with hi | ⟨rfl, rfl⟩
      · exact h.tval i m hi
      · exact hpu
    · intro i m hi
      simp only [ef] at hi
      rcases h.fval i m hi with a | ⟨a, b, c⟩
      · exact .inl a
      · rw [hc'] at b; cases b
    · simp only [ef, et, List.length_append, List.length_singleton]
      have := h.tlen
      exact ⟨hp, by omega⟩
    · simp only [el]; exact h.last
    · simp only [el, hc, ef]; exact h.opened
    · simp only [el, hc]; exact h.ended
    · simp only [et, List.length_append, List.length_singleton, Nat.add_sub_cancel]; exact le_bump s.mview.cur Loc.tail _
    · intro w
      simp only [ef, hc]
      exact (h.workers w).mono (Nat.le_refl _) (fun _ a => a) (Nat.le_refl _) (fun c => by rw [hc'] at c; cases c)
  | pushStore v hm hv =>
    have hp := h.phase; rw [hm] at hp
    obtain ⟨hp, -⟩ : (s.mem .futex).length = (s.mem .tail).length ∧ _ := hp
    have hc : s.main.closed = false := by rw [hm]; rfl
    have ho := h.opened hc
    have hl := h.last
    have hpu := h.pushed
    have hf := h.flen
    simp only at hb
    have hv' : v = (s.mem .futex).length + 1 := by
      simp only [futexNext, FUTEX_FINISHED] at hv
      rw [if_neg (by omega), if_pos (by omega)] at hv
      cases hv; omega
    exact h.futex v .pushWake (fun a => by rw [hm] at a; cases a) (.inl ⟨rfl, hv', by omega⟩) (by show _ = _; omega)
  | pushWake w hm hw =>
    have hp := h.phase; rw [hm] at hp
    have hc : MainSt.closed .idle = s.main.closed := by rw [hm]; rfl
    refine ⟨h.tlen, h.flen, h.pushed, h.tval, ?_, hp, h.last, ?_, ?_, h.mcur, ?_⟩
    · simp only [hc]; exact h.fval
    · simp only [hc]; exact h.opened
    · simp only [hc]; exact h.ended
    · intro w'; simp only [hc]
      by_cases e : w' = w
      · subst e; simp only [Function.update_self]; exact (h.workers w').wake
      · simp only [ne_eq, e, not_false_eq_true, Function.update_of_ne]; exact h.workers w'
  | pushWakeNone hm hw =>
    have hp := h.phase; rw [hm] at hp
    have hc : MainSt.closed .idle = s.main.closed := by rw [hm]; rfl
    refine ⟨h.tlen, h.flen, h.pushed, h.tval, ?_, hp, h.last, ?_, ?_, h.mcur, ?_⟩
    · simp only [hc]; exact h.fval
    · simp only [hc]; exact h.opened
    · simp only [hc]; exact h.ended
    · intro w'; simp only [hc]; exact h.workers w'
  | close hm =>
    exact h.futex _ .closeWake (fun _ => rfl) (.inr ⟨rfl, rfl⟩) trivial
  | closeWake hm =>
    have hc : MainSt.closed .over = s.main.closed := by rw [hm]; rfl
    refine ⟨h.tlen, h.flen, h.pushed, h.tval, ?_, trivial, h.last, ?_, ?_, h.mcur, ?_⟩
    · simp only [hc]; exact h.fval
    · simp only [hc]; exact h.opened
    · simp only [hc]; exact h.ended
    · intro w; simp only [hc]; exact (h.workers w).wake
  | loadSame w l t hw hl =>
    have hi := h.workers w; rw [hw] at hi
    cases hl with
    | mk i m hm hcur =>
      refine h.one w _ _ s.taken (fun _ a => a) ?_
      exact hi
  | loadNew w l v t hw hl hv =>
    cases hl with
    | mk i m hm hcur =>
      refine h.one w _ _ s.taken (fun _ a => a) ?_
      have hlt : i < (s.mem .futex).length := (List.getElem?_eq_some_iff.1 hm).1
      have hview := load_acquire (s.views w) Loc.futex Loc.tail i m
      rcases h.fval i m hm with ⟨a, b⟩ | ⟨a, b, c⟩
      · exact ⟨by omega, fun _ => by omega, fun e => by omega⟩
      · exact ⟨by omega, fun e => by omega, fun _ => ⟨b, c.trans hview⟩⟩
  | sleep w l hw hl =>
    have hi := h.workers w; rw [hw] at hi
    exact h.oneSt w _ hi
  | noSleep w l hw hl =>
    have hi := h.workers w; rw [hw] at hi
    exact h.oneSt w _ hi
  | spurious w l hw =>
    have hi := h.workers w; rw [hw] at hi
    exact h.oneSt w _ hi
  | take w l j hw hj ht =>
    have hi := h.workers w; rw [hw] at hi
    have := h.one w (.got l) (s.views w) (update s.taken j true) ?_ hi
    · simpa using this
    · intro k hk
      by_cases e : k = j
      · subst e; simp
      · simpa [e] using hk
  | empty w l c t hw hl hc =>
    have hi := h.workers w; rw [hw] at hi
    cases hl with
    | mk i m hm hcur =>
      refine h.one w _ _ s.taken (fun _ a => a) ?_
      have hv := h.tval i m hm
      obtain ⟨h1, h2, h3⟩ := hi
      by_cases e : l = FUTEX_FINISHED
      · rw [if_pos e]
        obtain ⟨a, b⟩ := h3 e
        refine ⟨a, fun j hj => hc j ?_⟩
        have := h.pushed
        omega
      · rw [if_neg e]
        refine ⟨e, h1, fun j hj hj' => hc j ?_⟩
        have := h2 hj
        omega
  | again w l hw =>
    have hi := h.workers w; rw [hw] at hi
    exact h.oneSt w _ hi
  | fail w l hw => exact h.oneSt w _ trivial
  | workerSync w u hu => exact h.oneView w _ (join_left _ _ _)
  | mainSync w =>
    exact ⟨h.tlen, h.flen, h.pushed, h.tval, h.fval, h.phase, h.last, h.opened, h.ended, h.mcur.trans (join_left _ _ _), h.workers⟩

theorem Step.pushed_le {os ol : Ord} {s s' : St n} (h : Step os ol s s') : s.pushed ≤ s'.pushed := by
  cases h <;> simp

theorem inv_reach {m0 : Nat} {s : St n} (h : Reach .sync .sync m0 s) : s.pushed < m0 + 2 ^ 32 - 2 → Inv m0 s := by
  induction h with
  | init => intro _; exact inv_initial m0
  | step s s' _ hs ih => exact fun hb => (ih (lt_of_le_of_lt hs.pushed_le hb)).step hs hb

/-! ## Awake workers -/

/-- `AboutToLook` of a worker state, given the latest value of the futex -/
def Looks (lat : Nat) : WorkSt → Prop
  | .look _ => True
  | .waitLoad l | .waitSleep l => l ≠ lat
  | _ => False

theorem aboutToLook_iff (s : St n) (w : Fin n) : AboutToLook s w ↔ Looks (latest s.mem .futex) (s.ws w) := by
  unfold AboutToLook Looks
  cases s.ws w <;> simp

theorem lookers_mono {s s' : St n} (h : ∀ w, AboutToLook s w → AboutToLook s' w) : lookers s ≤ lookers s' := by
  refine Finset.card_le_card fun w hw => ?_
  rw [Finset.mem_filter] at hw ⊢
  exact ⟨hw.1, h w hw.2⟩

theorem lookers_one {s s' : St n} (w0 : Fin n) (h : ∀ w, w ≠ w0 → AboutToLook s w → AboutToLook s' w) :
    lookers s ≤ lookers s' + 1 := by
  have : (Finset.univ.filter fun w => AboutToLook s w) ⊆ insert w0 (Finset.univ.filter fun w => AboutToLook s' w) := by
    intro w hw
    rw [Finset.mem_filter] at hw
    rw [Finset.mem_insert, Finset.mem_filter]
    by_cases e : w = w0
    · exact .inl e
    · exact .inr ⟨hw.1, h w e hw.2⟩
  exact (Finset.card_le_card this).trans (Finset.card_insert_le _ _)

theorem lookers_more {s s' : St n} (w0 : Fin n) (h : ∀ w, AboutToLook s w → AboutToLook s' w) (h0 : ¬ AboutToLook s w0)
    (h1 : AboutToLook s' w0) : lookers s + 1 ≤ lookers s' := by
  have hn : w0 ∉ (Finset.univ.filter fun w => AboutToLook s w) := by
    rw [Finset.mem_filter]; exact fun a => h0 a.2
  have : insert w0 (Finset.univ.filter fun w => AboutToLook s w) ⊆ (Finset.univ.filter fun w => AboutToLook s' w) := by
    intro w hw
    rw [Finset.mem_insert, Finset.mem_filter] at hw
    rw [Finset.mem_filter]
    rcases hw with rfl | hw
    · exact ⟨Finset.mem_univ _, h1⟩
    · exact ⟨hw.1, h w hw.2⟩
  have hle := Finset.card_le_card this
  rw [Finset.card_insert_of_notMem hn] at hle
  exact hle

def count (p : Nat) (taken : Nat → Bool) : Nat := (List.range p).countP fun j => !taken j

theorem count_succ (p : Nat) (taken : Nat → Bool) : count (p + 1) taken = count p taken + if taken p then 0 else 1 := by
  unfold count
  rw [List.range_succ, List.countP_append]
  cases h : taken p <;> simp [h]

theorem count_zero (p : Nat) (taken : Nat → Bool) (h : ∀ j < p, taken j = true) : count p taken = 0 := by
  unfold count
  rw [List.countP_eq_zero]
  intro j hj
  simp [h j (List.mem_range.1 hj)]

theorem count_one (p : Nat) (taken : Nat → Bool) (h : ∀ j, j + 1 < p → taken j = true) : count p taken ≤ 1 := by
  cases p with
  | zero => simp [count]
  | succ p =>
    rw [count_succ, count_zero p taken (fun j hj => h j (by omega))]
    split <;> omega

theorem count_same (p j : Nat) (taken : Nat → Bool) (h : p ≤ j) : count p (update taken j true) = count p taken := by
  unfold count
  refine List.countP_congr fun k hk => ?_
  have := List.mem_range.1 hk
  rw [Function.update_of_ne (by omega)]

theorem count_take (p j : Nat) (taken : Nat → Bool) (h : j < p) (ht : taken j = false) :
    count p (update taken j true) + 1 = count p taken := by
  induction p with
  | zero => omega
  | succ p ih =>
    rw [count_succ, count_succ]
    by_cases e : j = p
    · subst e
      rw [count_same j j taken (Nat.le_refl _), ht]
      simp
    · rw [Function.update_of_ne (by omega)]
      have := ih (by omega)
      omega

/-- When a worker that has looked at the queue after it saw the latest value of the futex goes on waiting, all the jobs are taken
but the one that is being pushed. -/
theorem Inv.waited {m0 : Nat} {s : St n} (h : Inv m0 s) (hm : s.main = .idle ∨ s.main = .pushStore ∨ s.main = .pushWake) (l : Nat)
    (hl : l = latest s.mem .futex) (ht : ∀ j, 2 ≤ l → j < m0 + (l - 2) → s.taken j = true) :
    (∀ j < s.pushed, s.taken j = true) ∨ (s.main = .pushStore ∧ ∀ j, j + 1 < s.pushed → s.taken j = true) := by
  have hp := h.phase
  have hpu := h.pushed
  have htl := h.tlen
  have ho := h.opened
  rcases hm with hm | hm | hm <;> rw [hm] at hp ho <;> have ho := ho rfl
  · left
    have hp : (s.mem .futex).length = (s.mem .tail).length + 1 := hp
    exact fun j hj => ht j (by omega) (by omega)
  · right
    obtain ⟨hp, hp2⟩ : (s.mem .futex).length = (s.mem .tail).length ∧ 2 ≤ (s.mem .tail).length := hp
    refine ⟨hm, fun j hj => ?_⟩
    exact ht j (by omega) (by omega)
  · left
    have hp : (s.mem .futex).length = (s.mem .tail).length + 1 := hp
    exact fun j hj => ht j (by omega) (by omega)

/-- As many workers are about to look as there are jobs, once a worker sleeps; one fewer while a push is going on. -/
def Awake (s : St n) : Prop :=
  s.main = .idle ∨ s.main = .pushStore ∨ s.main = .pushWake → (∃ w, Asleep (s.ws w)) →
    count s.pushed s.taken ≤ lookers s + if s.main = .idle then 0 else 1

theorem Inv.waited_count {m0 : Nat} {s : St n} (h : Inv m0 s) (hm : s.main = .idle ∨ s.main = .pushStore ∨ s.main = .pushWake)
    (l : Nat) (hl : l = latest s.mem .futex) (ht : ∀ j, 2 ≤ l → j < m0 + (l - 2) → s.taken j = true) (x : Nat) :
    count s.pushed s.taken ≤ x + if s.main = .idle then 0 else 1 := by
  rcases h.waited hm l hl ht with a | ⟨a, b⟩
  · rw [count_zero _ _ a]; exact Nat.zero_le _
  · rw [a, if_neg (by decide)]
    have := count_one _ _ b
    omega

/-- A step of one worker which stays about to look if it was -/
theorem Awake.one {s : St n} (h : Awake s) (w : Fin n) (x : WorkSt) (views : Fin n → TView Loc)
    (hx : ¬ Asleep x) (hl : Looks (latest s.mem .futex) (s.ws w) → Looks (latest s.mem .futex) x) :
    Awake { s with ws := update s.ws w x, views := views } := by
  intro hm ⟨v, hv⟩
  have he : ∃ v, Asleep (s.ws v) := by
    refine ⟨v, ?_⟩
    by_cases e : v = w
    · subst e; simp only [Function.update_self] at hv; exact absurd hv hx
    · simpa [e] using hv
  refine (h hm he).trans (Nat.add_le_add_right (lookers_mono fun u hu => ?_) _)
  rw [aboutToLook_iff] at hu ⊢
  by_cases e : u = w
  · subst e; simp only [Function.update_self]; exact hl hu
  · simpa [e] using hu

theorem Awake.step {m0 : Nat} {s s' : St n} (a : Awake s) (h : Inv m0 s) (hs : Step .sync .sync s s') (h' : Inv m0 s') :
    Awake s' := by
  cases hs with
  | start hm => intro hc; simp at hc
  | startWake hm =>
    intro _ ⟨w, hw⟩
    exfalso
    obtain ⟨l, hl⟩ := hw
    simp only [wake] at hl
    cases e : s.ws w <;> rw [e] at hl <;> cases hl
  | push hm =>
    intro _ he
    have hi := a (.inl hm) he
    rw [hm, if_pos rfl] at hi
    rw [if_neg (by simp)]
    show count (s.pushed + 1) s.taken ≤ _
    rw [count_succ]
    have el : latest (stored .relaxed s.mem s.mview .tail (s.pushed + 1)) .futex = latest s.mem .futex :=
      latest_other _ _ _ _ _ _ (by decide)
    have : lookers s ≤ lookers { s with
        mem := stored .relaxed s.mem s.mview .tail (s.pushed + 1), mview := s.mview.store s.mem .tail,
        pushed := s.pushed + 1, main := .pushStore } := by
      refine lookers_mono fun u hu => ?_
      rw [aboutToLook_iff] at hu ⊢
      simp only [el]; exact hu
    split <;> omega
  | pushStore v hm hv =>
    intro _ he
    have hi := a (.inr (.inl hm)) he
    rw [hm, if_neg (by simp)] at hi
    rw [if_neg (by simp)]
    refine hi.trans (Nat.add_le_add_right (lookers_mono fun u hu => ?_) _)
    rw [aboutToLook_iff] at hu ⊢
    have hv' : v = (s.mem .futex).length + 1 := by
      have := h'.opened rfl
      simp only [latest_stored, stored_same, List.length_append, List.length_singleton] at this
      exact this
    have hu' := h.workers u
    simp only [latest_stored]
    revert hu hu'
    cases s.ws u <;> intro hu hu' <;> first | exact hu | (have := hu'.2.1; show _ ≠ _; omega)
  | pushWake w hm hw =>
    intro _ he
    have hm' : s.main = .idle ∨ s.main = .pushStore ∨ s.main = .pushWake := .inr (.inr hm)
    rw [if_pos rfl]
    obtain ⟨l, hl⟩ := hw
    have hi := a hm' ⟨w, l, hl⟩
    rw [hm, if_neg (by simp)] at hi
    have hx := h.workers w; rw [hl] at hx
    by_cases e : l = latest s.mem .futex
    · rcases h.waited hm' l e hx.2.2 with b | ⟨b, _⟩
      · show count s.pushed s.taken ≤ _
        rw [count_zero _ _ b]; exact Nat.zero_le _
      · rw [hm] at b; cases b
    · refine hi.trans ?_
      refine lookers_more w (fun u hu => ?_) ?_ ?_
      · rw [aboutToLook_iff] at hu ⊢
        by_cases e : u = w
        · subst e; rw [hl] at hu; exact hu.elim
        · simpa [e] using hu
      · rw [aboutToLook_iff, hl]; exact id
      · rw [aboutToLook_iff]; simp only [Function.update_self, hl, wake]; exact e
  | pushWakeNone hm hw => intro _ ⟨w, hw'⟩; exact absurd hw' (hw w)
  | close hm => intro hc; simp at hc
  | closeWake hm => intro hc; simp at hc
  | loadSame w l t hw hl =>
    refine a.one w _ _ (fun ⟨_, b⟩ => (nomatch b)) ?_
    rw [hw]; exact id
  | loadNew w l v t hw hl hv =>
    exact a.one w _ _ (fun ⟨_, b⟩ => (nomatch b)) (fun _ => trivial)
  | sleep w l hw hl =>
    intro hm _
    have hx := h.workers w; rw [hw] at hx
    exact h.waited_count hm l hl.symm hx.2.2 _
  | noSleep w l hw hl =>
    exact a.one w _ _ (fun ⟨_, b⟩ => (nomatch b)) (fun _ => fun e => hl e.symm)
  | spurious w l hw =>
    refine a.one w _ _ (fun ⟨_, b⟩ => (nomatch b)) ?_
    rw [hw]; exact False.elim
  | take w l j hw hj ht =>
    intro hm ⟨v, hv⟩
    have he : ∃ v, Asleep (s.ws v) := by
      refine ⟨v, ?_⟩
      by_cases e : v = w
      · subst e
        simp only [Function.update_self] at hv
        obtain ⟨_, hv⟩ := hv; cases hv
      · simpa [e] using hv
    have hi := a hm he
    show count s.pushed (update s.taken j true) ≤ _
    have := count_take s.pushed j s.taken hj ht
    have : lookers s ≤ lookers { s with ws := update s.ws w (.got l), taken := update s.taken j true } + 1 := by
      refine lookers_one w fun u e hu => ?_
      rw [aboutToLook_iff] at hu ⊢
      simpa [e] using hu
    simp only at hi ⊢
    omega
  | empty w l c t hw hl hc =>
    by_cases e : l = FUTEX_FINISHED
    · intro hm
      have hx := h.workers w; rw [hw] at hx
      have := (hx.2.2 e).1
      simp only at hm
      rcases hm with hm | hm | hm <;> rw [hm] at this <;> cases this
    · by_cases e' : l = latest s.mem .futex
      · intro hm _
        have hx := h'.workers w
        simp only [Function.update_self, if_neg e] at hx
        exact h.waited_count hm l e' hx.2.2 _
      · rw [if_neg e]
        exact a.one w _ _ (fun ⟨_, b⟩ => (nomatch b)) (fun _ => e')
  | again w l hw =>
    exact a.one w _ _ (fun ⟨_, b⟩ => (nomatch b)) (fun _ => trivial)
  | fail w l hw =>
    refine a.one w _ _ (fun ⟨_, b⟩ => (nomatch b)) ?_
    rw [hw]; exact False.elim
  | workerSync w u hu => exact a
  | mainSync w => exact a

theorem awake_reach {m0 : Nat} {s : St n} (h : Reach .sync .sync m0 s) : s.pushed < m0 + 2 ^ 32 - 2 → Awake s := by
  induction h with
  | init => intro _ hm; simp [initial] at hm
  | step s s' hr hs ih =>
    intro hb
    have hb' := lt_of_le_of_lt hs.pushed_le hb
    exact (ih hb').step (inv_reach hr hb') hs (inv_reach (.step s s' hr hs) hb)

/-- After the end, nobody sleeps for long: `wake_all` follows, and no worker falls asleep. -/
def Ended (s : St n) : Prop := s.main = .over → ∀ w, ¬ Asleep (s.ws w)

theorem Ended.step {m0 : Nat} {s s' : St n} (a : Ended s) (h : Inv m0 s) (hs : Step .sync .sync s s') : Ended s' := by
  have key : ∀ (w : Fin n) (x : WorkSt) (views : Fin n → TView Loc) (taken : Nat → Bool), (s.main = .over → ¬ Asleep x) →
      Ended { s with ws := update s.ws w x, views := views, taken := taken } := by
    intro w x views taken hx hm v hv
    by_cases e : v = w
    · subst e; simp only [Function.update_self] at hv; exact hx hm hv
    · simp only [ne_eq, e, not_false_eq_true, Function.update_of_ne] at hv; exact a hm v hv
  cases hs with
  | start hm => intro hc; cases hc
  | startWake hm => intro hc; cases hc
  | push hm => intro hc; cases hc
  | pushStore v hm hv => intro hc; cases hc
  | pushWake w hm hw => intro hc; cases hc
  | pushWakeNone hm hw => intro hc; cases hc
  | close hm => intro hc; cases hc
  | closeWake hm =>
    intro _ w ⟨l, hl⟩
    simp only [wake] at hl
    cases e : s.ws w <;> rw [e] at hl <;> cases hl
  | loadSame w l t hw hl => exact key w _ _ _ (fun _ ⟨_, b⟩ => (nomatch b))
  | loadNew w l v t hw hl hv => exact key w _ _ _ (fun _ ⟨_, b⟩ => (nomatch b))
  | sleep w l hw hl =>
    refine key w _ _ _ (fun hm => ?_)
    exfalso
    have hx := h.workers w; rw [hw] at hx
    exact hx.1 (by rw [← hl]; exact h.ended (by rw [hm]; rfl))
  | noSleep w l hw hl => exact key w _ _ _ (fun _ ⟨_, b⟩ => (nomatch b))
  | spurious w l hw => exact key w _ _ _ (fun _ ⟨_, b⟩ => (nomatch b))
  | take w l j hw hj ht => exact key w _ _ _ (fun _ ⟨_, b⟩ => (nomatch b))
  | empty w l c t hw hl hc => exact key w _ _ _ (fun _ ⟨_, b⟩ => by split at b <;> cases b)
  | again w l hw => exact key w _ _ _ (fun _ ⟨_, b⟩ => (nomatch b))
  | fail w l hw => exact key w _ _ _ (fun _ ⟨_, b⟩ => (nomatch b))
  | workerSync w u hu => exact a
  | mainSync w => exact a

theorem ended_reach {m0 : Nat} {s : St n} (h : Reach .sync .sync m0 s) : s.pushed < m0 + 2 ^ 32 - 2 → Ended s := by
  induction h with
  | init => intro _ hm; simp [initial] at hm
  | step s s' hr hs ih =>
    intro hb
    have hb' := lt_of_le_of_lt hs.pushed_le hb
    exact (ih hb').step (inv_reach hr hb') hs

/-! ## Theorems -/

/-- **C80 (sleep).** With the orderings of the code, a worker that sleeps on the latest value of the futex while the main thread
is between two operations has missed nothing: every job that was pushed has been taken. -/
theorem c80_sleep {jobs : Nat} {s : St n} {w : Fin n} {l : Nat} (h : Reach .sync .sync jobs s)
    (hb : s.pushed < jobs + 2 ^ 32 - 2) (hm : s.main = .idle ∨ s.main = .pushStore ∨ s.main = .pushWake)
    (hw : s.ws w = .waitSleep l) (hl : latest s.mem .futex = l) :
    ∀ j < s.pushed, s.taken j = true ∨ (s.main = .pushStore ∧ j + 1 = s.pushed) := by
  have hi := inv_reach h hb
  have hx := hi.workers w; rw [hw] at hx
  intro j hj
  rcases hi.waited hm l hl.symm hx.2.2 with a | ⟨a, b⟩
  · exact .inl (a j hj)
  · by_cases e : j + 1 = s.pushed
    · exact .inr ⟨a, e⟩
    · exact .inl (b j (by omega))

/-- **C80 (wake-ups).** With the orderings of the code, once a worker sleeps and between two operations of the main thread,
at least as many workers are awake and about to look at the queue as there are jobs in it: no wake-up is lost. -/
theorem c80_enough_awake {jobs : Nat} {s : St n} (h : Reach .sync .sync jobs s) (hb : s.pushed < jobs + 2 ^ 32 - 2)
    (hm : s.main = .idle) (w : Fin n) (hw : Asleep (s.ws w)) : waiting s ≤ lookers s := by
  have := awake_reach h hb (.inl hm) ⟨w, hw⟩
  rw [hm, if_pos rfl] at this
  exact this

/-- **C80 (end).** A worker leaves without a failure only after the queue was closed and when every job was taken; after the
end of the queue nobody sleeps. -/
theorem c80_end {jobs : Nat} {s : St n} (h : Reach .sync .sync jobs s) (hb : s.pushed < jobs + 2 ^ 32 - 2) :
    (∀ w, s.ws w = .left true → (s.main = .closeWake ∨ s.main = .over) ∧ ∀ j < s.pushed, s.taken j = true) ∧
    (s.main = .over → ∀ w, ¬ Asleep (s.ws w)) := by
  refine ⟨fun w hw => ?_, ended_reach h hb⟩
  have hx := (inv_reach h hb).workers w
  rw [hw] at hx
  obtain ⟨a, b⟩ := hx
  refine ⟨?_, b⟩
  revert a
  cases s.main <;> simp [MainSt.closed]

/-! ## What the orderings are for -/

/-- One worker, no job at the start. It has seen the start and found the queue empty, then a job is pushed. -/
theorem one_pushed (os ol : Ord) : ∃ s : St 1, Reach os ol 0 s ∧ s.main = .pushWake ∧ s.ws = (fun _ => .waitLoad 2) ∧
    s.pushed = 1 ∧ s.taken = (fun _ => false) ∧ (s.views 0).cur .tail = 0 ∧ (s.views 0).cur .futex = 1 ∧
    s.mem .tail = [⟨0, fun _ => 0⟩, ⟨1, View.bump (fun _ => 0) .tail 1⟩] ∧ latest s.mem .futex = 3 ∧
    (∃ m, (s.mem .futex)[2]? = some m ∧ m.val = 3 ∧ m.view .futex ≤ 2 ∧ (os = .relaxed → m.view .tail = 0)) := by
  have h0 : Reach os ol 0 (initial 1 0) := .init
  have h1 := Reach.step _ _ h0 (.start _ rfl)
  have h2 := Reach.step _ _ h1 (.startWake _ rfl)
  have h3 := Reach.step _ _ h2 (.loadNew _ 0 1 2 _ rfl
    (Load.mk 1 ⟨2, (TView.publish os TView.zero).bump .futex 1⟩ (by cases os <;> rfl) (by cases os <;> decide)) (by decide))
  have h4 := Reach.step _ _ h3 (.empty _ 0 2 0 _ rfl
    (Load.mk 0 ⟨0, fun _ => 0⟩ (by cases os <;> rfl) (by cases os <;> cases ol <;> decide)) (fun j hj => absurd hj (Nat.not_lt_zero j)))
  have h5 := Reach.step _ _ h4 (.push _ rfl)
  have h6 := Reach.step _ _ h5 (.pushStore _ 3 rfl (by rfl))
  refine ⟨_, h6, rfl, ?_, rfl, rfl, ?_, ?_, ?_, ?_, ?_⟩
  · funext w
    have : w = 0 := Subsingleton.elim _ _
    subst this; rfl
  · cases os <;> cases ol <;> decide
  · cases os <;> cases ol <;> decide
  · cases os <;> rfl
  · cases os <;> rfl
  · refine ⟨⟨3, (TView.publish os _).bump .futex 2⟩, by cases os <;> rfl, rfl, by cases os <;> cases ol <;> decide, ?_⟩
    intro h; subst h; rfl

/-- **C80 (orderings).** Each of the two orderings is needed: if the store of the futex were not `Release`, or its load not
`Acquire`, there would be an execution with one worker where a job that was pushed waits in the queue, the main thread has
nothing more to do for it, and the worker sleeps. -/
theorem c80_orderings (os ol : Ord) (h : ¬ (os = .sync ∧ ol = .sync)) :
    ∃ s : St 1, Reach os ol 0 s ∧ s.main = .idle ∧ Asleep (s.ws 0) ∧ waiting s = 1 ∧ lookers s = 0 := by
  obtain ⟨s, hr, hm, hws, hp, hk, hv, hv', ht, hl, m, hi, hmv, hmf, hrel⟩ := one_pushed os ol
  have e0 : s.ws 0 = .waitLoad 2 := by rw [hws]
  have h1 := Reach.step _ _ hr (.loadNew s 0 2 m.val _ e0 (Load.mk 2 m hi (by omega)) (by omega))
  have hcur : ((s.views 0).load ol .futex 2 m).cur .tail ≤ 0 := by
    cases ol with
    | relaxed => simp [TView.load, View.bump, hv]
    | sync =>
      cases os with
      | relaxed => simp [TView.load, View.bump, View.join, hv, hrel rfl]
      | sync => exact absurd ⟨rfl, rfl⟩ h
  have h2 := Reach.step _ _ h1 (.empty _ 0 m.val 0 _ (by simp)
    (Load.mk 0 ⟨0, fun _ => 0⟩ (by simp [ht]) (by simpa using hcur)) (fun j hj => absurd hj (Nat.not_lt_zero j)))
  have h3 := Reach.step _ _ h2 (.pushWakeNone _ hm (fun w => by
    have : w = 0 := Subsingleton.elim _ _
    subst this
    rintro ⟨l, hl⟩
    simp [hmv, FUTEX_FINISHED] at hl))
  have h4 := Reach.step _ _ h3 (.loadSame _ 0 m.val _ (by simp [hmv, FUTEX_FINISHED])
    (Load.mk 2 m hi (by
      cases ol with
      | relaxed => simp [TView.load, View.bump, hv']
      | sync => simp [TView.load, View.bump, View.join, hv']; exact hmf)))
  have h5 := Reach.step _ _ h4 (.sleep _ 0 m.val (by simp) (by simp [hl, hmv]))
  refine ⟨_, h5, rfl, ⟨m.val, by simp⟩, by simp [waiting, hp, hk], ?_⟩
  rw [lookers, Finset.card_eq_zero, Finset.filter_eq_empty_iff]
  intro w _
  have : w = 0 := Subsingleton.elim _ _
  subst this
  rw [aboutToLook_iff]
  simp [Looks]

/-- Non-vacuity of `c80_sleep`, `c80_enough_awake` and `c80_end`: one worker which sleeps, after which a job is pushed; with
`wake_one`, it is about to look. -/
example : ∃ s : St 2, Reach .sync .sync 0 s ∧ s.pushed = 1 ∧ s.main = .idle ∧ Asleep (s.ws 1) ∧ waiting s = 1 ∧ lookers s = 1 := by
  have h0 : Reach .sync .sync 0 (initial 2 0) := .init
  have h1 := Reach.step _ _ h0 (.start _ rfl)
  have h2 := Reach.step _ _ h1 (.startWake _ rfl)
  have h3 := Reach.step _ _ h2 (.loadNew _ 0 1 2 _ rfl
    (Load.mk 1 ⟨2, View.bump (fun _ => 0) .futex 1⟩ rfl (by decide)) (by decide))
  have h4 := Reach.step _ _ h3 (.empty _ 0 2 0 _ rfl (Load.mk 0 ⟨0, fun _ => 0⟩ rfl (by decide)) (fun j hj => absurd hj (Nat.not_lt_zero j)))
  have h5 := Reach.step _ _ h4 (.loadSame _ 0 2 _ rfl (Load.mk 1 ⟨2, View.bump (fun _ => 0) .futex 1⟩ rfl (by decide)))
  have h6 := Reach.step _ _ h5 (.sleep _ 0 2 rfl rfl)
  have h7 := Reach.step _ _ h6 (.loadNew _ 1 1 2 _ rfl
    (Load.mk 1 ⟨2, View.bump (fun _ => 0) .futex 1⟩ rfl (by decide)) (by decide))
  have h8 := Reach.step _ _ h7 (.empty _ 1 2 0 _ rfl (Load.mk 0 ⟨0, fun _ => 0⟩ rfl (by decide)) (fun j hj => absurd hj (Nat.not_lt_zero j)))
  have h9 := Reach.step _ _ h8 (.loadSame _ 1 2 _ rfl (Load.mk 1 ⟨2, View.bump (fun _ => 0) .futex 1⟩ rfl (by decide)))
  have h10 := Reach.step _ _ h9 (.sleep _ 1 2 rfl rfl)
  have h11 := Reach.step _ _ h10 (.push _ rfl)
  have h12 := Reach.step _ _ h11 (.pushStore _ 3 rfl rfl)
  have h13 := Reach.step _ _ h12 (.pushWake _ 0 rfl ⟨2, rfl⟩)
  exact ⟨_, h13, rfl, rfl, ⟨2, rfl⟩, rfl, by decide⟩

/-- Non-vacuity of `c80_end`: a job that is pushed, then the end; the worker does the job, and leaves. -/
example : ∃ s : St 1, Reach .sync .sync 0 s ∧ s.pushed = 1 ∧ s.main = .over ∧ s.ws 0 = .left true := by
  have h0 : Reach .sync .sync 0 (initial 1 0) := .init
  have h1 := Reach.step _ _ h0 (.start _ rfl)
  have h2 := Reach.step _ _ h1 (.startWake _ rfl)
  have h3 := Reach.step _ _ h2 (.push _ rfl)
  have h4 := Reach.step _ _ h3 (.pushStore _ 3 rfl rfl)
  have h5 := Reach.step _ _ h4 (.pushWakeNone _ rfl (fun w => by
    have : w = 0 := Subsingleton.elim _ _
    subst this
    rintro ⟨l, hl⟩
    cases hl))
  have h6 := Reach.step _ _ h5 (.close _ (.inl rfl))
  have h7 := Reach.step _ _ h6 (.closeWake _ rfl)
  have h8 := Reach.step _ _ h7 (.loadNew _ 0 1 0 _ rfl (Load.mk 3
    ⟨0, ((((View.bump (fun _ => 0) .futex 1).bump .tail 1).bump .futex 2).bump .futex 3)⟩ rfl (by decide)) (by decide))
  have h9 := Reach.step _ _ h8 (.take _ 0 0 0 rfl (by decide) rfl)
  have h10 := Reach.step _ _ h9 (.again _ 0 0 rfl)
  have h11 := Reach.step _ _ h10 (.empty _ 0 0 1 _ rfl (Load.mk 1 ⟨1, View.bump (fun _ => 0) .tail 1⟩ rfl (by decide)) (fun j hj => by
    have : j = 0 := by omega
    subst this; rfl))
  exact ⟨_, h11, rfl, rfl, rfl⟩

end Verif.Measure.Weak
