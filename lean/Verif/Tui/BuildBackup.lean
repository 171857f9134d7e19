import Verif.Tui.TraceBackup

/-!
# C44: an aborted or failed build profile measurement restores the previous profile

`measure_profile` and `MeasureHandle` of src/ui/tui/build/measure.rs, together with the measurement
thread of cmakeperf/src/measure (`Measurement::start`, `main::run`, `Drop for Measurement`), as a
transition system. What matters here is the order of things on exit: `Drop for MeasureHandle`
restores the backup *before* its `_measurement` field is dropped, which is what stops and joins the
measurement thread.
-/

set_option autoImplicit false
set_option linter.unusedVariables false
set_option linter.unusedSimpArgs false
set_option linter.unusedSectionVars false

namespace Verif.Tui.Build

open Verif.Tui.Trace (first)

variable {P C : Type} [DecidableEq P]

/-- Where the UI thread is: before `MeasureHandle::start` (build/measure.rs 60-69), gave up because the
backup failed (167-173), inside `cursive.run()` (88), at the head of `Drop::drop` (224-226), about to
rename the backup (210), about to delete the output (211), about to set the kill flag
(measure/mod.rs 86-88), joining (89-91), returned (build/measure.rs 101-118). -/
inductive Ui where
  | start | refused | running | dropCheck | dropRename | dropRemove | killing | joining
  | done (ret : Bool)
  deriving DecidableEq

/-- Where the measurement thread is: not spawned, about to call `File::create` (measure/main.rs 35),
measuring with the output open as inode `fd`, returned from `main::run` with `Ok`/`Err`, stored
`success` (build/measure.rs 180-182), exited. -/
inductive Th where
  | notStarted | create
  | working (fd : Nat)
  | ending (ok : Bool) | notified (ok : Bool)
  | exited
  deriving DecidableEq

/-- Global state. `success`, `outcome`, `kill`: the shared variables of the code; `quit`: the end
notification reached cursive; `abort`: the user pressed Abort or quit; `ioErr`: a rename or remove
failed with an error other than `NotFound`. History: `saw` is what `Drop` read from `success`, `late`
that `File::create` happened after the backup was restored. -/
structure St (P C : Type) where
  fs : Fs P C
  ui : Ui
  th : Th
  success : Bool
  outcome : Option Bool
  quit : Bool
  abort : Bool
  kill : Bool
  ioErr : Bool
  saw : Bool
  late : Bool

/-- The backup has been dealt with. -/
def Ui.restored : Ui → Bool
  | .killing | .joining | .done _ => true
  | _ => false

/-- One step. `o` profile path, `b` backup path, `empty` content of a truncated file, `full` content of
a complete profile.

UI thread: `backup…` (159-174) then `Measurement::start` (186-196); `abort` (84); `quit` (56, 88);
`dropSaw`/`dropUnsaw` (224); `rename…`, `remove…` (209-218); `setKill`, `join` (measure/mod.rs 85-92);
the value returned is decided by `outcome` (101-118).

Measurement thread: `create…` (main.rs 35); `write` (98); `fail` covers every way `main::run` can
return an error or panic (72-76, 91, 98, 105, 120), including noticing the kill flag, which it is not
forced to do before finishing; `finish` (119-120); `notify…` (build/measure.rs 180-183, 51-56). -/
inductive Step (o b : P) (empty full : C) : St P C → St P C → Prop where
  | backup (s) (h : s.ui = .start) :
      Step o b empty full s { s with fs := (s.fs.rename o b).2, ui := .running, th := .create }
  | backupErr (s) (h : s.ui = .start) : Step o b empty full s { s with ui := .refused, ioErr := true }
  | abort (s) (h : s.ui = .running) : Step o b empty full s { s with abort := true }
  | quit (s) (h : s.ui = .running) (hq : s.quit = true ∨ s.abort = true) : Step o b empty full s { s with ui := .dropCheck }
  | dropSaw (s) (h : s.ui = .dropCheck) (hs : s.success = true) : Step o b empty full s { s with ui := .killing, saw := true }
  | dropUnsaw (s) (h : s.ui = .dropCheck) (hs : s.success = false) : Step o b empty full s { s with ui := .dropRename }
  | rename (s) (h : s.ui = .dropRename) (hok : (s.fs.rename b o).1 = .ok) :
      Step o b empty full s { s with fs := (s.fs.rename b o).2, ui := .killing }
  | renameNotFound (s) (h : s.ui = .dropRename) (hok : (s.fs.rename b o).1 = .notFound) :
      Step o b empty full s { s with ui := .dropRemove }
  | renameErr (s) (h : s.ui = .dropRename) : Step o b empty full s { s with ui := .dropRemove, ioErr := true }
  | remove (s) (h : s.ui = .dropRemove) : Step o b empty full s { s with fs := (s.fs.remove o).2, ui := .killing }
  | removeErr (s) (h : s.ui = .dropRemove) : Step o b empty full s { s with ui := .killing, ioErr := true }
  | setKill (s) (h : s.ui = .killing) : Step o b empty full s { s with ui := .joining, kill := true }
  | join (s) (h : s.ui = .joining) (ht : s.th = .exited) : Step o b empty full s { s with ui := .done (s.outcome = some true) }
  | create (s) (h : s.th = .create) :
      Step o b empty full s { s with fs := (s.fs.create o empty).2, th := .working (s.fs.create o empty).1, late := s.ui.restored }
  | createErr (s) (h : s.th = .create) : Step o b empty full s { s with th := .ending false }
  | write (s) (fd : Nat) (c : C) (h : s.th = .working fd) : Step o b empty full s { s with fs := s.fs.write fd c }
  | fail (s) (fd : Nat) (h : s.th = .working fd) : Step o b empty full s { s with th := .ending false }
  | finish (s) (fd : Nat) (h : s.th = .working fd) : Step o b empty full s { s with fs := s.fs.write fd full, th := .ending true }
  | notify (s) (ok : Bool) (h : s.th = .ending ok) : Step o b empty full s { s with th := .notified ok, success := ok }
  | notifyEnd (s) (ok : Bool) (h : s.th = .notified ok) :
      Step o b empty full s { s with th := .exited, outcome := some ok, quit := true }

/-- State when `measure_profile` is called in file system `fs0`. -/
def initSt (fs0 : Fs P C) : St P C :=
  { fs := fs0, ui := .start, th := .notStarted, success := false, outcome := none, quit := false, abort := false, kill := false, ioErr := false, saw := false, late := false }

/-- Reachable states. -/
inductive Reach (o b : P) (empty full : C) (fs0 : Fs P C) : St P C → Prop where
  | init : Reach o b empty full fs0 (initSt fs0)
  | step {s s'} (h : Reach o b empty full fs0 s) (hs : Step o b empty full s s') : Reach o b empty full fs0 s'

/-! ## The flags, independently of the files -/

/-- How the shared variables relate to where both threads are. -/
structure Flags (s : St P C) : Prop where
  start : s.ui = .start ∨ s.ui = .refused ↔ s.th = .notStarted
  early : s.th = .notStarted ∨ s.th = .create ∨ (∃ i, s.th = .working i) ∨ (∃ r, s.th = .ending r) → s.success = false
  notif : ∀ r, s.th = .notified r → s.success = r
  out : s.th = .exited → s.outcome = some s.success
  noOut : s.th ≠ .exited → s.outcome = none ∧ s.quit = false
  asked : s.ui ≠ .start → s.ui ≠ .refused → s.ui ≠ .running → s.abort = false → s.th = .exited
  sawOk : s.saw = true → s.success = true
  sawAt : s.ui.restored = false → s.saw = false
  calm : s.ui.restored = true ∨ s.ui = .dropRename ∨ s.ui = .dropRemove → s.abort = false → s.saw = s.success
  ret : ∀ r, s.ui = .done r → s.th = .exited ∧ (r = true ↔ s.success = true)
  refused : s.ui = .refused → s.ioErr = true
  lateAt : s.ui.restored = false → s.late = false
  lateCr : s.th = .create → s.late = false
  lateAb : s.late = true → s.abort = true
  lateSaw : s.late = true → s.saw = false

theorem flags_init (fs0 : Fs P C) : Flags (initSt fs0) := by
  constructor <;> simp [initSt, Ui.restored]

set_option maxHeartbeats 4000000 in
theorem flags_step {o b : P} {empty full : C} {s s' : St P C} (h : Flags s) (hs : Step o b empty full s s') : Flags s' := by
  obtain ⟨h1, h2, h3, h4, h5, h6, h7, h8, h9, h10, h11, h12, h13, h14, h15⟩ := h
  cases hs <;> constructor <;> first | assumption | grind [Ui.restored] | (simp_all [Ui.restored]; done)

/-! ## The files -/

/-- What is known of the files, given `Flags`. `X` is the inode that must survive. -/
structure Files (o b : P) (full : C) (fs0 : Fs P C) (s : St P C) : Prop where
  wf : s.fs.Wf
  start : s.ui = .start ∨ s.ui = .refused → s.fs = fs0
  /-- until the backup is dealt with, and for ever if the measurement was seen to succeed, it is at `b` -/
  bak : s.ui ≠ .start → s.ui ≠ .refused → (s.ui.restored = false ∨ s.saw = true) →
    s.fs.dir b = first (fs0.dir o) (fs0.dir b)
  gone : s.ui = .dropRemove → s.ioErr = false → s.fs.dir b = none
  /-- the saved inode keeps its content and is out of reach of the measurement thread -/
  data : s.late = false → ∀ i, first (fs0.dir o) (fs0.dir b) = some i → s.fs.data i = fs0.data i
  fd : s.late = false → ∀ i, s.th = .working i → first (fs0.dir o) (fs0.dir b) ≠ some i
  lt : ∀ i, s.th = .working i → i < s.fs.next
  /-- the measurement's own output is at `o` until the backup is dealt with -/
  outNone : s.ui = .running ∨ s.ui = .dropCheck ∨ s.ui = .dropRename ∨ s.ui = .dropRemove → s.th = .create → s.fs.dir o = none
  outFd : s.ui = .running ∨ s.ui = .dropCheck ∨ s.ui = .dropRename ∨ s.ui = .dropRemove → ∀ i, s.th = .working i → s.fs.dir o = some i
  outFull : s.ui = .running ∨ s.ui = .dropCheck ∨ s.ui = .dropRename ∨ s.ui = .dropRemove →
    s.th = .ending true ∨ s.th = .notified true ∨ (s.th = .exited ∧ s.success = true) → s.fs.read o = some full
  sawFull : s.saw = true → s.fs.read o = some full
  /-- once restored -/
  put : s.ui.restored = true → s.saw = false → s.late = false →
    (s.ioErr = false → s.fs.dir o = first (fs0.dir o) (fs0.dir b) ∧ s.fs.dir b = none) ∧
    (s.fs.dir o = first (fs0.dir o) (fs0.dir b) ∨ s.fs.dir b = first (fs0.dir o) (fs0.dir b))

theorem files_init (o b : P) (full : C) (fs0 : Fs P C) (hw : fs0.Wf) : Files o b full fs0 (initSt fs0) := by
  constructor <;> simp [initSt, Ui.restored]
  exact hw

/-- Steps that change neither the files nor what `Files` knows about. -/
theorem files_step {o b : P} (hob : o ≠ b) {empty full : C} {fs0 : Fs P C} (hw : fs0.Wf) {s s' : St P C} (hf : Flags s)
    (h : Files o b full fs0 s) (hs : Step o b empty full s s') : Files o b full fs0 s' := by
  have hfl : ∀ r, first (fs0.dir o) (fs0.dir b) = some r → r < fs0.next := by
    intro r hr
    cases e : fs0.dir o with
    | some j => rw [e] at hr; cases hr; exact hw.lt _ _ e
    | none => rw [e] at hr; exact hw.lt _ _ hr
  cases hs with
  | backup hu =>
    have hfs := h.start (Or.inl hu)
    have hb : (s.fs.rename o b).2.dir b = first (fs0.dir o) (fs0.dir b) := by
      rw [dir_rename _ _ _ hob, hfs]; cases e : fs0.dir o <;> simp [first]
    have ho : (s.fs.rename o b).2.dir o = none := by
      rw [dir_rename _ _ _ hob]; cases e : s.fs.dir o <;> simp [hob]
    have hsaw : s.saw = false := hf.sawAt (by rw [hu]; rfl)
    constructor <;> simp [Ui.restored, hsaw]
    · rw [hfs]; exact wf_rename hw _ _ hob
    · exact hb
    · intro _ i _; rw [data_rename, hfs]
    · exact ho
  | rename hu hok =>
    have hb : s.fs.dir b ≠ none := by
      intro e; rw [rename_res] at hok; simp [e] at hok
    have hsaw : s.saw = false := hf.sawAt (by rw [hu]; rfl)
    have hbak := h.bak (by simp [hu]) (by simp [hu]) (Or.inl (by rw [hu]; rfl))
    have hd : (s.fs.rename b o).2.dir o = first (fs0.dir o) (fs0.dir b) := by
      rw [dir_rename _ _ _ hob.symm, if_neg hb, if_pos rfl, hbak]
    have hd' : (s.fs.rename b o).2.dir b = none := by
      rw [dir_rename _ _ _ hob.symm]; simp [hb, hob.symm]
    constructor <;> simp [Ui.restored, hsaw]
    · exact wf_rename h.wf _ _ hob.symm
    · rw [data_rename]; exact h.data
    · exact h.fd
    · rw [next_rename]; exact h.lt
    · exact fun _ => ⟨fun _ => ⟨hd, hd'⟩, Or.inl hd⟩
  | remove hu =>
    have hsaw : s.saw = false := hf.sawAt (by rw [hu]; rfl)
    have hbak := h.bak (by simp [hu]) (by simp [hu]) (Or.inl (by rw [hu]; rfl))
    have hd : (s.fs.remove o).2.dir o = none := by rw [dir_remove]; simp
    have hd' : (s.fs.remove o).2.dir b = s.fs.dir b := by rw [dir_remove]; simp [hob.symm]
    constructor <;> simp [Ui.restored, hsaw]
    · exact wf_remove h.wf _
    · rw [data_remove]; exact h.data
    · exact h.fd
    · rw [next_remove]; exact h.lt
    · intro _
      rw [hd, hd']
      refine ⟨fun e => ?_, Or.inr hbak⟩
      have := h.gone hu e
      rw [← hbak]
      exact ⟨this.symm, this⟩
  | create ht =>
    have hcr : s.fs.dir o = none → (s.fs.create o empty) = (s.fs.next, s.fs.link o empty) := by
      intro e; simp [Fs.create, e]
    have hsaw : s.saw = false := by
      cases e : s.saw with
      | false => rfl
      | true => have := hf.sawOk e; rw [hf.early (Or.inr (Or.inl ht))] at this; cases this
    have hlate := hf.lateCr ht
    have hstart : s.ui ≠ .start ∧ s.ui ≠ .refused := by
      constructor <;> intro e <;> [have := hf.start.1 (Or.inl e); have := hf.start.1 (Or.inr e)] <;> rw [ht] at this <;> cases this
    have hphase : s.ui.restored = false → (s.ui = .running ∨ s.ui = .dropCheck ∨ s.ui = .dropRename ∨ s.ui = .dropRemove) := by
      intro e; cases hu : s.ui <;> simp_all [Ui.restored]
    have hXlt : s.ui.restored = false → ∀ i, first (fs0.dir o) (fs0.dir b) = some i → i < s.fs.next := by
      intro e i hi
      have := h.bak hstart.1 hstart.2 (Or.inl e)
      rw [hi] at this
      exact h.wf.lt _ _ this
    constructor <;> simp [hsaw]
    · exact wf_create h.wf _ _
    · exact fun e => absurd e (by simp [hstart])
    · intro _ _ e
      have hno := h.outNone (hphase e) ht
      rw [hcr hno]
      simp only [Fs.link, hob.symm, if_false]
      exact h.bak hstart.1 hstart.2 (Or.inl e)
    · intro e e'
      have hno := h.outNone (Or.inr (Or.inr (Or.inr e))) ht
      rw [hcr hno]
      simp only [Fs.link, hob.symm, if_false]
      exact h.gone e e'
    · intro e i hi
      have hno := h.outNone (hphase e) ht
      have := hXlt e i hi
      rw [hcr hno]
      have hne : i ≠ s.fs.next := by omega
      simp only [Fs.link, hne, if_false]
      exact h.data hlate i hi
    · intro e hi
      have hno := h.outNone (hphase e) ht
      rw [hcr hno] at hi
      have := hXlt e _ hi
      simp at this
    · unfold Fs.create
      cases e : s.fs.dir o with
      | none => simp [Fs.link]
      | some i => exact h.wf.lt _ _ e
    · intro e
      have hno := h.outNone e ht
      rw [hcr hno]; simp [Fs.link]
    · intro e e'; rw [e] at e'; cases e'
  | write fd c ht =>
    have hsaw : s.saw = false := by
      cases e : s.saw with
      | false => rfl
      | true => have := hf.sawOk e; rw [hf.early (Or.inr (Or.inr (Or.inl ⟨_, ht⟩)))] at this; cases this
    have hstart : s.ui ≠ .start ∧ s.ui ≠ .refused := by
      constructor <;> intro e <;> [have := hf.start.1 (Or.inl e); have := hf.start.1 (Or.inr e)] <;> rw [ht] at this <;> cases this
    constructor <;> simp [hsaw, ht]
    · exact wf_write h.wf _ _
    · exact fun e => absurd e (by simp [hstart])
    · intro e1 e2 e3; exact h.bak e1 e2 (Or.inl e3)
    · exact h.gone
    · intro e i hi
      have : i ≠ fd := by rintro rfl; exact h.fd e _ ht hi
      simp only [Fs.write, this, if_false]
      exact h.data e i hi
    · exact fun e => h.fd e _ ht
    · exact h.lt _ ht
    · exact fun e => h.outFd e _ ht
    · exact fun e e' => h.put e hsaw e'
  | finish fd ht =>
    have hsaw : s.saw = false := by
      cases e : s.saw with
      | false => rfl
      | true => have := hf.sawOk e; rw [hf.early (Or.inr (Or.inr (Or.inl ⟨_, ht⟩)))] at this; cases this
    have hstart : s.ui ≠ .start ∧ s.ui ≠ .refused := by
      constructor <;> intro e <;> [have := hf.start.1 (Or.inl e); have := hf.start.1 (Or.inr e)] <;> rw [ht] at this <;> cases this
    constructor <;> simp [hsaw]
    · exact wf_write h.wf _ _
    · exact fun e => absurd e (by simp [hstart])
    · intro e1 e2 e3; exact h.bak e1 e2 (Or.inl e3)
    · exact h.gone
    · intro e i hi
      have : i ≠ fd := by rintro rfl; exact h.fd e _ ht hi
      simp only [Fs.write, this, if_false]
      exact h.data e i hi
    · intro e
      have := h.outFd e _ ht
      simp [Fs.read, Fs.write, this]
    · exact fun e e' => h.put e hsaw e'
  | backupErr hu =>
    obtain ⟨f1, f2, f3, f4, f5, f6, f7, f8, f9, f10, f11, f12⟩ := h
    obtain ⟨h1, h2, h3, h4, h5, h6, h7, h8, h9, h10, h11, h12, h13, h14, h15⟩ := hf
    constructor <;> first | assumption | (simp_all [Ui.restored]; done) | grind [Ui.restored]
  | abort hu =>
    obtain ⟨f1, f2, f3, f4, f5, f6, f7, f8, f9, f10, f11, f12⟩ := h
    exact ⟨f1, f2, f3, f4, f5, f6, f7, f8, f9, f10, f11, f12⟩
  | quit hu hq =>
    obtain ⟨f1, f2, f3, f4, f5, f6, f7, f8, f9, f10, f11, f12⟩ := h
    constructor <;> first | assumption | (simp_all [Ui.restored]; done)
  | dropSaw hu hs =>
    obtain ⟨f1, f2, f3, f4, f5, f6, f7, f8, f9, f10, f11, f12⟩ := h
    obtain ⟨h1, h2, h3, h4, h5, h6, h7, h8, h9, h10, h11, h12, h13, h14, h15⟩ := hf
    constructor <;> first | assumption | (simp_all [Ui.restored]; done) | skip
    intro _
    apply f10 (Or.inr (Or.inl hu))
    cases e : s.th <;> simp_all
  | dropUnsaw hu hs =>
    obtain ⟨f1, f2, f3, f4, f5, f6, f7, f8, f9, f10, f11, f12⟩ := h
    constructor <;> first | assumption | (simp_all [Ui.restored]; done)
  | renameNotFound hu hok =>
    obtain ⟨f1, f2, f3, f4, f5, f6, f7, f8, f9, f10, f11, f12⟩ := h
    constructor <;> first | assumption | (simp_all [Ui.restored]; done) | skip
    intro _ _
    rw [rename_res] at hok
    by_contra hc
    simp [hc] at hok
  | renameErr hu =>
    obtain ⟨f1, f2, f3, f4, f5, f6, f7, f8, f9, f10, f11, f12⟩ := h
    constructor <;> first | assumption | (simp_all [Ui.restored]; done)
  | removeErr hu =>
    have hsaw : s.saw = false := hf.sawAt (by rw [hu]; rfl)
    have hbak := h.bak (by simp [hu]) (by simp [hu]) (Or.inl (by rw [hu]; rfl))
    obtain ⟨f1, f2, f3, f4, f5, f6, f7, f8, f9, f10, f11, f12⟩ := h
    constructor <;> first | assumption | (simp_all [Ui.restored]; done) | skip
  | setKill hu =>
    obtain ⟨f1, f2, f3, f4, f5, f6, f7, f8, f9, f10, f11, f12⟩ := h
    constructor <;> first | assumption | (simp_all [Ui.restored]; done)
  | join hu ht =>
    obtain ⟨f1, f2, f3, f4, f5, f6, f7, f8, f9, f10, f11, f12⟩ := h
    constructor <;> first | assumption | (simp_all [Ui.restored]; done)
  | createErr ht =>
    obtain ⟨f1, f2, f3, f4, f5, f6, f7, f8, f9, f10, f11, f12⟩ := h
    constructor <;> first | assumption | (simp_all [Ui.restored]; done)
  | fail fd ht =>
    obtain ⟨f1, f2, f3, f4, f5, f6, f7, f8, f9, f10, f11, f12⟩ := h
    constructor <;> first | assumption | (simp_all [Ui.restored]; done)
  | notify ok ht =>
    obtain ⟨f1, f2, f3, f4, f5, f6, f7, f8, f9, f10, f11, f12⟩ := h
    constructor <;> first | assumption | (simp_all [Ui.restored]; done) | skip
  | notifyEnd ok ht =>
    have := hf.notif ok ht
    obtain ⟨f1, f2, f3, f4, f5, f6, f7, f8, f9, f10, f11, f12⟩ := h
    constructor <;> first | assumption | (simp_all [Ui.restored]; done) | skip

theorem invs {o b : P} (hob : o ≠ b) {empty full : C} {fs0 : Fs P C} (hw : fs0.Wf) {s : St P C}
    (h : Reach o b empty full fs0 s) : Flags s ∧ Files o b full fs0 s := by
  induction h with
  | init => exact ⟨flags_init fs0, files_init o b full fs0 hw⟩
  | step _ hs ih => exact ⟨flags_step ih.1 hs, files_step hob hw ih.1 ih.2 hs⟩

/-! ## The property -/

/-- **C44 (nobody interrupts).** When the user neither aborts nor quits and no rename or deletion fails:
`measure_profile` returns `true` with a complete new profile in place, or returns `false` with the
profile being what it was before (if there was none, what was lying at the backup path) and no backup
left. After a success, in contrast to C43, the previous profile stays at the backup path. -/
theorem c44_uninterrupted {o b : P} (hob : o ≠ b) {empty full : C} {fs0 : Fs P C} (hw : fs0.Wf) {s : St P C}
    (h : Reach o b empty full fs0 s) (r : Bool) (hd : s.ui = .done r) (ha : s.abort = false) (hio : s.ioErr = false) :
    (r = true → s.fs.read o = some full ∧ s.fs.read b = first (fs0.read o) (fs0.read b)) ∧
    (r = false → s.fs.read o = first (fs0.read o) (fs0.read b) ∧ s.fs.read b = none) := by
  obtain ⟨hf, hx⟩ := invs hob hw h
  have hret := (hf.ret r hd).2
  have hcalm := hf.calm (Or.inl (by rw [hd]; rfl)) ha
  have hl : s.late = false := by
    cases e : s.late with
    | false => rfl
    | true => rw [hf.lateAb e] at ha; cases ha
  constructor
  · intro hr
    have hsaw : s.saw = true := by rw [hcalm]; exact hret.1 hr
    refine ⟨hx.sawFull hsaw, ?_⟩
    have hb := hx.bak (by simp [hd]) (by simp [hd]) (Or.inr hsaw)
    exact Trace.read_first o b _ _ b hb (hx.data hl)
  · intro hr
    have hsaw : s.saw = false := by
      cases e : s.saw with
      | false => rfl
      | true => rw [hcalm] at e; have := hret.2 e; rw [hr] at this; cases this
    obtain ⟨h1, h2⟩ := hx.put (by rw [hd]; rfl) hsaw hl
    obtain ⟨h3, h4⟩ := h1 hio
    exact ⟨Trace.read_first o b _ _ o h3 (hx.data hl), by simp [Fs.read, h4]⟩

/-- **C44, as stated, when nobody interrupts**: with no left-over backup, a failed measurement leaves
both paths exactly as they were. -/
theorem c44_unchanged_without_stale_backup {o b : P} (hob : o ≠ b) {empty full : C} {fs0 : Fs P C} (hw : fs0.Wf)
    (hb : fs0.read b = none) {s : St P C} (h : Reach o b empty full fs0 s) (hd : s.ui = .done false) (ha : s.abort = false)
    (hio : s.ioErr = false) : s.fs.read o = fs0.read o ∧ s.fs.read b = fs0.read b := by
  obtain ⟨h1, h2⟩ := (c44_uninterrupted hob hw h false hd ha hio).2 rfl
  rw [h1, h2, hb]
  refine ⟨?_, rfl⟩
  cases fs0.read o <;> rfl

/-- **C44 (interrupted).** If the exit code did not see a success, and the measurement thread did not
create its output file after the backup had been restored, then the profile is what it was before,
whatever `measure_profile` returns. -/
theorem c44_interrupted {o b : P} (hob : o ≠ b) {empty full : C} {fs0 : Fs P C} (hw : fs0.Wf) {s : St P C}
    (h : Reach o b empty full fs0 s) (r : Bool) (hd : s.ui = .done r) (hs : s.saw = false) (hl : s.late = false)
    (hio : s.ioErr = false) : s.fs.read o = first (fs0.read o) (fs0.read b) ∧ s.fs.read b = none := by
  obtain ⟨hf, hx⟩ := invs hob hw h
  obtain ⟨h1, h2⟩ := hx.put (by rw [hd]; rfl) hs hl
  obtain ⟨h3, h4⟩ := h1 hio
  exact ⟨Trace.read_first o b _ _ o h3 (hx.data hl), by simp [Fs.read, h4]⟩

/-- **C44 (success noticed).** If the exit code saw the success, the new profile is complete and in
place, `true` is returned and the old one is at the backup path, interrupted or not. -/
theorem c44_success_noticed {o b : P} (hob : o ≠ b) {empty full : C} {fs0 : Fs P C} (hw : fs0.Wf) {s : St P C}
    (h : Reach o b empty full fs0 s) (r : Bool) (hd : s.ui = .done r) (hs : s.saw = true) :
    r = true ∧ s.fs.read o = some full ∧ s.fs.read b = first (fs0.read o) (fs0.read b) := by
  obtain ⟨hf, hx⟩ := invs hob hw h
  have hl : s.late = false := by
    cases e : s.late with
    | false => rfl
    | true => rw [hf.lateSaw e] at hs; cases hs
  refine ⟨(hf.ret r hd).2.2 (hf.sawOk hs), hx.sawFull hs, ?_⟩
  exact Trace.read_first o b _ _ b (hx.bak (by simp [hd]) (by simp [hd]) (Or.inr hs)) (hx.data hl)

/-- **C44 (nothing is lost, wherever the program crashes and whatever fails).** At every point of every
measurement, successful ones included, the previous profile can be read at one of the two paths,
unless the measurement thread created its output file after the backup had been restored. -/
theorem c44_no_data_loss {o b : P} (hob : o ≠ b) {empty full : C} {fs0 : Fs P C} (hw : fs0.Wf) {s : St P C}
    (h : Reach o b empty full fs0 s) (hl : s.late = false) (c : C) (hc : fs0.read o = some c) :
    s.fs.read o = some c ∨ s.fs.read b = some c := by
  obtain ⟨hf, hx⟩ := invs hob hw h
  have hfirst : first (fs0.read o) (fs0.read b) = some c := by rw [hc]; rfl
  by_cases hst : s.ui = .start ∨ s.ui = .refused
  · left; rw [hx.start hst]; exact hc
  · simp only [not_or] at hst
    by_cases hr : s.ui.restored = false ∨ s.saw = true
    · right
      rw [Trace.read_first o b _ _ b (hx.bak hst.1 hst.2 hr) (hx.data hl)]; exact hfirst
    · simp only [not_or, Bool.not_eq_false, Bool.not_eq_true] at hr
      rcases (hx.put hr.1 hr.2 hl).2 with h' | h'
      · left; rw [Trace.read_first o b _ _ o h' (hx.data hl)]; exact hfirst
      · right; rw [Trace.read_first o b _ _ b h' (hx.data hl)]; exact hfirst

/-- A profile that is never interrupted has no late creation: the proviso of `c44_no_data_loss` and
`c44_interrupted` can only fail when the user aborts. -/
theorem c44_late_only_on_abort {o b : P} (hob : o ≠ b) {empty full : C} {fs0 : Fs P C} (hw : fs0.Wf) {s : St P C}
    (h : Reach o b empty full fs0 s) (hl : s.late = true) : s.abort = true := (invs hob hw h).1.lateAb hl

/-! ## Concrete runs -/

open Verif.Tui.Trace (fsOld fsStale fsOld_wf fsStale_wf)

/-- A compilation fails half-way: meets the hypotheses of `c44_uninterrupted` (failure) and
`c44_unchanged_without_stale_backup`. -/
theorem run_failure : ∃ s : St Nat String, Reach 0 1 "" "new" fsOld s ∧ s.ui = .done false ∧ s.abort = false ∧ s.ioErr = false ∧
    s.late = false ∧ s.saw = false ∧ s.fs.read 0 = some "old" := by
  have r0 : Reach 0 1 "" "new" fsOld _ := .init
  have r1 := Reach.step r0 (Step.backup _ rfl)
  have r2 := Reach.step r1 (Step.create _ rfl)
  have r3 := Reach.step r2 (Step.write _ _ "half" rfl)
  have r4 := Reach.step r3 (Step.fail _ _ rfl)
  have r5 := Reach.step r4 (Step.notify _ _ rfl)
  have r6 := Reach.step r5 (Step.notifyEnd _ _ rfl)
  have r7 := Reach.step r6 (Step.quit _ rfl (Or.inl rfl))
  have r8 := Reach.step r7 (Step.dropUnsaw _ rfl rfl)
  have r9 := Reach.step r8 (Step.rename _ rfl (by decide))
  have r10 := Reach.step r9 (Step.setKill _ rfl)
  have r11 := Reach.step r10 (Step.join _ rfl rfl)
  exact ⟨_, r11, rfl, rfl, rfl, rfl, rfl, by decide⟩

/-- A measurement succeeds: meets the hypotheses of `c44_uninterrupted` (success) and
`c44_success_noticed`. -/
theorem run_success : ∃ s : St Nat String, Reach 0 1 "" "new" fsOld s ∧ s.ui = .done true ∧ s.abort = false ∧ s.ioErr = false ∧
    s.saw = true ∧ s.fs.read 0 = some "new" ∧ s.fs.read 1 = some "old" := by
  have r0 : Reach 0 1 "" "new" fsOld _ := .init
  have r1 := Reach.step r0 (Step.backup _ rfl)
  have r2 := Reach.step r1 (Step.create _ rfl)
  have r3 := Reach.step r2 (Step.write _ _ "half" rfl)
  have r4 := Reach.step r3 (Step.finish _ _ rfl)
  have r5 := Reach.step r4 (Step.notify _ _ rfl)
  have r6 := Reach.step r5 (Step.notifyEnd _ _ rfl)
  have r7 := Reach.step r6 (Step.quit _ rfl (Or.inl rfl))
  have r8 := Reach.step r7 (Step.dropSaw _ rfl rfl)
  have r10 := Reach.step r8 (Step.setKill _ rfl)
  have r11 := Reach.step r10 (Step.join _ rfl rfl)
  exact ⟨_, r11, rfl, rfl, rfl, rfl, by decide, by decide⟩

/-- The user aborts half-way: meets the hypotheses of `c44_interrupted`. -/
theorem run_abort : ∃ s : St Nat String, Reach 0 1 "" "new" fsOld s ∧ s.ui = .done false ∧ s.abort = true ∧ s.ioErr = false ∧
    s.saw = false ∧ s.late = false ∧ s.fs.read 0 = some "old" := by
  have r0 : Reach 0 1 "" "new" fsOld _ := .init
  have r1 := Reach.step r0 (Step.backup _ rfl)
  have r2 := Reach.step r1 (Step.create _ rfl)
  have r3 := Reach.step r2 (Step.abort _ rfl)
  have r4 := Reach.step r3 (Step.quit _ rfl (Or.inr rfl))
  have r5 := Reach.step r4 (Step.dropUnsaw _ rfl rfl)
  have r6 := Reach.step r5 (Step.rename _ rfl (by decide))
  have r7 := Reach.step r6 (Step.write _ _ "half" rfl)
  have r8 := Reach.step r7 (Step.setKill _ rfl)
  have r9 := Reach.step r8 (Step.fail _ _ rfl)
  have r10 := Reach.step r9 (Step.notify _ _ rfl)
  have r11 := Reach.step r10 (Step.notifyEnd _ _ rfl)
  have r12 := Reach.step r11 (Step.join _ rfl rfl)
  exact ⟨_, r12, rfl, rfl, rfl, rfl, rfl, by decide⟩

/-- **C44 fails on a quick abort.** The user aborts before the measurement thread got to create its
file; the backup is restored first, then the thread truncates it: the old profile is lost, at both
paths, without any I/O error. -/
theorem c44_quick_abort_destroys : ∃ s : St Nat String, Reach 0 1 "" "new" fsOld s ∧ s.ui = .done false ∧ s.ioErr = false ∧
    fsOld.read 0 = some "old" ∧ s.fs.read 0 = some "" ∧ s.fs.read 1 = none := by
  have r0 : Reach 0 1 "" "new" fsOld _ := .init
  have r1 := Reach.step r0 (Step.backup _ rfl)
  have r3 := Reach.step r1 (Step.abort _ rfl)
  have r4 := Reach.step r3 (Step.quit _ rfl (Or.inr rfl))
  have r5 := Reach.step r4 (Step.dropUnsaw _ rfl rfl)
  have r6 := Reach.step r5 (Step.rename _ rfl (by decide))
  have r7 := Reach.step r6 (Step.create _ rfl)
  have r8 := Reach.step r7 (Step.setKill _ rfl)
  have r9 := Reach.step r8 (Step.fail _ _ rfl)
  have r10 := Reach.step r9 (Step.notify _ _ rfl)
  have r11 := Reach.step r10 (Step.notifyEnd _ _ rfl)
  have r12 := Reach.step r11 (Step.join _ rfl rfl)
  exact ⟨_, r12, rfl, rfl, by decide, by decide, by decide⟩

/-- **A late success shows the old profile as if it were new.** The measurement succeeds between the
moment the exit code looked and the moment it joined the thread: `true` is returned ("a build profile
was measured") but the profile in place is the old one. -/
theorem c44_late_success_shows_old : ∃ s : St Nat String, Reach 0 1 "" "new" fsOld s ∧ s.ui = .done true ∧ s.ioErr = false ∧
    s.fs.read 0 = some "old" := by
  have r0 : Reach 0 1 "" "new" fsOld _ := .init
  have r1 := Reach.step r0 (Step.backup _ rfl)
  have r2 := Reach.step r1 (Step.create _ rfl)
  have r3 := Reach.step r2 (Step.abort _ rfl)
  have r4 := Reach.step r3 (Step.quit _ rfl (Or.inr rfl))
  have r5 := Reach.step r4 (Step.dropUnsaw _ rfl rfl)
  have r6 := Reach.step r5 (Step.rename _ rfl (by decide))
  have r7 := Reach.step r6 (Step.finish _ _ rfl)
  have r8 := Reach.step r7 (Step.notify _ _ rfl)
  have r9 := Reach.step r8 (Step.notifyEnd _ _ rfl)
  have r10 := Reach.step r9 (Step.setKill _ rfl)
  have r11 := Reach.step r10 (Step.join _ rfl rfl)
  exact ⟨_, r11, rfl, rfl, by decide⟩

/-- **C44 fails with a stale backup** (which every successful re-measurement leaves behind, see
`run_success`): there was no profile, the measurement failed, and the stale backup is now the profile. -/
theorem c44_stale_backup_appears : ∃ s : St Nat String, Reach 0 1 "" "new" fsStale s ∧ s.ui = .done false ∧ s.abort = false ∧
    s.ioErr = false ∧ fsStale.read 0 = none ∧ s.fs.read 0 = some "stale" := by
  have r0 : Reach 0 1 "" "new" fsStale _ := .init
  have r1 := Reach.step r0 (Step.backup _ rfl)
  have r2 := Reach.step r1 (Step.createErr _ rfl)
  have r5 := Reach.step r2 (Step.notify _ _ rfl)
  have r6 := Reach.step r5 (Step.notifyEnd _ _ rfl)
  have r7 := Reach.step r6 (Step.quit _ rfl (Or.inl rfl))
  have r8 := Reach.step r7 (Step.dropUnsaw _ rfl rfl)
  have r9 := Reach.step r8 (Step.rename _ rfl (by decide))
  have r10 := Reach.step r9 (Step.setKill _ rfl)
  have r11 := Reach.step r10 (Step.join _ rfl rfl)
  exact ⟨_, r11, rfl, rfl, rfl, by decide, by decide⟩

/-- **C44 fails when the profile is called `something.bak`** (`bakName_eq_self`): both paths coincide,
no backup is made, and a failed measurement destroys the profile without any interruption. -/
theorem c44_bak_profile_destroyed : ∃ s : St Nat String, Reach 0 0 "" "new" fsOld s ∧ s.ui = .done false ∧ s.abort = false ∧
    s.ioErr = false ∧ fsOld.read 0 = some "old" ∧ s.fs.read 0 = some "" := by
  have r0 : Reach 0 0 "" "new" fsOld _ := .init
  have r1 := Reach.step r0 (Step.backup _ rfl)
  have r2 := Reach.step r1 (Step.create _ rfl)
  have r4 := Reach.step r2 (Step.fail _ _ rfl)
  have r5 := Reach.step r4 (Step.notify _ _ rfl)
  have r6 := Reach.step r5 (Step.notifyEnd _ _ rfl)
  have r7 := Reach.step r6 (Step.quit _ rfl (Or.inl rfl))
  have r8 := Reach.step r7 (Step.dropUnsaw _ rfl rfl)
  have r9 := Reach.step r8 (Step.rename _ rfl (by decide))
  have r10 := Reach.step r9 (Step.setKill _ rfl)
  have r11 := Reach.step r10 (Step.join _ rfl rfl)
  exact ⟨_, r11, rfl, rfl, rfl, by decide, by decide⟩

end Verif.Tui.Build
