import Verif.Tui.Files

/-!
# C43: an aborted or failed trace measurement restores the previous trace

`start_measure` of src/ui/tui/trace/measure.rs (105-202), with `TraceBackup` (227-300) and
`CancelableClang` (302-385), as a transition system: the UI thread, the waiting thread, the clang
process and the file system take steps in any order the code allows, and every I/O operation may
fail.
-/

set_option autoImplicit false
set_option linter.unusedVariables false
set_option linter.unusedSimpArgs false

set_option linter.unusedSectionVars false

namespace Verif.Tui.Trace

variable {P C : Type} [DecidableEq P]

/-- The clang process. `exited ok left` remembers what the output path held when clang ended. -/
inductive Clang (C : Type) where
  | notStarted | running
  | exited (ok : Bool) (left : Option C)
  | killed
  deriving DecidableEq

/-- SIGKILL: a running process dies, an ended one stays as it is. -/
def Clang.kill {C : Type} : Clang C → Clang C
  | .running => .killed
  | x => x

/-- How a measurement can end, as far as the caller is concerned: backup failed, clang could not be
started, clang succeeded, the user aborted, clang failed (or could not be waited for or killed). -/
inductive Outcome where
  | notStarted | spawnFailed | success | canceled | failed
  deriving DecidableEq

/-- Where `start_measure` and its thread are. `waited r`: `clang.wait()` returned (or the spawn
failed). `restoring r`: the rename of `restore_or_delete` failed, `remove_file` comes next. -/
inductive Pc where
  | start | backedUp | waiting | killing
  | waited (r : Outcome) | restoring (r : Outcome) | done (r : Outcome)
  deriving DecidableEq

/-- Global state. `owned`: inodes clang has open; `cancel`: the Abort flag; `ioErr`: some operation
failed with an error other than `NotFound`; `orphan`: clang could not be waited for or killed, so the
code went on while it may still have been running; `loader`: the trace loading screen was requested. -/
structure St (P C : Type) where
  fs : Fs P C
  pc : Pc
  clang : Clang C
  owned : List Nat
  cancel : Bool
  ioErr : Bool
  orphan : Bool
  loader : Bool

/-- One step. `o` is the output path, `b` the backup path (`output.with_extension("bak")`).

* `backup…`: `TraceBackup::new` (244-254), called first by `start_measure` (107-113).
* `spawn…`: `CancelableClang::start` (304-329); on failure `restore_or_delete` follows (117-126).
* `clang…`: whatever clang does to its output file while it runs: replace it by a new file, open and
  truncate it, write to what it has open, delete it; then exit. Simplification: clang touches no
  other path of interest, and SIGKILL stops it at once.
* `cancel`: the Abort button (144-147, 389-395).
* `poll…`, `kill…`: `CancelableClang::wait` (336-384).
* `cleanup…`: (164-181, 284-299); `restore…`, `remove…`: (198-202, 262-277). -/
inductive Step (o b : P) : St P C → St P C → Prop where
  | backup (s) (h : s.pc = .start) : Step o b s { s with fs := (s.fs.rename o b).2, pc := .backedUp }
  | backupErr (s) (h : s.pc = .start) : Step o b s { s with pc := .done .notStarted, ioErr := true }
  | spawn (s) (h : s.pc = .backedUp) : Step o b s { s with pc := .waiting, clang := .running }
  | spawnErr (s) (h : s.pc = .backedUp) : Step o b s { s with pc := .waited .spawnFailed }
  | clangLink (s) (c : C) (h : s.clang = .running) :
      Step o b s { s with fs := s.fs.link o c, owned := s.fs.next :: s.owned }
  | clangOpen (s) (i : Nat) (c : C) (h : s.clang = .running) (hi : s.fs.dir o = some i) :
      Step o b s { s with fs := s.fs.write i c, owned := i :: s.owned }
  | clangWrite (s) (i : Nat) (c : C) (h : s.clang = .running) (hi : i ∈ s.owned) :
      Step o b s { s with fs := s.fs.write i c }
  | clangUnlink (s) (h : s.clang = .running) : Step o b s { s with fs := (s.fs.remove o).2 }
  | clangExit (s) (ok : Bool) (h : s.clang = .running) :
      Step o b s { s with clang := .exited ok (s.fs.read o) }
  | cancel (s) (h : s.pc = .waiting ∨ s.pc = .killing) : Step o b s { s with cancel := true }
  | pollExited (s) (ok : Bool) (left : Option C) (h : s.pc = .waiting) (hc : s.clang = .exited ok left) :
      Step o b s { s with pc := .waited (if ok then .success else .failed) }
  | pollCancel (s) (h : s.pc = .waiting) (hc : s.clang = .running) (hk : s.cancel = true) :
      Step o b s { s with pc := .killing }
  | pollErr (s) (h : s.pc = .waiting) : Step o b s { s with pc := .waited .failed, ioErr := true, orphan := true }
  | kill (s) (h : s.pc = .killing) :
      Step o b s { s with pc := .waited .canceled, clang := s.clang.kill }
  | killErr (s) (h : s.pc = .killing) : Step o b s { s with pc := .waited .failed, ioErr := true, orphan := true }
  | cleanup (s) (h : s.pc = .waited .success) :
      Step o b s { s with fs := (s.fs.remove b).2, pc := .done .success, loader := true }
  | cleanupErr (s) (h : s.pc = .waited .success) :
      Step o b s { s with pc := .done .success, loader := true, ioErr := true }
  | restore (s) (r : Outcome) (h : s.pc = .waited r) (hr : r ≠ .success) (hok : (s.fs.rename b o).1 = .ok) :
      Step o b s { s with fs := (s.fs.rename b o).2, pc := .done r }
  | restoreNotFound (s) (r : Outcome) (h : s.pc = .waited r) (hr : r ≠ .success) (hok : (s.fs.rename b o).1 = .notFound) :
      Step o b s { s with pc := .restoring r }
  | restoreErr (s) (r : Outcome) (h : s.pc = .waited r) (hr : r ≠ .success) :
      Step o b s { s with pc := .restoring r, ioErr := true }
  | remove (s) (r : Outcome) (h : s.pc = .restoring r) :
      Step o b s { s with fs := (s.fs.remove o).2, pc := .done r }
  | removeErr (s) (r : Outcome) (h : s.pc = .restoring r) :
      Step o b s { s with pc := .done r, ioErr := true }

/-- State when the user asks for a measurement in file system `fs0`. -/
def initSt (fs0 : Fs P C) : St P C := ⟨fs0, .start, .notStarted, [], false, false, false, false⟩

/-- Reachable states. -/
inductive Reach (o b : P) (fs0 : Fs P C) : St P C → Prop where
  | init : Reach o b fs0 (initSt fs0)
  | step {s s'} (h : Reach o b fs0 s) (hs : Step o b s s') : Reach o b fs0 s'

/-- First of two optional files that exists. -/
def first {α : Type} : Option α → Option α → Option α
  | some a, _ => some a
  | none, b => b

/-- The saved inode is at the backup path, intact, and out of clang's reach. -/
structure Safe (o b : P) (fs0 : Fs P C) (s : St P C) : Prop where
  wf : s.fs.Wf
  bak : s.fs.dir b = first (fs0.dir o) (fs0.dir b)
  data : ∀ i, s.fs.dir b = some i → s.fs.data i = fs0.data i
  own : ∀ i, s.fs.dir b = some i → i ∉ s.owned
  ownLt : ∀ i ∈ s.owned, i < s.fs.next

/-- Everything known at each point of the measurement. -/
def Inv (o b : P) (fs0 : Fs P C) (s : St P C) : Prop :=
  (s.loader = true → s.pc = .done .success) ∧ (s.orphan = true → s.ioErr = true) ∧
  match s.pc with
  | .start => s.fs = fs0 ∧ s.owned = [] ∧ s.clang = .notStarted ∧ s.ioErr = false ∧ s.cancel = false
  | .backedUp => Safe o b fs0 s ∧ s.clang = .notStarted ∧ s.fs.dir o = none ∧ s.cancel = false
  | .waiting => Safe o b fs0 s ∧ s.clang ≠ .notStarted ∧ s.clang ≠ .killed ∧ (∀ ok left, s.clang = .exited ok left → s.fs.read o = left)
  | .killing => Safe o b fs0 s ∧ s.clang ≠ .notStarted ∧ s.cancel = true
  | .waited r => Safe o b fs0 s ∧ (s.orphan = false → s.clang ≠ .running) ∧ r ≠ .notStarted ∧
      (r = .success → ∃ left, s.clang = .exited true left ∧ s.fs.read o = left) ∧
      (r = .canceled → s.cancel = true ∧ s.clang ≠ .running) ∧
      (r = .spawnFailed → s.clang = .notStarted) ∧
      (r = .failed → s.ioErr = false → ∃ left, s.clang = .exited false left)
  | .restoring r => Safe o b fs0 s ∧ (s.orphan = false → s.clang ≠ .running) ∧ r ≠ .notStarted ∧
      (s.ioErr = false → s.fs.dir b = none) ∧ r ≠ .success ∧
      (r = .canceled → s.cancel = true ∧ s.clang ≠ .running) ∧
      (r = .spawnFailed → s.clang = .notStarted) ∧
      (r = .failed → s.ioErr = false → ∃ left, s.clang = .exited false left)
  | .done r =>
      (r = .notStarted → s.fs = fs0 ∧ s.ioErr = true ∧ s.clang = .notStarted) ∧
      (r = .success → (∃ left, s.clang = .exited true left ∧ s.fs.read o = left) ∧ s.loader = true ∧
        (s.ioErr = false → s.fs.dir b = none)) ∧
      (r ≠ .success → s.orphan = false → s.clang ≠ .running ∧
        (s.fs.dir o = first (fs0.dir o) (fs0.dir b) ∨ s.fs.dir b = first (fs0.dir o) (fs0.dir b) ∨ r = .notStarted) ∧
        (∀ i, first (fs0.dir o) (fs0.dir b) = some i → s.fs.data i = fs0.data i)) ∧
      (r ≠ .success → s.ioErr = false → s.fs.dir o = first (fs0.dir o) (fs0.dir b) ∧ s.fs.dir b = none) ∧
      (r = .canceled → s.cancel = true) ∧
      (r = .spawnFailed → s.clang = .notStarted) ∧
      (r = .failed → s.ioErr = false → ∃ left, s.clang = .exited false left)

theorem safe_backup (o b : P) (hob : o ≠ b) (fs0 : Fs P C) (hw : fs0.Wf) (s : St P C) (hs : s.fs = fs0) (hown : s.owned = []) (pc : Pc) :
    Safe o b fs0 { s with fs := (s.fs.rename o b).2, pc := pc } ∧ (s.fs.rename o b).2.dir o = none := by
  subst hs
  refine ⟨⟨wf_rename hw _ _ hob, ?_, ?_, ?_, ?_⟩, ?_⟩
  · simp only [dir_rename _ _ _ hob]
    cases h : s.fs.dir o <;> simp [first]
  · intro i _; simp [data_rename]
  · intro i _; simp [hown]
  · intro i hi; simp [hown] at hi
  · rw [dir_rename _ _ _ hob]
    cases h : s.fs.dir o <;> simp [hob]

theorem safe_link {o b : P} (hob : o ≠ b) {fs0 : Fs P C} {s : St P C} (h : Safe o b fs0 s) (c : C) :
    Safe o b fs0 { s with fs := s.fs.link o c, owned := s.fs.next :: s.owned } := by
  have hdir : (s.fs.link o c).dir b = s.fs.dir b := by simp [Fs.link, hob.symm]
  refine ⟨wf_link h.wf _ _, ?_, ?_, ?_, ?_⟩
  · simpa [hdir] using h.bak
  · intro i hi
    simp only [hdir] at hi
    have hlt := h.wf.lt _ _ hi
    have : i ≠ s.fs.next := by omega
    simp only [Fs.link, this, if_false]
    exact h.data i hi
  · intro i hi
    simp only [hdir] at hi
    have hlt := h.wf.lt _ _ hi
    have := h.own i hi
    simp only [List.mem_cons, not_or]
    exact ⟨by omega, this⟩
  · intro i hi
    simp only [List.mem_cons] at hi
    show i < s.fs.next + 1
    rcases hi with rfl | hi
    · omega
    · have := h.ownLt i hi; omega

theorem safe_write {o b : P} {fs0 : Fs P C} {s : St P C} (h : Safe o b fs0 s) (i : Nat) (c : C) (hi : s.fs.dir b ≠ some i) :
    Safe o b fs0 { s with fs := s.fs.write i c } := by
  refine ⟨wf_write h.wf _ _, h.bak, ?_, h.own, h.ownLt⟩
  intro j hj
  have hj' : s.fs.dir b = some j := hj
  have : j ≠ i := by rintro rfl; exact hi hj'
  simp only [Fs.write, this, if_false]
  exact h.data j hj'

theorem safe_open {o b : P} (hob : o ≠ b) {fs0 : Fs P C} {s : St P C} (h : Safe o b fs0 s) (i : Nat) (c : C) (hi : s.fs.dir o = some i) :
    Safe o b fs0 { s with fs := s.fs.write i c, owned := i :: s.owned } := by
  have hne : s.fs.dir b ≠ some i := fun hb => hob (h.wf.inj _ _ _ hi hb)
  have h' := safe_write h i c hne
  refine ⟨h'.wf, h'.bak, h'.data, ?_, ?_⟩
  · intro j hj
    have hj' : s.fs.dir b = some j := hj
    simp only [List.mem_cons, not_or]
    exact ⟨by rintro rfl; exact hne hj', h.own j hj'⟩
  · intro j hj
    simp only [List.mem_cons] at hj
    rcases hj with rfl | hj
    · exact h.wf.lt _ _ hi
    · exact h.ownLt j hj

theorem safe_unlink {o b : P} (hob : o ≠ b) {fs0 : Fs P C} {s : St P C} (h : Safe o b fs0 s) (pc : Pc) :
    Safe o b fs0 { s with fs := (s.fs.remove o).2, pc := pc } := by
  have hdir : (s.fs.remove o).2.dir b = s.fs.dir b := by simp [dir_remove, hob.symm]
  refine ⟨wf_remove h.wf _, ?_, ?_, ?_, ?_⟩
  · simpa [hdir] using h.bak
  · intro i hi
    simp only [hdir] at hi
    simpa [data_remove] using h.data i hi
  · intro i hi
    simp only [hdir] at hi
    exact h.own i hi
  · intro i hi; simp only [next_remove]; exact h.ownLt i hi

theorem safe_congr {o b : P} {fs0 : Fs P C} {s s' : St P C} (h : Safe o b fs0 s) (hf : s'.fs = s.fs) (hown : s'.owned = s.owned) :
    Safe o b fs0 s' := by
  obtain ⟨h1, h2, h3, h4, h5⟩ := h
  exact ⟨by rw [hf]; exact h1, by rw [hf]; exact h2, by rw [hf]; exact h3, by rw [hf, hown]; exact h4, by rw [hf, hown]; exact h5⟩


theorem kill_ne_running (x : Clang C) : x.kill ≠ .running := by cases x <;> simp [Clang.kill]

/-- Steps of clang alone. -/
theorem inv_clang {o b : P} (hob : o ≠ b) {fs0 : Fs P C} {s s' : St P C} (h : Inv o b fs0 s) (hrun : s.clang = .running)
    (hpc : s'.pc = s.pc) (hor : s'.orphan = s.orphan) (hio : s'.ioErr = s.ioErr) (hca : s'.cancel = s.cancel) (hlo : s'.loader = s.loader)
    (hsafe : Safe o b fs0 s → Safe o b fs0 s')
    (hcl : (s'.clang = .running) ∨ (∃ ok, s'.clang = .exited ok (s'.fs.read o) ∧ s'.fs = s.fs)) : Inv o b fs0 s' := by
  obtain ⟨hl, ho, h⟩ := h
  refine ⟨by rw [hlo, hpc]; exact hl, by rw [hor, hio]; exact ho, ?_⟩
  have hn : s'.clang ≠ .notStarted := by rcases hcl with h | ⟨ok, h, _⟩ <;> rw [h] <;> simp
  have hk : s'.clang ≠ .killed := by rcases hcl with h | ⟨ok, h, _⟩ <;> rw [h] <;> simp
  rw [hpc]
  cases hp : s.pc with
  | start => rw [hp] at h; simp [hrun] at h
  | backedUp => rw [hp] at h; simp [hrun] at h
  | waiting =>
    rw [hp] at h
    obtain ⟨h1, h2, h3, h4⟩ := h
    refine ⟨hsafe h1, hn, hk, ?_⟩
    intro ok left he
    rcases hcl with h | ⟨ok', h, _⟩
    · rw [h] at he; cases he
    · rw [h] at he; cases he; rfl
  | killing =>
    rw [hp] at h
    obtain ⟨h1, h2, h3⟩ := h
    exact ⟨hsafe h1, hn, by rw [hca]; exact h3⟩
  | waited r =>
    rw [hp] at h
    obtain ⟨h1, h2, h3, h4, h5, h6, h7⟩ := h
    have horp : s.orphan = true := by
      cases e : s.orphan with
      | true => rfl
      | false => exact absurd hrun (h2 e)
    have hio' : s'.ioErr = true := by rw [hio]; exact ho horp
    refine ⟨hsafe h1, by simp [hor, horp], h3, ?_, ?_, ?_, by simp [hio']⟩
    · intro e; obtain ⟨left, he, _⟩ := h4 e; rw [hrun] at he; cases he
    · intro e; exact absurd hrun (h5 e).2
    · intro e; rw [hrun] at h6; cases (h6 e)
  | restoring r =>
    rw [hp] at h
    obtain ⟨h1, h2, h3, h4, h5, h6, h7, h8⟩ := h
    have horp : s.orphan = true := by
      cases e : s.orphan with
      | true => rfl
      | false => exact absurd hrun (h2 e)
    have hio' : s'.ioErr = true := by rw [hio]; exact ho horp
    refine ⟨hsafe h1, by simp [hor, horp], h3, by simp [hio'], h5, ?_, ?_, by simp [hio']⟩
    · intro e; exact absurd hrun (h6 e).2
    · intro e; rw [hrun] at h7; cases (h7 e)
  | done r =>
    rw [hp] at h
    obtain ⟨h1, h2, h3, h4, h5, h6, h7⟩ := h
    have hns : r ≠ .success := by
      intro e; obtain ⟨⟨left, he, _⟩, _⟩ := h2 e; rw [hrun] at he; cases he
    have horp : s.orphan = true := by
      cases e : s.orphan with
      | true => rfl
      | false => exact absurd hrun (h3 hns e).1
    have hio' : s'.ioErr = true := by rw [hio]; exact ho horp
    refine ⟨?_, fun e => absurd e hns, by simp [hor, horp], by simp [hio'], by rw [hca]; exact h5, ?_, by simp [hio']⟩
    · intro e; rw [hrun] at h1; cases (h1 e).2.2
    · intro e; rw [hrun] at h6; cases (h6 e)

theorem inv_step {o b : P} (hob : o ≠ b) {fs0 : Fs P C} (hw : fs0.Wf) {s s' : St P C} (h : Inv o b fs0 s) (hs : Step o b s s') :
    Inv o b fs0 s' := by
  cases hs with
  | backup hp =>
    obtain ⟨hl, ho, h⟩ := h; rw [hp] at h
    obtain ⟨h1, h2, h3, h4, h5⟩ := h
    have := safe_backup o b hob fs0 hw s h1 h2 .backedUp
    exact ⟨by simpa [hp] using hl, ho, this.1, h3, this.2, h5⟩
  | backupErr hp =>
    obtain ⟨hl, ho, h⟩ := h; rw [hp] at h
    obtain ⟨h1, h2, h3, h4, h5⟩ := h
    have horp : s.orphan = false := by
      cases e : s.orphan with
      | false => rfl
      | true => rw [ho e] at h4; cases h4
    refine ⟨by simpa [hp] using hl, by simp, ?_, by simp, ?_, by simp, by simp, by simp, by simp⟩
    · intro _; exact ⟨h1, rfl, h3⟩
    · intro _ _
      refine ⟨by simp [h3], Or.inr (Or.inr rfl), ?_⟩
      intro i _; simp [h1]
  | spawn hp =>
    obtain ⟨hl, ho, h⟩ := h; rw [hp] at h
    obtain ⟨h1, h2, h3, h4⟩ := h
    refine ⟨by simpa [hp] using hl, ho, safe_congr h1 rfl rfl, by simp, by simp, by simp⟩
  | spawnErr hp =>
    obtain ⟨hl, ho, h⟩ := h; rw [hp] at h
    obtain ⟨h1, h2, h3, h4⟩ := h
    refine ⟨by simpa [hp] using hl, ho, safe_congr h1 rfl rfl, by simp [h2], by simp, by simp, by simp, by simp [h2], by simp⟩
  | clangLink c hr => exact inv_clang hob h hr rfl rfl rfl rfl rfl (fun hh => safe_link hob hh c) (Or.inl hr)
  | clangOpen i c hr hi => exact inv_clang hob h hr rfl rfl rfl rfl rfl (fun hh => safe_open hob hh i c hi) (Or.inl hr)
  | clangWrite i c hr hi =>
    exact inv_clang hob h hr rfl rfl rfl rfl rfl (fun hh => safe_write hh i c (fun e => hh.own i e hi)) (Or.inl hr)
  | clangUnlink hr => exact inv_clang hob h hr rfl rfl rfl rfl rfl (fun hh => safe_unlink hob hh s.pc) (Or.inl hr)
  | clangExit ok hr =>
    exact inv_clang hob h hr rfl rfl rfl rfl rfl (fun hh => safe_congr hh rfl rfl) (Or.inr ⟨ok, rfl, rfl⟩)
  | cancel hp =>
    obtain ⟨hl, ho, h⟩ := h
    rcases hp with hp | hp
    · rw [hp] at h
      refine ⟨by simpa [hp] using hl, ho, ?_⟩
      simp only [hp]
      exact ⟨safe_congr h.1 rfl rfl, h.2⟩
    · rw [hp] at h
      refine ⟨by simpa [hp] using hl, ho, ?_⟩
      simp only [hp]
      exact ⟨safe_congr h.1 rfl rfl, h.2.1, trivial⟩
  | pollExited ok left hp hc =>
    obtain ⟨hl, ho, h⟩ := h; rw [hp] at h
    obtain ⟨h1, h2, h3, h4⟩ := h
    refine ⟨by simpa [hp] using hl, ho, safe_congr h1 rfl rfl, by simp [hc], ?_, ?_, ?_, ?_, ?_⟩
    · cases ok <;> simp
    · cases ok <;> simp [hc]; exact (h4 _ _ hc).symm
    · cases ok <;> simp
    · cases ok <;> simp
    · cases ok <;> simp [hc]
  | pollCancel hp hc hk =>
    obtain ⟨hl, ho, h⟩ := h; rw [hp] at h
    exact ⟨by simpa [hp] using hl, ho, safe_congr h.1 rfl rfl, h.2.1, hk⟩
  | pollErr hp =>
    obtain ⟨hl, ho, h⟩ := h; rw [hp] at h
    refine ⟨by simpa [hp] using hl, by simp, safe_congr h.1 rfl rfl, by simp, by simp, by simp, by simp, by simp, by simp⟩
  | kill hp =>
    obtain ⟨hl, ho, h⟩ := h; rw [hp] at h
    refine ⟨by simpa [hp] using hl, ho, safe_congr h.1 rfl rfl, fun _ => kill_ne_running _, by simp, by simp, ?_, by simp, by simp⟩
    intro _; exact ⟨h.2.2, kill_ne_running _⟩
  | killErr hp =>
    obtain ⟨hl, ho, h⟩ := h; rw [hp] at h
    refine ⟨by simpa [hp] using hl, by simp, safe_congr h.1 rfl rfl, by simp, by simp, by simp, by simp, by simp, by simp⟩
  | cleanup hp =>
    obtain ⟨hl, ho, h⟩ := h; rw [hp] at h
    obtain ⟨h1, h2, h3, h4, h5, h6, h7⟩ := h
    obtain ⟨left, h4a, h4b⟩ := h4 rfl
    refine ⟨by simp, ho, by simp, ?_, by simp, by simp, by simp, by simp, by simp⟩
    intro _
    refine ⟨⟨left, h4a, ?_⟩, rfl, ?_⟩
    · rw [← h4b]; simp [Fs.read, dir_remove, data_remove, hob]
    · intro _; simp [dir_remove]
  | cleanupErr hp =>
    obtain ⟨hl, ho, h⟩ := h; rw [hp] at h
    obtain ⟨h1, h2, h3, h4, h5, h6, h7⟩ := h
    obtain ⟨left, h4a, h4b⟩ := h4 rfl
    refine ⟨by simp, by simp, by simp, ?_, by simp, by simp, by simp, by simp, by simp⟩
    intro _
    exact ⟨⟨left, h4a, h4b⟩, rfl, by simp⟩
  | restore r hp hr hok =>
    obtain ⟨hl, ho, h⟩ := h; rw [hp] at h
    obtain ⟨h1, h2, h3, h4, h5, h6, h7⟩ := h
    have hb : s.fs.dir b ≠ none := by
      intro e; rw [rename_res] at hok; simp [e] at hok
    have hd : (s.fs.rename b o).2.dir o = first (fs0.dir o) (fs0.dir b) := by
      rw [dir_rename _ _ _ hob.symm, if_neg hb, if_pos rfl, h1.bak]
    have hd' : (s.fs.rename b o).2.dir b = none := by
      rw [dir_rename _ _ _ hob.symm]; simp [hb, hob.symm]
    refine ⟨fun e => absurd (hl e) (by rw [hp]; simp), ho, fun e => absurd e h3, fun e => absurd e hr, ?_, ?_, fun e => (h5 e).1, h6, h7⟩
    · intro _ e
      refine ⟨h2 e, Or.inl hd, ?_⟩
      intro i hi
      simp only [data_rename]
      exact h1.data i (by rw [h1.bak]; exact hi)
    · intro _ _; exact ⟨hd, hd'⟩
  | restoreNotFound r hp hr hok =>
    obtain ⟨hl, ho, h⟩ := h; rw [hp] at h
    obtain ⟨h1, h2, h3, h4, h5, h6, h7⟩ := h
    refine ⟨by simpa [hp] using hl, ho, safe_congr h1 rfl rfl, h2, h3, ?_, hr, h5, h6, h7⟩
    intro _
    rw [rename_res] at hok
    by_contra hc
    simp [hc] at hok
  | restoreErr r hp hr =>
    obtain ⟨hl, ho, h⟩ := h; rw [hp] at h
    obtain ⟨h1, h2, h3, h4, h5, h6, h7⟩ := h
    refine ⟨by simpa [hp] using hl, by simp, safe_congr h1 rfl rfl, h2, h3, by simp, hr, h5, h6, by simp⟩
  | remove r hp =>
    obtain ⟨hl, ho, h⟩ := h; rw [hp] at h
    obtain ⟨h1, h2, h3, h4, h5, h6, h7, h8⟩ := h
    refine ⟨fun e => absurd (hl e) (by rw [hp]; simp), ho, fun e => absurd e h3, fun e => absurd e h5, ?_, ?_, fun e => (h6 e).1, h7, h8⟩
    · intro _ e
      refine ⟨h2 e, Or.inr (Or.inl ?_), ?_⟩
      · simp only [dir_remove, hob.symm, if_false]; exact h1.bak
      · intro i hi
        simp only [data_remove]
        exact h1.data i (by rw [h1.bak]; exact hi)
    · intro _ e
      have := h4 e
      refine ⟨?_, ?_⟩
      · simp only [dir_remove, if_true]; rw [← h1.bak, this]
      · simp only [dir_remove, hob.symm, if_false]; exact this
  | removeErr r hp =>
    obtain ⟨hl, ho, h⟩ := h; rw [hp] at h
    obtain ⟨h1, h2, h3, h4, h5, h6, h7, h8⟩ := h
    refine ⟨fun e => absurd (hl e) (by rw [hp]; simp), by simp, fun e => absurd e h3, fun e => absurd e h5, ?_, by simp, fun e => (h6 e).1, h7, by simp⟩
    intro _ e
    exact ⟨h2 e, Or.inr (Or.inl h1.bak), fun i hi => h1.data i (by rw [h1.bak]; exact hi)⟩

theorem inv {o b : P} (hob : o ≠ b) {fs0 : Fs P C} (hw : fs0.Wf) {s : St P C} (h : Reach o b fs0 s) : Inv o b fs0 s := by
  induction h with
  | init => exact ⟨by simp [initSt], by simp [initSt], rfl, rfl, rfl, rfl, rfl⟩
  | step _ hs ih => exact inv_step hob hw ih hs

/-! ## The property -/

theorem read_first (o b : P) (fs fs0 : Fs P C) (p : P) (hd : fs.dir p = first (fs0.dir o) (fs0.dir b))
    (hdata : ∀ i, first (fs0.dir o) (fs0.dir b) = some i → fs.data i = fs0.data i) :
    fs.read p = first (fs0.read o) (fs0.read b) := by
  unfold Fs.read
  rw [hd]
  cases ho : fs0.dir o with
  | some i => simp [first]; exact hdata i (by rw [ho]; rfl)
  | none =>
    cases hb : fs0.dir b with
    | none => rfl
    | some i => simp [first]; exact hdata i (by rw [ho, hb]; rfl)

/-- **C43 (failure, abort, no start).** However the measurement ended other than by clang succeeding,
if no I/O operation failed then the trace file is what it was before; if there was none, it is what
was lying at the backup path (nothing, normally). The backup path is left empty. -/
theorem c43_failure_restores {o b : P} (hob : o ≠ b) {fs0 : Fs P C} (hw : fs0.Wf) {s : St P C} (h : Reach o b fs0 s)
    (r : Outcome) (hp : s.pc = .done r) (hr : r ≠ .success) (hio : s.ioErr = false) :
    s.fs.read o = first (fs0.read o) (fs0.read b) ∧ s.fs.read b = none ∧ s.loader = false := by
  obtain ⟨hl, ho, h⟩ := inv hob hw h
  rw [hp] at h
  obtain ⟨h1, h2, h3, h4, h5, h6, h7⟩ := h
  have horp : s.orphan = false := by
    cases e : s.orphan with
    | false => rfl
    | true => rw [ho e] at hio; cases hio
  obtain ⟨hd, hb⟩ := h4 hr hio
  refine ⟨read_first o b _ _ o hd (h3 hr horp).2.2, by simp [Fs.read, hb], ?_⟩
  cases e : s.loader with
  | false => rfl
  | true => have := hl e; rw [hp] at this; cases this; exact absurd rfl hr

/-- **C43, as stated**: with no left-over file at the backup path, a failed, aborted or unstartable
measurement leaves both paths exactly as they were. -/
theorem c43_unchanged_without_stale_backup {o b : P} (hob : o ≠ b) {fs0 : Fs P C} (hw : fs0.Wf) (hb : fs0.read b = none)
    {s : St P C} (h : Reach o b fs0 s) (r : Outcome) (hp : s.pc = .done r) (hr : r ≠ .success) (hio : s.ioErr = false) :
    s.fs.read o = fs0.read o ∧ s.fs.read b = fs0.read b := by
  obtain ⟨h1, h2, _⟩ := c43_failure_restores hob hw h r hp hr hio
  rw [h1, h2, hb]
  refine ⟨?_, rfl⟩
  cases fs0.read o <;> rfl

/-- **C43 (success).** When clang succeeds, the trace is what clang left there, it is shown, and the
backup is gone (unless deleting it failed). -/
theorem c43_success {o b : P} (hob : o ≠ b) {fs0 : Fs P C} (hw : fs0.Wf) {s : St P C} (h : Reach o b fs0 s)
    (hp : s.pc = .done .success) :
    (∃ left, s.clang = .exited true left ∧ s.fs.read o = left) ∧ s.loader = true ∧ (s.ioErr = false → s.fs.read b = none) := by
  obtain ⟨hl, ho, h⟩ := inv hob hw h
  rw [hp] at h
  obtain ⟨h1, h2, _⟩ := h
  obtain ⟨h2a, h2b, h2c⟩ := h2 rfl
  exact ⟨h2a, h2b, fun e => by simp [Fs.read, h2c e]⟩

/-- **C43 (the verdict is right).** The trace is only shown after clang succeeded; a measurement only
counts as aborted if the user asked for it, as failed (errors aside) only if clang failed, as
unstartable only if clang never ran. -/
theorem c43_verdict {o b : P} (hob : o ≠ b) {fs0 : Fs P C} (hw : fs0.Wf) {s : St P C} (h : Reach o b fs0 s) :
    (s.loader = true → s.pc = .done .success) ∧
    (s.pc = .done .canceled → s.cancel = true) ∧
    (s.pc = .done .failed → s.ioErr = false → ∃ left, s.clang = .exited false left) ∧
    (s.pc = .done .spawnFailed → s.clang = .notStarted) ∧
    (s.pc = .done .notStarted → s.fs = fs0 ∧ s.clang = .notStarted) := by
  obtain ⟨hl, ho, h⟩ := inv hob hw h
  refine ⟨hl, ?_, ?_, ?_, ?_⟩ <;> intro hp <;> rw [hp] at h
  · exact h.2.2.2.2.1 rfl
  · exact h.2.2.2.2.2.2 rfl
  · exact h.2.2.2.2.2.1 rfl
  · exact ⟨(h.1 rfl).1, (h.1 rfl).2.2⟩

/-- **C43 (nothing is lost, wherever the program crashes and whatever fails).** At every point of
every measurement that has not succeeded, the previous trace can still be read at the output path or
at the backup path, even when I/O operations failed, provided the code did not lose track of a clang
it could not wait for or kill. -/
theorem c43_no_data_loss {o b : P} (hob : o ≠ b) {fs0 : Fs P C} (hw : fs0.Wf) {s : St P C} (h : Reach o b fs0 s)
    (hp : s.pc ≠ .done .success) (horp : s.orphan = false) (c : C) (hc : fs0.read o = some c) :
    s.fs.read o = some c ∨ s.fs.read b = some c := by
  obtain ⟨hl, ho, h⟩ := inv hob hw h
  obtain ⟨i, hi, hic⟩ : ∃ i, fs0.dir o = some i ∧ fs0.data i = c := by
    unfold Fs.read at hc
    cases e : fs0.dir o with
    | none => rw [e] at hc; simp at hc
    | some i => rw [e] at hc; simp at hc; exact ⟨i, rfl, hc⟩
  have hsafe : Safe o b fs0 s → s.fs.read b = some c := by
    intro hh
    have : s.fs.dir b = some i := by rw [hh.bak, hi]; rfl
    simp [Fs.read, this, hh.data i this, hic]
  cases hpc : s.pc with
  | start => rw [hpc] at h; left; rw [h.1]; exact hc
  | backedUp => rw [hpc] at h; exact Or.inr (hsafe h.1)
  | waiting => rw [hpc] at h; exact Or.inr (hsafe h.1)
  | killing => rw [hpc] at h; exact Or.inr (hsafe h.1)
  | waited r => rw [hpc] at h; exact Or.inr (hsafe h.1)
  | restoring r => rw [hpc] at h; exact Or.inr (hsafe h.1)
  | done r =>
    rw [hpc] at h
    have hr : r ≠ .success := by rintro rfl; exact hp hpc
    obtain ⟨hrun, hd, hdata⟩ := h.2.2.1 hr horp
    have hf : first (fs0.dir o) (fs0.dir b) = some i := by rw [hi]; rfl
    rcases hd with hd | hd | hd
    · left; rw [hf] at hd; simp [Fs.read, hd, hdata i hf, hic]
    · right; rw [hf] at hd; simp [Fs.read, hd, hdata i hf, hic]
    · left; rw [(h.1 hd).1]; exact hc

/-! ## Concrete runs -/

/-- Output path `0`, backup path `1`; a trace `"old"` exists, no backup. -/
def fsOld : Fs Nat String := ⟨fun p => if p = 0 then some 0 else none, fun _ => "old", 1⟩
/-- No trace, but a left-over backup `"stale"`. -/
def fsStale : Fs Nat String := ⟨fun p => if p = 1 then some 0 else none, fun _ => "stale", 1⟩

theorem fsOld_wf : fsOld.Wf := by
  constructor
  · intro p i h; simp only [fsOld] at h ⊢; split_ifs at h; simp at h; omega
  · intro p q i h h'; simp only [fsOld] at h h'; split_ifs at h h'; omega
theorem fsStale_wf : fsStale.Wf := by
  constructor
  · intro p i h; simp only [fsStale] at h ⊢; split_ifs at h; simp at h; omega
  · intro p q i h h'; simp only [fsStale] at h h'; split_ifs at h h'; omega

/-- Clang writes half a trace over an existing one, then the user aborts: meets the hypotheses of
`c43_failure_restores`, `c43_unchanged_without_stale_backup` and (just before) `c43_no_data_loss`. -/
theorem run_abort : ∃ s : St Nat String, Reach 0 1 fsOld s ∧ s.pc = .done .canceled ∧ s.ioErr = false ∧ s.orphan = false ∧
    s.fs.read 0 = some "old" := by
  have r0 : Reach 0 1 fsOld _ := .init
  have r1 := Reach.step r0 (Step.backup _ rfl)
  have r2 := Reach.step r1 (Step.spawn _ rfl)
  have r3 := Reach.step r2 (Step.clangLink _ "half" rfl)
  have r4 := Reach.step r3 (Step.cancel _ (Or.inl rfl))
  have r5 := Reach.step r4 (Step.pollCancel _ rfl rfl rfl)
  have r6 := Reach.step r5 (Step.kill _ rfl)
  have r7 := Reach.step r6 (Step.restore _ .canceled rfl (by decide) (by decide))
  exact ⟨_, r7, rfl, rfl, rfl, by decide⟩

/-- Same, but clang finishes and succeeds: meets the hypotheses of `c43_success`. -/
theorem run_success : ∃ s : St Nat String, Reach 0 1 fsOld s ∧ s.pc = .done .success ∧ s.ioErr = false ∧
    s.fs.read 0 = some "new" ∧ s.fs.read 1 = none := by
  have r0 : Reach 0 1 fsOld _ := .init
  have r1 := Reach.step r0 (Step.backup _ rfl)
  have r2 := Reach.step r1 (Step.spawn _ rfl)
  have r3 := Reach.step r2 (Step.clangLink _ "new" rfl)
  have r4 := Reach.step r3 (Step.clangExit _ true rfl)
  have r5 := Reach.step r4 (Step.pollExited _ true _ rfl rfl)
  have r6 := Reach.step r5 (Step.cleanup _ rfl)
  exact ⟨_, r6, rfl, rfl, by decide, by decide⟩

/-- **C43 fails with a stale backup.** There was no trace, clang could not even start, no I/O operation
failed, and yet there is a trace afterwards: the stale backup. -/
theorem c43_stale_backup_appears : ∃ s : St Nat String, Reach 0 1 fsStale s ∧ s.pc = .done .spawnFailed ∧ s.ioErr = false ∧
    fsStale.read 0 = none ∧ s.fs.read 0 = some "stale" := by
  have r0 : Reach 0 1 fsStale _ := .init
  have r1 := Reach.step r0 (Step.backup _ rfl)
  have r2 := Reach.step r1 (Step.spawnErr _ rfl)
  have r3 := Reach.step r2 (Step.restore _ .spawnFailed rfl (by decide) (by decide))
  exact ⟨_, r3, rfl, rfl, by decide, by decide⟩

/-- **The proviso of `c43_no_data_loss` is needed.** If killing clang fails, the code restores the old
trace under a clang that is still running, which then truncates it: the old trace is gone. -/
theorem c43_orphan_clang_destroys : ∃ s : St Nat String, Reach 0 1 fsOld s ∧ s.pc = .done .failed ∧ s.orphan = true ∧
    s.fs.read 0 = some "half" ∧ s.fs.read 1 = none := by
  have r0 : Reach 0 1 fsOld _ := .init
  have r1 := Reach.step r0 (Step.backup _ rfl)
  have r2 := Reach.step r1 (Step.spawn _ rfl)
  have r4 := Reach.step r2 (Step.cancel _ (Or.inl rfl))
  have r5 := Reach.step r4 (Step.pollCancel _ rfl rfl rfl)
  have r6 := Reach.step r5 (Step.killErr _ rfl)
  have r7 := Reach.step r6 (Step.restore _ .failed rfl (by decide) (by decide))
  have r8 := Reach.step r7 (Step.clangOpen _ 0 "half" rfl (by decide))
  exact ⟨_, r8, rfl, rfl, by decide, by decide⟩

/-- **A success is reported as an abort if the click comes last.** Clang ended successfully after the
poll that saw the Abort flag: its complete output is thrown away. Allowed by C43, worth knowing. -/
theorem c43_late_success_discarded : ∃ s : St Nat String, Reach 0 1 fsOld s ∧ s.pc = .done .canceled ∧
    s.clang = .exited true (some "new") ∧ s.fs.read 0 = some "old" := by
  have r0 : Reach 0 1 fsOld _ := .init
  have r1 := Reach.step r0 (Step.backup _ rfl)
  have r2 := Reach.step r1 (Step.spawn _ rfl)
  have r3 := Reach.step r2 (Step.clangLink _ "new" rfl)
  have r4 := Reach.step r3 (Step.cancel _ (Or.inl rfl))
  have r5 := Reach.step r4 (Step.pollCancel _ rfl rfl rfl)
  have r6 := Reach.step r5 (Step.clangExit _ true rfl)
  have r7 := Reach.step r6 (Step.kill _ rfl)
  have r8 := Reach.step r7 (Step.restore _ .canceled rfl (by decide) (by decide))
  exact ⟨_, r8, rfl, by decide, by decide⟩

end Verif.Tui.Trace
