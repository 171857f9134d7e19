import Verif.Tui.BuildBackup
import Verif.Tui.TraceBackup
import Verif.Tui.Navigation
import Verif.Tui.Processing
import Verif.Tui.Prompt
import Verif.Tui.Sorting
import Verif.Tui.TraceWait
import Verif.Tui.Wizard
set_option autoImplicit false
set_option linter.unusedVariables false

/-! # The theorems of C41-C45, C57, C59-C62, C67, C77 and C83 applied to concrete cases -/

namespace Verif.Tui

/-! ## C44: the runs of BuildBackup.lean -/
namespace Build

open Verif.Tui.Trace (fsOld fsOld_wf)

example : ∃ s : St Nat String, s.ui = .done false ∧ s.fs.read 0 = some "old" ∧ s.fs.read 1 = none := by
  obtain ⟨s, h, h1, h2, h3, -⟩ := run_failure
  have := (c44_uninterrupted (by decide) fsOld_wf h false h1 h2 h3).2 rfl
  exact ⟨s, h1, this.1, this.2⟩
example : ∃ s : St Nat String, s.ui = .done false ∧ s.fs.read 0 = fsOld.read 0 := by
  obtain ⟨s, h, h1, h2, h3, -⟩ := run_failure
  exact ⟨s, h1, (c44_unchanged_without_stale_backup (by decide) fsOld_wf (by decide) h h1 h2 h3).1⟩
example : ∃ s : St Nat String, s.abort = true ∧ s.fs.read 0 = some "old" := by
  obtain ⟨s, h, h1, h2, h3, h4, h5, -⟩ := run_abort
  exact ⟨s, h2, (c44_interrupted (by decide) fsOld_wf h false h1 h4 h5 h3).1⟩
example : ∃ s : St Nat String, s.fs.read 0 = some "new" := by
  obtain ⟨s, h, h1, -, -, h4, -⟩ := run_success
  exact ⟨s, (c44_success_noticed (by decide) fsOld_wf h true h1 h4).2.1⟩
example : ∃ s : St Nat String, s.abort = true ∧ (s.fs.read 0 = some "old" ∨ s.fs.read 1 = some "old") := by
  obtain ⟨s, h, h1, h2, h3, h4, h5, -⟩ := run_abort
  exact ⟨s, h2, c44_no_data_loss (by decide) fsOld_wf h h5 "old" (by decide)⟩
/-- The late case of `c44_late_only_on_abort`: the run of `c44_quick_abort_destroys`. -/
example : ∃ s : St Nat String, s.late = true ∧ s.abort = true := by
  obtain ⟨s, h, h1, h2, h3, h4, h5⟩ := c44_quick_abort_destroys
  have hl : s.late = true := by
    cases hl : s.late with
    | true => rfl
    | false => rcases c44_no_data_loss (by decide) fsOld_wf h hl "old" h3 with e | e
               · rw [h4] at e; exact absurd e (by decide)
               · rw [h5] at e; cases e
  exact ⟨s, hl, c44_late_only_on_abort (by decide) fsOld_wf h hl⟩

end Build

/-! ## C43: the runs of TraceBackup.lean -/
namespace Trace

example : ∃ s : St Nat String, s.pc = .done .canceled ∧ s.fs.read 0 = some "old" ∧ s.cancel = true := by
  obtain ⟨s, h, h1, h2, -⟩ := run_abort
  exact ⟨s, h1, (c43_failure_restores (by decide) fsOld_wf h _ h1 (by decide) h2).1, (c43_verdict (by decide) fsOld_wf h).2.1 h1⟩
example : ∃ s : St Nat String, s.pc = .done .canceled ∧ s.fs.read 0 = fsOld.read 0 := by
  obtain ⟨s, h, h1, h2, -⟩ := run_abort
  exact ⟨s, h1, (c43_unchanged_without_stale_backup (by decide) fsOld_wf (by decide) h _ h1 (by decide) h2).1⟩
example : ∃ s : St Nat String, s.pc = .done .success ∧ s.loader = true := by
  obtain ⟨s, h, h1, -⟩ := run_success
  exact ⟨s, h1, (c43_success (by decide) fsOld_wf h h1).2.1⟩
example : ∃ s : St Nat String, s.fs.read 0 = some "old" ∨ s.fs.read 1 = some "old" := by
  obtain ⟨s, h, h1, h2, h3, -⟩ := run_abort
  exact ⟨s, c43_no_data_loss (by decide) fsOld_wf h (by rw [h1]; decide) h3 "old" (by decide)⟩

end Trace

/-! ## C41: load, ask, reply -/
namespace Proc
open Verif.Display

example : ∃ s : Sys demo, s.log.length = 1 ∧
    ∀ loaded q r, (loaded, q, r) ∈ s.log → ∃ t, loaded = some t ∧ freshReply demoLaws .unit t q = some r := by
  obtain ⟨s, h, -, h2⟩ := demo_run
  exact ⟨s, h2, c41_replies_are_fresh demoLaws .unit h⟩

/-- The request has been sent and is not answered yet. -/
example : ∃ s : Sys demo, s.waiting = some demoReq ∧ (s.crashed = true ∨ ∃ s', Sys.Step .unit s s') ∧
    ∀ c, s.out c ≠ [] → demoReq.chan = some c ∧ (s.out c).length = 1 := by
  have r0 : Sys.Reach .unit (Sys.init : Sys demo) := .init
  have r1 := Sys.Reach.step r0 (.load _ (some demoTrace) rfl)
  have r2 := Sys.Reach.step r1 (.work _ (.load (some demoTrace)) [] _ rfl rfl rfl)
  have r3 := Sys.Reach.step r2 (.ask _ demoReq rfl (by simp [demoReq]))
  exact ⟨_, rfl, c41_never_stuck demoLaws .unit r3 demoReq rfl, (c41_channels_in_step demoLaws .unit r3).2 demoReq rfl⟩

/-- The descriptions that arrive: a client asked for them in 40 columns. -/
example : ∃ ds : List Text, ds.length = 3 ∧ ∃ d, ds[0]? = some d ∧ lit "Source" <+: d := by
  have r0 : Sys.Reach .unit (Sys.init : Sys demo) := .init
  have r1 := Sys.Reach.step r0 (.load _ (some demoTrace) rfl)
  have r2 := Sys.Reach.step r1 (.work _ (.load (some demoTrace)) [] _ rfl rfl rfl)
  have r3 := Sys.Reach.step r2 (.ask _ demoReq rfl (by simp [demoReq]))
  have hc : Coherent demoLaws .unit demoTrace ⟨some demoTrace, fun _ => none, fun _ => none, 0⟩ :=
    coherent_load demoLaws .unit W.new demoTrace
  have hd : ∀ id ∈ ([0, 1, 0] : List Nat), Describable demoLaws demoTrace id := by
    intro id hid; apply demo_describable; simp at hid; omega
  have htot := (c41_describe_no_panic demoLaws .unit demoTrace _ hc 40 (by omega)).1 ([0, 1, 0] : List Nat) hd
  obtain ⟨⟨w', r⟩, hw⟩ := Option.isSome_iff_exists.1 htot
  obtain ⟨_, _, hr, hch⟩ := handle_ok demoLaws .unit demoTrace _ w' hc _ r (by simp) hw
  obtain ⟨r, rfl⟩ := Option.isSome_iff_exists.1 hr
  simp only [Option.map_some] at hch
  have r4 := Sys.Reach.step r3 (.workReply _ demoReq [] w' r rfl rfl hw)
  have r5 := Sys.Reach.step r4 (.fetch _ demoReq r.chan r [] rfl hch.symm (by simp [Sys.init]))
  obtain ⟨ds, -, h2, h3⟩ := c41_descriptions demoLaws .unit r5 (t := demoTrace) (ids := ([0, 1, 0] : List Nat)) (n := 40) (r := r)
    (by simp [demoReq, Sys.init]) (by omega) hd
  obtain ⟨d, name, v, h4, h5, h6, -, h8⟩ := h3 0 0 rfl
  obtain rfl : lit "Source" = name := Option.some.inj h5
  refine ⟨ds, h2, d, h4, (h8 ?_).2.1⟩
  have : Metrics.unit.width (lit "Source") = 6 := by decide
  rw [this]; split_ifs <;> omega

example : handle .unit (W.new : W demo) demoReq = none := c41_panics_without_trace .unit W.new rfl demoReq (by simp [demoReq])

end Proc

/-! ## C45, C57 -/
namespace Prompt

example := c45_default_reuses fsTwoHours ["a.cpp".toList] "p.csv".toList (.maybeOutdated (some (2 * HOUR_NS))) (by decide +kernel) 5 rfl
  true false
example := c45_decline fsNone [] "p.csv".toList (by decide) (fun p => if p.otherReply = "No" then some .other else none)
  (by intro p b h; split_ifs at h with h1; cases h; exact h1) false true
example := c45_profile_available fsNone [] "p.csv".toList false true (fun _ => some .default) (by decide)
example : ∃ p, fromFreshness (.maybeOutdated (some (2 * HOUR_NS))) false = some p ∧ ∃ m, p.ageMins = some m ∧ ageText m = "2h" := by
  refine ⟨_, rfl, ?_⟩
  obtain ⟨m, h1, -, -, h2, -⟩ := c57_age_text (2 * HOUR_NS) false _ rfl
  exact ⟨m, h1, by rw [h2 (by decide) (by decide)]; decide +kernel⟩

end Prompt

/-! ## C42, C59–C62: a trace with two nested activities -/
namespace Stack

theorem wQuiet {s : UI demo} (h : s.threads = []) : Quiet s := by
  intro th hth; rw [h] at hth; cases hth

example := c42_in_sync (demo_reach true)
example := c42_no_panic (fun t _ => demo_ok t) (demo_reach true)
example := c59_units (demo_reach true) (by simp [demoState])
example := c59_cycle (demo_reach true)
example := c60_contents (demo_reach true) (by simp [demoState])
example := c60_path (demo_reach true) (t := ()) rfl
example := c60_toggle (demo_reach true) (v := dv1) rfl rfl
example := c60_toggle_twice (demo_reach true) rfl (wQuiet rfl) (v := dv1) rfl rfl rfl
example := c61_esc_profile (demo_reach true) (v := dv1) rfl

/-- Only the trace is shown. -/
theorem wRoot (b : Bool) : Reach (E := demo) b (fun _ => True)
    ⟨[.profile dv0], [dp0], 0, false, false, some (), some (.global ()), some (), [], 1, [], false⟩ :=
  Reach.step (Reach.init _ .trace) (.loaded _ _ 0 (some ()) rfl (fun _ => wQuiet rfl) (by decide) (fun _ _ => trivial) rfl)

example := c60_zoom (wRoot true) (v := dv0) rfl (row := 0) (s' := demoState) rfl
example := c61_zoom_esc (wRoot true) rfl (wQuiet rfl) (row := 0) (s' := demoState) rfl (by intro h; exact absurd (congrArg (fun s => s.stack.length) h) (by decide))

/-- With the backtrace dialog on top. -/
theorem wBack : Reach (E := demo) true (fun _ => True) { demoState with screen := demoState.screen ++ [.global (.backtrace 0 2)] } :=
  Reach.step (demo_reach true) (.user _ _ .backtraceKey rfl (fun _ => wQuiet rfl) rfl)

example := c61_jump wBack (below := 0) (n := 2) rfl
example := (c62_one_dialog wBack).2 ⟨.backtrace 0 2, by simp [demoState]⟩
example := c61_esc_other wBack (by simp [demoState, Waiting]) (by decide) (by simp [demoState])

/-- Loading. -/
theorem wLoad : Reach (E := demo) true (fun _ => True) (showLoader (start false)) := Reach.init _ .trace

example := (c61_waiting wLoad).2 ⟨_, List.mem_singleton.2 rfl, trivial⟩
example := c61_abort wLoad (id := 0) rfl
example := c62_background wLoad (s' := ⟨[.profile dv0], [dp0], 0, false, false, some (), some (.global ()), some (), [], 1, [], false⟩)
  (.loaded _ _ 0 (some ()) rfl (fun _ => wQuiet rfl) (by decide) (fun _ _ => trivial) rfl)
  (by intro a h; cases a <;> cases h)

/-- In a full-build profile, a load is aborted and completes later. -/
theorem wPicked : Reach (E := demo) true (fun _ => True) (showLoader (addLayer .build (start true))) :=
  Reach.step (Reach.init _ .build) (.user _ _ (.pick .load) rfl (fun _ => wQuiet rfl) rfl)
theorem wAborted : Reach (E := demo) true (fun _ => True) (abortLoad 0 (showLoader (addLayer .build (start true)))) :=
  Reach.step wPicked (.user _ _ .abortLoad rfl (fun _ => wQuiet rfl) rfl)

example := c61_build_stays wAborted rfl
example := c61_aborted_load wAborted (id := 0) (by decide) (r := some ()) rfl
example := c61_stays_aborted (s := abortLoad 0 (showLoader (addLayer .build (start true))))
  (.user _ _ .helpKey rfl (fun _ => wQuiet rfl) rfl : Step (E := demo) true (fun _ => True) _ _) (id := 0) (by decide)

/-- A trace without any activity. -/
def noRoots : Env := { demo with roots := fun _ => ([] : List Nat) }
example := c42_empty_trace_panics (E := noRoots) (s := showLoader (start false)) (id := 0) (by decide) (by decide) (t := ()) rfl

end Stack

/-! ## C67: three rows, sorted by description in descending order -/
namespace Sorting

theorem wSorted : ∃ s, Reach numbers badHistory.tail s ∧ (chosen badHistory.tail ≠ .desc ∨ switchedSince badHistory.tail = false) ∧
    s.tables.map (·.rows) = [[3, 2, 1]] :=
  ⟨_, .step (.step (.step .init (.show _ .hier [2, 3, 1] (by simp)))
    (.sort Config.default [] (newTable numbers Config.default .hier [2, 3, 1]) ⟨.desc, .asc, none⟩ (by decide)))
    (.sort _ [] _ ⟨.desc, .asc, some .asc⟩ (by decide)), by decide, by decide +kernel⟩

example : ∃ s : UI Nat, (∀ t ∈ s.tables, InOrder numbers (columnFor t.kind .desc) .dsc t.rows) ∧
    ∀ t ∈ s.tables, (∃ d, InOrder numbers (columnFor t.kind .desc) d t.rows) ∧ ∃ c ∈ t.cols, c.name = columnFor t.kind .desc := by
  obtain ⟨s, h, h1, h2⟩ := wSorted
  refine ⟨s, fun t ht => ?_, fun t ht => ⟨c67_sorted_by_chosen numbers _ s h t ht, ?_⟩⟩
  · have := c67_sorted_as_chosen numbers _ s h h1 t ht
    have e : columnFor t.kind (chosen badHistory.tail) = .desc := by cases t.kind <;> rfl
    have e' : columnFor t.kind .desc = .desc := by cases t.kind <;> rfl
    rw [e] at this; rw [e']; exact this
  · obtain ⟨d, -, -, h3⟩ := c67_marked numbers _ s h t ht
    exact h3

example := c67_rows_kept numbers _ _ _ _ (.step .init (.show _ .hier [2, 3, 1] (by simp)))
  (.sort Config.default [] (newTable numbers Config.default .hier [2, 3, 1]) ⟨.desc, .asc, none⟩ (by decide))
example := c67_select_again_flips numbers _ Config.default [] (newTable numbers Config.default .hier [2, 3, 1]) _ _ _
  (.step .init (.show _ .hier [2, 3, 1] (by simp)))
  (.sort Config.default [] (newTable numbers Config.default .hier [2, 3, 1]) ⟨.total, .dsc, some .dsc⟩ (by decide))
  ⟨.total, .dsc, some .dsc⟩ (by decide) .dsc rfl rfl

end Sorting

/-! ## C83 -/
namespace TraceWait

example : ∃ u, Waits failing 0 (.error (failureMessage ⟨false, "exit status: 1".toList⟩ [] "oops\n".toList)) u ∧ True := by
  obtain ⟨u, h1, h2, h3⟩ := c83_completed failing 2 0 100 _ (fun _ => rfl) (fun _ => Nat.le_refl _) rfl (by decide)
    (fun a h => (nomatch h))
  have := c83_meaning failing 0 _ u h1
  exact ⟨u, h1, trivial⟩
example := c83_message ⟨false, "exit status: 1".toList⟩ ['x'] "oops\n".toList (by decide) (by decide)
example := c83_screen ⟨[.other 0], 0, false, some 60⟩ (by decide) [.other 1] (.error ['x']) none
/-- 100 kB of warnings on Linux; the user aborts. -/
example := c83_too_much_output 65536 [(.err, 100000)] .err (by decide) ⟨none, some 50, fun _ => none, fun k => k % 3, none, [], []⟩
  (fun h => absurd rfl h) (fun _ => rfl) 0

end TraceWait

/-! ## C77 -/
namespace Wizard
open Verif.Intern (Name Comp pathComponents isRelative ProperName)
open Verif.Build

example := c77_given_output exTree 40 ["b".toList] { exEntry with output := some "/b/o/a.cpp.o".toList } "/b/o/a.cpp.o".toList rfl
  [.rootDir, .normal "b".toList, .normal "o".toList] "a.cpp.o".toList "a.cpp.json".toList (by decide +kernel)
  (TraceName.ext "a.cpp".toList "o".toList (by simp) (by decide +kernel))

/-- The trace exists and is recent: it is loaded. -/
example : ∃ trace, (∃ time, (Verif.Build.Fs.mk (fun _ => .ok 5) 6).mtime (pathOf trace) = .ok time) := by
  obtain ⟨trace, h, -⟩ := c77_trace_place exTree 40 1 0 (by omega) ["b".toList] ex_cwd exEntry "o/a.cpp.o".toList rfl
    (OutputArg.mk "c++".toList [] "o/a.cpp.o".toList ["/s/a.cpp".toList] (by simp)) (by decide +kernel) _ ex_clang
  have := (c77_unit_to_trace exTree 40 ["b".toList] ["s".toList, "a.cpp".toList] (by simp [GoodNames, ProperName]) ex_cwd
    (by simp [GoodNames, ProperName]) ?_ (Db.fromEntries [exEntry]) exEntry (by decide +kernel) (by decide +kernel)
    (Verif.Build.Fs.mk (fun _ => .ok 5) 6) "clang++".toList none trace h)
  · obtain ⟨e, -, -, h3, -⟩ := c77_load _ _ _ _ _ _ _ _ _ trace (this.2 5 5 5 rfl rfl rfl)
    exact ⟨trace, h3⟩
  · refine ⟨["s".toList], "a.cpp".toList, rfl, ?_, rfl⟩
    intro p s h hne
    cases p with
    | nil => exact absurd rfl hne
    | cons a p =>
      simp only [List.cons_append, List.cons.injEq] at h
      have : p = [] := by cases p with | nil => rfl | cons => simp at h
      rw [this, ← h.1]; rfl

end Wizard
end Verif.Tui
