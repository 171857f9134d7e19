/-
C89: a full-build profile, from the compilation database to the screen.
Puts together what is measured (cmakeperf/src/measure/mod.rs:55-78, main.rs:25-124, worker.rs:50-97), what is written
(main.rs:35,92,117, output.rs:52-80), what is loaded (output.rs:15-35), what is shown (src/ui/tui/build/display.rs) and what a
unit leads to when it is selected (src/ui/tui/trace/measure.rs:29-52).
The memory usage and duration of each unit are what its last, successful, run measured (C71): any numbers here.
-/
import Verif.Build.FloatText
import Verif.Build.Unit
import Verif.Measure.Protocol

set_option autoImplicit false
set_option linter.unusedVariables false
set_option linter.unusedSimpArgs false

namespace Verif.Build.EndToEnd

open Verif.Intern (Name Comp pathComponents isRelative)
open Verif.Build
open Verif.Build.Csv
open Verif.Build.ProfileCsv
open Verif.Build.ProfileTable
open Verif.Build.FloatText
open Verif.Measure

/-- What is measured for one unit -/
structure Measured where
  /-- memory usage in bytes, `u64` -/
  rss : Nat
  /-- `start.elapsed()` in nanoseconds -/
  elapsed : Nat

/-- worker.rs:57,83,88-96: the result of a successful job, `UnitProfile::new` (output.rs:70-80) -/
def recorded (cwd : Option Name) (measureTime : Bool) (m : Entry → Measured) (e : Entry) : UnitProfile :=
  ⟨unitPath cwd e.file, (m e).rss, storedTime (if measureTime then some (m e).elapsed else none)⟩

/-- mod.rs:63: the jobs of `Measurement::start` -/
def startJobs (db : Db) : List Entry := db.entries

/-- main.rs:35,92,117: what was given to the file when the units of `done` have been reported -/
def profileFile (cwd : Option Name) (measureTime : Bool) (m : Entry → Measured) (done : List Entry) : Text :=
  writeProfile printF32 (done.map (recorded cwd measureTime m))

/-! ## Specification -/

/-- These measures are within the types of the program. -/
def InRange (m : Entry → Measured) : Prop := ∀ e, (m e).rss < 2 ^ 64 ∧ (m e).elapsed ≤ DMAX

/-- The unit shows what was measured for this entry: its path leads from the working directory to the source file as the
database gives it, its memory usage is exact, and its duration is there if asked for, to single precision. -/
def Shows (cwd : Option Name) (measureTime : Bool) (m : Entry → Measured) (u : UnitProfile) (e : Entry) : Prop :=
  u.path = unitPath cwd e.file ∧ u.rss = (m e).rss ∧
  (measureTime = false → u.wall = none) ∧
  (measureTime = true → ∃ d, u.wall = some (.ok d) ∧
    2 ^ 22 * d ≤ 2 ^ 22 * (m e).elapsed + (m e).elapsed + 2 ^ 22 * 34 ∧
    2 ^ 22 * (m e).elapsed ≤ 2 ^ 22 * d + (m e).elapsed + 2 ^ 22 * 34)

/-- One compilation command per source file of the database: the last one given. -/
def IsJobs (es jobs : List Entry) : Prop :=
  (jobs.map fun e => pathComponents e.file).Nodup ∧
  ∀ e, e ∈ jobs ↔ es.reverse.find? (fun f => decide (pathComponents f.file = pathComponents e.file)) = some e

/-! ## Theorems -/

theorem recorded_good (cwd : Option Name) (t : Bool) (m : Entry → Measured) (hm : InRange m) (es : List Entry) :
    (∀ u ∈ es.map (recorded cwd t m), u.rss < 2 ^ 64) ∧
    ∀ u ∈ es.map (recorded cwd t m), ∀ x, u.time = some x → Actual x := by
  constructor
  · intro u hu
    obtain ⟨e, -, rfl⟩ := List.mem_map.1 hu
    exact (hm e).1
  · intro u hu x hx
    obtain ⟨e, -, rfl⟩ := List.mem_map.1 hu
    unfold recorded at hx
    cases t with
    | false => cases hx
    | true => exact stored_actual _ (hm e).2 x hx

theorem recorded_shows (cwd : Option Name) (t : Bool) (m : Entry → Measured) (hm : InRange m) (e : Entry) :
    Shows cwd t m (recorded cwd t m e) e := by
  refine ⟨rfl, rfl, ?_, ?_⟩
  · rintro rfl; rfl
  · rintro rfl
    obtain ⟨d, hd⟩ := c30_written_times_valid (m e).elapsed (hm e).2
    exact ⟨d, hd, c30_written_accuracy _ (hm e).2 d hd⟩

theorem mem_entries (es : List Entry) (e : Entry) :
    e ∈ (Db.fromEntries es).entries ↔ (Db.fromEntries es).entry e.file = some e := by
  obtain ⟨hok, -⟩ := fromEntries_aux es [] ⟨by simp, by simp⟩
  change Db.Ok (Db.fromEntries es) at hok
  unfold Db.entries Db.entry
  constructor
  · intro h
    obtain ⟨kv, hkv, rfl⟩ := List.mem_map.1 h
    cases hf : (Db.fromEntries es).items.find? (fun x => samePath x.1 kv.2.file) with
    | none =>
      rw [List.find?_eq_none] at hf
      have := hf kv hkv
      rw [samePath_iff] at this
      exact absurd (hok.keys kv hkv) this
    | some a =>
      have h2 := List.find?_some hf
      rw [samePath_iff, ← hok.keys kv hkv] at h2
      have := List.inj_on_of_nodup_map hok.distinct (List.mem_of_find?_eq_some hf) hkv h2
      rw [this]; rfl
  · intro h
    obtain ⟨kv, hf, he⟩ := Option.map_eq_some_iff.1 h
    exact List.mem_map.2 ⟨kv, List.mem_of_find?_eq_some hf, he⟩

/-- **C89, the jobs.** The measurement compiles each source file of the database once, with the last command given for it. -/
theorem c89_jobs (es : List Entry) : IsJobs es (startJobs (Db.fromEntries es)) := by
  refine ⟨(c27_from_entries es []).2.2.2.1, fun e => ?_⟩
  have hfind := (c27_from_entries es e.file).1
  unfold samePath at hfind
  rw [← hfind]
  exact mem_entries es e

/-- **C89.** When the measurement ends with success, whatever the schedule and the jobs restarted for lack of memory, the file
loads; it has one unit per job, which shows what was measured; and its table can be drawn and sorted. -/
theorem c89_complete (es : List Entry) (n : Nat) (s : St n Entry) (h : Reach n (startJobs (Db.fromEntries es)) s)
    (hok : s.main = .finished .ok) (cwd : Option Name) (t : Bool) (m : Entry → Measured) (hm : InRange m)
    (cmpPath : Name → Name → Ordering) :
    ∃ us jobs, load parseF32 (profileFile cwd t m s.csv) = some us ∧ IsJobs es jobs ∧
      List.Forall₂ (Shows cwd t m) us jobs ∧ Works cmpPath us := by
  obtain ⟨hp, hsteps⟩ := c24_ok_is_complete _ s h hok
  obtain ⟨g1, g2⟩ := recorded_good cwd t m hm s.csv
  refine ⟨s.csv.map (recorded cwd t m), s.csv, c78_file _ g1 g2, ?_, ?_, ?_⟩
  · obtain ⟨j1, j2⟩ := c89_jobs es
    exact ⟨(hp.map _).nodup_iff.2 j1, fun e => by rw [← j2]; exact hp.mem_iff⟩
  · rw [List.forall₂_map_left_iff, List.forall₂_same]
    exact fun e _ => recorded_shows cwd t m hm e
  · have := c69_measured_profile_works cmpPath t (s.csv.map fun e => (unitPath cwd e.file, (m e).rss, (m e).elapsed))
    rw [List.map_map] at this
    exact this

/-- **C89, interrupted.** At any moment, from any beginning of what was given to the file, if it loads, its units are different
jobs, with the path and the memory usage measured for each. -/
theorem c89_interrupted (es : List Entry) (n : Nat) (s : St n Entry) (h : Reach n (startJobs (Db.fromEntries es)) s)
    (cwd : Option Name) (t : Bool) (m : Entry → Measured) (hm : InRange m) (p : Text)
    (hp : p <+: profileFile cwd t m s.csv) (us : List UnitProfile) (hl : load parseF32 p = some us) :
    ∃ done, List.Forall₂ (fun (u : UnitProfile) e => u.path = unitPath cwd e.file ∧ u.rss = (m e).rss) us done ∧
      (done.map fun e => pathComponents e.file).Nodup ∧ ∀ e ∈ done, e ∈ es := by
  obtain ⟨hsub, -⟩ := c24_rows_always_valid _ s h
  obtain ⟨g1, g2⟩ := recorded_good cwd t m hm s.csv
  have hrow : ∃ k, us.map (fun u => (u.path, u.rss)) = (s.csv.take k).map fun e => (unitPath cwd e.file, (m e).rss) := by
    rcases c78_prefix printF32 parseF32 _ us g1 (fun u hu x hx => c78_times x (g2 u hu x hx)) p hp hl with h | ⟨d, u, rest, v, e1, e2, e3, e4, -⟩
    · refine ⟨us.length, ?_⟩
      rw [List.prefix_iff_eq_take] at h
      generalize us.length = k at h
      rw [h, ← List.map_take, List.map_map]
      rfl
    · refine ⟨d.length + 1, ?_⟩
      have e5 := congrArg (List.take (d.length + 1)) e1
      rw [← List.map_take, show d ++ u :: rest = (d ++ [u]) ++ rest by simp, List.take_left' (by simp)] at e5
      have := congrArg (List.map fun (u : UnitProfile) => (u.path, u.rss)) e5
      rw [List.map_map] at this
      rw [e2, List.map_append]
      simp only [List.map_append, List.map_cons, List.map_nil] at this ⊢
      rw [e3, e4, ← this]
      rfl
  obtain ⟨k, hk⟩ := hrow
  obtain ⟨j1, j2⟩ := c89_jobs es
  have hsub' : (s.csv.take k).Subperm (startJobs (Db.fromEntries es)) := (List.take_sublist k _).subperm.trans hsub
  refine ⟨s.csv.take k, ?_, ?_, ?_⟩
  · have : List.Forall₂ (· = ·) (us.map fun u => (u.path, u.rss)) ((s.csv.take k).map fun e => (unitPath cwd e.file, (m e).rss)) := by
      rw [hk, List.forall₂_same]; exact fun _ _ => rfl
    rw [List.forall₂_map_left_iff, List.forall₂_map_right_iff] at this
    exact this.imp fun u e h => by simpa using h
  · obtain ⟨l, hl1, hl2⟩ := hsub'
    exact (hl1.map _).nodup_iff.1 ((hl2.map _).nodup j1)
  · intro e he
    have := (j2 e).1 (hsub'.subset he)
    simpa using List.mem_of_find?_eq_some this

/-- **C89, selecting a unit.** In the directory in which it was measured, selecting a unit of the complete file leads to the
compilation command that was measured, when the database gives the real path of its source file. -/
theorem c89_selected (es : List Entry) (n : Nat) (s : St n Entry) (h : Reach n (startJobs (Db.fromEntries es)) s)
    (tree : Tree) (limit : Nat) (cwd : List Name) (hc : GoodNames cwd) (hd : RealDir tree cwd)
    (t : Bool) (m : Entry → Measured) (hm : InRange m) (us : List UnitProfile)
    (hl : load parseF32 (profileFile (some (absPath cwd)) t m s.csv) = some us) :
    List.Forall₂ (fun (u : UnitProfile) e => ∀ f, GoodNames f → RealFile tree f → pathComponents e.file = pathComponents (absPath f) →
      selectUnit tree limit cwd (Db.fromEntries es) u.path = .entry e) us s.csv := by
  obtain ⟨hsub, -⟩ := c24_rows_always_valid _ s h
  obtain ⟨g1, g2⟩ := recorded_good (some (absPath cwd)) t m hm s.csv
  rw [profileFile, c78_file _ g1 g2] at hl
  cases hl
  rw [List.forall₂_map_left_iff, List.forall₂_same]
  intro e he f hf hr hpath
  exact c76_found tree limit cwd f hc hd hf hr _ e hpath ((mem_entries es e).1 (hsub.subset he))

/-! ## Witness: a database that gives a file twice, compiled by one worker -/

theorem run_one {J : Type} (j : J) : ∃ s : St 1 J, Reach 1 [j] s ∧ s.main = .finished .ok ∧ s.csv = [j] := by
  have r0 : Reach 1 [j] (initSt 1 [j]) := .init
  have r1 := Reach.worker _ _ 0 r0 (.loadSame _ 1 rfl rfl)
  have r2 := Reach.worker _ _ 0 r1 (.sleep _ 1 (by simp) rfl)
  have r3 := Reach.main _ _ r2 (.start _ rfl)
  have r4 := Reach.main _ _ r3 (.startWake _ rfl)
  have r5 := Reach.worker _ _ 0 r4 (.loadNew _ 1 (by simp [wake]) (by simp [FUTEX_INITIAL]))
  have r6 := Reach.worker _ _ 0 r5 (.popNone _ 2 (by simp [FUTEX_INITIAL]) rfl)
  have r7 := Reach.worker _ _ 0 r6 (.stealEmpty _ 2 0 false (by simp) rfl)
  have r8 := Reach.worker _ _ 0 r7 (.stealEnd _ 2 false (by simp))
  have r9 := Reach.worker _ _ 0 r8 (.globalOk _ 2 false j [] (by simp) rfl)
  have r10 := Reach.worker _ _ 0 r9 (.gotStart _ 2 j (by simp) rfl)
  have r11 := Reach.worker _ _ 0 r10 (.runOk _ 2 j (by simp))
  have r12 := Reach.main _ _ r11 (.recvOk _ j [] rfl (by simp [initSt]) rfl)
  have r13 := Reach.main _ _ r12 (.finish _ rfl rfl)
  have r14 := Reach.main _ _ r13 (.close _ .ok rfl)
  have r15 := Reach.main _ _ r14 (.closeWake _ .ok rfl)
  exact ⟨_, r15, rfl, rfl⟩

def exEntries : List Entry :=
  [⟨"/b".toList, ["cc".toList], "/s/a.cpp".toList, none⟩, exEntry "/s/a.cpp".toList]

def exMeasured : Entry → Measured := fun _ => ⟨123456789, 12500000000⟩

theorem exJobs : startJobs (Db.fromEntries exEntries) = [exEntry "/s/a.cpp".toList] := by decide +kernel

theorem exRange : InRange exMeasured := fun e =>
  ⟨show 123456789 < 2 ^ 64 by decide +kernel, show 12500000000 ≤ DMAX by decide +kernel⟩

/-- the complete file of this run, its loading and its table -/
example : ∃ (s : St 1 Entry), s.main = .finished .ok ∧
    profileFile (some (absPath ["b".toList])) true exMeasured s.csv =
      "file,max_rss,time\n../s/a.cpp,123456789,12.5\n".toList ∧
    ∃ us jobs, load parseF32 (profileFile (some (absPath ["b".toList])) true exMeasured s.csv) = some us ∧ IsJobs exEntries jobs ∧
      List.Forall₂ (Shows (some (absPath ["b".toList])) true exMeasured) us jobs ∧ Works (fun _ _ => .eq) us := by
  obtain ⟨s, h1, h2, h3⟩ := run_one (exEntry "/s/a.cpp".toList)
  rw [← exJobs] at h1
  refine ⟨s, h2, ?_, c89_complete exEntries 1 s h1 h2 _ true exMeasured exRange _⟩
  rw [h3]
  decide +kernel

/-- a beginning of this file that loads: the time is cut -/
example : ∃ (s : St 1 Entry) (us : List UnitProfile), Reach 1 (startJobs (Db.fromEntries exEntries)) s ∧
    "file,max_rss,time\n../s/a.cpp,123456789,1".toList <+: profileFile (some (absPath ["b".toList])) true exMeasured s.csv ∧
    load parseF32 "file,max_rss,time\n../s/a.cpp,123456789,1".toList = some us ∧
    ∃ done, List.Forall₂ (fun (u : UnitProfile) e => u.path = unitPath (some (absPath ["b".toList])) e.file ∧
      u.rss = (exMeasured e).rss) us done ∧ (done.map fun e => pathComponents e.file).Nodup ∧ ∀ e ∈ done, e ∈ exEntries := by
  obtain ⟨s, h1, h2, h3⟩ := run_one (exEntry "/s/a.cpp".toList)
  rw [← exJobs] at h1
  have hp : "file,max_rss,time\n../s/a.cpp,123456789,1".toList <+:
      profileFile (some (absPath ["b".toList])) true exMeasured s.csv := by
    rw [h3]; decide +kernel
  have hl : ∃ us, load parseF32 "file,max_rss,time\n../s/a.cpp,123456789,1".toList = some us :=
    Option.isSome_iff_exists.1 (by decide +kernel)
  obtain ⟨us, hl⟩ := hl
  exact ⟨s, us, h1, hp, hl, c89_interrupted exEntries 1 s h1 _ true exMeasured exRange _ hp us hl⟩

/-- selecting its unit -/
example : ∃ (s : St 1 Entry) (us : List UnitProfile),
    load parseF32 (profileFile (some (absPath ["b".toList])) true exMeasured s.csv) = some us ∧ us.length = 1 ∧
    List.Forall₂ (fun (u : UnitProfile) e => ∀ f, GoodNames f → RealFile exTree f →
      pathComponents e.file = pathComponents (absPath f) →
      selectUnit exTree 40 ["b".toList] (Db.fromEntries exEntries) u.path = .entry e) us s.csv := by
  obtain ⟨s, h1, h2, h3⟩ := run_one (exEntry "/s/a.cpp".toList)
  rw [← exJobs] at h1
  obtain ⟨g1, g2⟩ := recorded_good (some (absPath ["b".toList])) true exMeasured exRange s.csv
  have hl := c78_file _ g1 g2
  exact ⟨s, _, hl, by rw [h3]; rfl,
    c89_selected exEntries 1 s h1 exTree 40 ["b".toList] (by simp [GoodNames, Verif.Intern.ProperName]) exB true exMeasured exRange _ hl⟩

end Verif.Build.EndToEnd
