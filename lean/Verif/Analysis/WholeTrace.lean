/-
C87: from the bytes of a trace file with whole microseconds (what clang writes) to the durations, totals and percentages
that the program computes with `f64`: no rounding error anywhere, except in the last digits of percentages.
-/
import Verif.Tree.F64
import Verif.Trace.JsonDoc
import Verif.Build.JsonFiles
import Verif.Analysis.FloatBreakdown

set_option autoImplicit false
set_option linter.unusedVariables false
set_option linter.unusedSimpArgs false
set_option linter.unusedSectionVars false

namespace Verif.Analysis.WholeTrace

open Verif.Tree (F64 Stat ATree statOf selfDuration directChildren allChildren rootActivities allActivities)
open Verif.Trace Verif.Trace.Ctf Verif.Trace.Ctf.Text

/-! ### Specification -/

/-- In the trace that a JSON document describes, every complete event gives its start and its duration as integers, and
ends before 2^53 µs (285 years). -/
def WholeMicroseconds (j : Json F64) : Prop :=
  ∀ l js o, j = .obj l → .arr js ∈ occ l "traceEvents" → .obj o ∈ js → .str "X" ∈ occ o "ph" →
    ∃ a d : ℕ, .num (.nat a) ∈ occ o "ts" ∧ .num (.nat d) ∈ occ o "dur" ∧ a + d ≤ 2 ^ 53

/-- The duration and the self-duration of activity `i`, as numbers. -/
def durVal {α : Type} (t : ATree F64 F64 α) (i : Nat) : ℚ := ((statOf t i).map fun s => s.dur.val).getD 0
def selfVal {α : Type} (t : ATree F64 F64 α) (i : Nat) : ℚ := ((selfDuration t i).map F64.val).getD 0

/-! ### Proofs -/

theorem has_nat {o : Entries F64} {k : String} {x : F64} {n : ℕ} (h : Has o k (IsNum F64.ofInt) x)
    (hn : .num (.nat n) ∈ occ o k) (hb : n ≤ 2 ^ 53) : x.val = n := by
  obtain ⟨j, hj, hx⟩ := h
  rw [hj, List.mem_singleton] at hn
  subst hn
  rcases hx with hx | ⟨i, hi, rfl⟩
  · simp at hx
  · rcases hi with ⟨m, hm, rfl⟩ | ⟨m, hm, rfl⟩
    · simp only [Json.num.injEq, Num.nat.injEq] at hm
      subst hm
      exact F64.ofInt_val _ hb
    · simp at hm

theorem forall2_mem {α β : Type} {R : α → β → Prop} {l : List α} {l' : List β} (h : List.Forall₂ R l l') {b : β} (hb : b ∈ l') :
    ∃ a ∈ l, R a b := by
  induction h with
  | nil => cases hb
  | cons h1 _ ih =>
    rcases List.mem_cons.1 hb with rfl | hb
    · exact ⟨_, by simp, h1⟩
    · obtain ⟨a, ha, hr⟩ := ih hb
      exact ⟨a, by simp [ha], hr⟩

theorem whole_stats {cc : CharClass} {tmin : F64} {j : Json F64} {tr : ClangTrace F64}
    (h : load cc tmin F64.ofInt j = some (.ok tr)) (hw : WholeMicroseconds j) :
    ∃ stats, Tree.load tmin stats = .ok tr.tree ∧ ∀ a ∈ stats, Tree.Whole a := by
  obtain ⟨l, js, evs, stats, rfl, hj, h1, h2, h3, -⟩ := c74_activities h
  refine ⟨stats, h3, fun a ha => ?_⟩
  obtain ⟨ev, hev, d, dur, name, rfl, -, -, -, hs, hd, he⟩ := forall2_mem h2 ha
  obtain ⟨jev, hjev, o, rfl, hph, hdur, hdur', -⟩ := forall2_mem h1 (List.mem_filter.1 hev).1
  obtain ⟨x, y, hx, hy, hb⟩ := hw l js o rfl (by rw [hj]; simp) hjev (by
    obtain ⟨j, hj, hs⟩ := hph
    rw [hj, hs]; simp)
  exact ⟨x, y, by rw [hs]; exact has_nat hdur.ts hx (by omega), by rw [hd]; exact has_nat hdur' hy (by omega), hb,
    by rw [he, hs, hd]⟩

section
variable {α : Type}

theorem exact_stat (t : ATree F64 F64 α) (i : Nat) : statOf t.exact i = (statOf t i).map Stat.exact := by
  simp only [statOf, ATree.exact, ATree.mapTD, List.getElem?_map]
  cases t.acts[i]? <;> rfl

theorem exact_self (t : ATree F64 F64 α) (i : Nat) : selfDuration t.exact i = (selfDuration t i).map F64.val := by
  simp only [selfDuration, ATree.exact, ATree.mapTD, List.getElem?_map]
  cases t.acts[i]? <;> rfl

theorem exact_children (t : ATree F64 F64 α) (i : Nat) : directChildren t.exact i = directChildren t i := by
  simp only [directChildren, ATree.exact, ATree.mapTD, List.getElem?_map]
  cases t.acts[i]? with
  | none => rfl
  | some nd => simp [Tree.hierarchyIter, Tree.Node.mapTD]

theorem exact_roots (t : ATree F64 F64 α) : rootActivities t.exact = rootActivities t := by
  simp [rootActivities, Tree.hierarchyIter, ATree.exact, ATree.mapTD]

theorem exact_all (t : ATree F64 F64 α) : allActivities t.exact = allActivities t := by
  simp [allActivities, ATree.exact, ATree.mapTD]

theorem exact_allChildren (t : ATree F64 F64 α) (i : Nat) : allChildren t.exact i = allChildren t i := by
  simp only [allChildren, ATree.exact, ATree.mapTD, List.getElem?_map]
  cases t.acts[i]? with
  | none => rfl
  | some nd =>
    simp only [Option.map_some, Tree.Node.mapTD, Tree.slice, List.length_map]
    by_cases h : nd.first ≤ i ∧ i ≤ t.acts.length
    · simp [h]
    · simp [h]

theorem exact_durVal (t : ATree F64 F64 α) (i : Nat) : (Tree.duration t.exact i).getD 0 = durVal t i := by
  simp only [Tree.duration, exact_stat, durVal]
  cases statOf t i <;> rfl

theorem exact_selfVal (t : ATree F64 F64 α) (i : Nat) : (selfDuration t.exact i).getD 0 = selfVal t i := by
  rw [exact_self, selfVal]

theorem total_dur (t : ATree F64 F64 α) (l : List Nat) : Tree.total (Tree.duration t.exact) l = (l.map (durVal t)).sum := by
  simp only [Tree.total, exact_durVal]

theorem total_self (t : ATree F64 F64 α) (l : List Nat) : Tree.total (selfDuration t.exact) l = (l.map (selfVal t)).sum := by
  simp only [Tree.total, exact_selfVal]

end

section
variable {cc : CharClass} {tmin : F64} {j : Json F64} {tr : ClangTrace F64}

/-- **C87.** The self-duration of every activity is exactly its duration minus those of its direct children, is not negative,
and the duration of the activity is exactly the sum of the self-durations of the activity and of all that it contains. -/
theorem c87_self (h : load cc tmin F64.ofInt j = some (.ok tr)) (hw : WholeMicroseconds j) :
    ∀ i ∈ allActivities tr.tree, ∃ children inside,
      directChildren tr.tree i = some children ∧ allChildren tr.tree i = some inside ∧
      0 ≤ selfVal tr.tree i ∧
      selfVal tr.tree i = durVal tr.tree i - (children.map (durVal tr.tree)).sum ∧
      durVal tr.tree i = ((i :: inside).map (selfVal tr.tree)).sum := by
  obtain ⟨stats, hl, hwh⟩ := whole_stats h hw
  have hx := Tree.c05_f64 hwh hl
  intro i hi
  rw [(Tree.c01_contents hl).1, List.mem_range] at hi
  have hi' : i < (stats.map Stat.exact).length := by simpa using hi
  obtain ⟨s, cs, h1, h2, h3⟩ := Tree.c05_self_duration hx hi'
  obtain ⟨l, h4, h5⟩ := Tree.c05_subtree_sum hx hi'
  obtain ⟨d, h6, h7⟩ := Tree.c05_self_nonneg hx (by
      intro a ha
      obtain ⟨b, hb, rfl⟩ := List.mem_map.1 ha
      obtain ⟨x, y, e1, e2, e3, e4⟩ := hwh b hb
      show b.stop.val = b.start.val + b.dur.val
      rw [e4]
      show Binary64.rnd (b.start.val + b.dur.val) = _
      rw [e1, e2]
      have := Binary64.rnd_roundsWell ((x + y : ℕ) : ℤ) (by omega) (by exact_mod_cast e3)
      push_cast at this
      exact this) (by
      intro a ha
      obtain ⟨b, hb, rfl⟩ := List.mem_map.1 ha
      obtain ⟨x, y, e1, e2, e3, e4⟩ := hwh b hb
      show 0 ≤ b.dur.val
      rw [e2]; positivity) hi'
  rw [exact_children] at h2
  rw [exact_allChildren] at h4
  have hself : ∀ i, selfVal tr.tree i = (selfDuration tr.tree.exact i).getD 0 := fun i => (exact_selfVal _ i).symm
  have hdur : ∀ i, durVal tr.tree i = (Tree.duration tr.tree.exact i).getD 0 := fun i => (exact_durVal _ i).symm
  refine ⟨cs, l, h2, h4, ?_, ?_, ?_⟩
  · rw [hself, h6]; exact h7
  · rw [hself, h3, hdur, Tree.duration, h1, Tree.foldl_sum]
    simp only [Option.map_some, Option.getD_some, zero_add]
    congr 2
    refine List.map_congr_left fun c _ => ?_
    rw [hdur]; rfl
  · rw [hdur, h5, Option.getD_some, total_self]

/-- The names and self-durations of all activities, as `activity_type_breakdown` sees them (src/trace.rs 14-20). -/
def programActs {α ν : Type} (name : α → ν) (t : ATree F64 F64 α) : List (ν × Fl ℚ) :=
  (treeActs name t).map fun a => (a.1, .num a.2.val)

section
variable {α ν : Type}

theorem fl_stat (t : ATree F64 F64 α) (i : Nat) :
    statOf (t.mapTD F64.val F64.fl) i = (statOf t i).map (Stat.mapTD F64.val F64.fl) := by
  simp only [statOf, ATree.mapTD, List.getElem?_map]
  cases t.acts[i]? <;> rfl

theorem fl_self (t : ATree F64 F64 α) (i : Nat) :
    selfDuration (t.mapTD F64.val F64.fl) i = (selfDuration t i).map F64.fl := by
  simp only [selfDuration, ATree.mapTD, List.getElem?_map]
  cases t.acts[i]? <;> rfl

theorem fl_roots (t : ATree F64 F64 α) : rootActivities (t.mapTD F64.val F64.fl) = rootActivities t := by
  simp [rootActivities, Tree.hierarchyIter, ATree.mapTD]

theorem fl_all (t : ATree F64 F64 α) : allActivities (t.mapTD F64.val F64.fl) = allActivities t := by
  simp [allActivities, ATree.mapTD]

theorem fl_durVal (t : ATree F64 F64 α) (i : Nat) :
    ((statOf (t.mapTD F64.val F64.fl) i).map fun s => s.dur.val).getD 0 = durVal t i := by
  rw [fl_stat, durVal]; cases statOf t i <;> rfl

theorem fl_selfVal (t : ATree F64 F64 α) (i : Nat) :
    ((selfDuration (t.mapTD F64.val F64.fl) i).map Tree.Fl.val).getD 0 = selfVal t i := by
  rw [fl_self, selfVal]; cases selfDuration t i <;> rfl

theorem fl_acts (name : α → ν) (t : ATree F64 F64 α) :
    FloatBreakdown.floatActs name (t.mapTD F64.val F64.fl) = programActs name t := by
  simp only [FloatBreakdown.floatActs, programActs, treeActs, fl_all, List.map_filterMap, fl_stat, fl_self]
  refine List.filterMap_congr fun i _ => ?_
  cases statOf t i <;> cases selfDuration t i <;> rfl

end

/-- The activities of type `n`. -/
def ofType {ν : Type} [DecidableEq ν] (name : Activity → ν) (t : ATree F64 F64 Activity) (n : ν) : List Nat :=
  (allActivities t).filter fun i => ((statOf t i).map fun s => name s.act) = some n

/-- **C87.** The total duration that the program computes (by adding the durations of the root activities, with rounding) is
exactly their sum, which is exactly the sum of the self-durations of all activities. -/
theorem c87_total (h : load cc tmin F64.ofInt j = some (.ok tr)) (hw : WholeMicroseconds j) :
    ∃ roots, rootActivities tr.tree = some roots ∧
      FloatBreakdown.rootDuration Binary64.rnd (roots.map (durVal tr.tree)) = (roots.map (durVal tr.tree)).sum ∧
      (roots.map (durVal tr.tree)).sum = ((allActivities tr.tree).map (selfVal tr.tree)).sum := by
  obtain ⟨stats, hl, hwh⟩ := whole_stats h hw
  obtain ⟨roots, hr, hs⟩ := Tree.c05_root_sum (Tree.c05_f64 hwh hl)
  rw [exact_roots] at hr
  rw [total_dur, total_self, exact_all] at hs
  obtain ⟨o, ho⟩ := breakdown_exists (FloatBreakdown.addR Binary64.rnd) (.num 0)
    (FloatBreakdown.floatActs (fun _ : Activity => ()) (tr.tree.mapTD F64.val F64.fl))
  obtain ⟨out, roots', -, hr', -, h1, h2⟩ := FloatBreakdown.c40_binary64 _ _ (Tree.whole_fl hwh) (Tree.load_fl hl) o ho
  rw [fl_roots, hr] at hr'
  cases hr'
  rw [h1] at h2
  simp only [Tree.total, fl_durVal] at h2
  exact ⟨roots, hr, h2.symm, hs⟩

/-- **C87.** The profile by activity type: the number on each line is exactly the sum of the self-durations of the activities
of the type, and these numbers add up to exactly the total duration. -/
theorem c87_breakdown {ν : Type} [DecidableEq ν] (name : Activity → ν) (h : load cc tmin F64.ofInt j = some (.ok tr))
    (hw : WholeMicroseconds j) (o : Out (List (ν × Fl ℚ)))
    (ho : BreakdownOut (FloatBreakdown.addR Binary64.rnd) (.num 0) (programActs name tr.tree) o) :
    ∃ out roots, o = .ok out ∧ rootActivities tr.tree = some roots ∧
      (∀ e ∈ out, e.2 = .num (((ofType name tr.tree e.1).map (selfVal tr.tree)).sum)) ∧
      (out.map fun e => e.2.val).sum = (roots.map (durVal tr.tree)).sum := by
  obtain ⟨stats, hl, hwh⟩ := whole_stats h hw
  rw [← fl_acts] at ho
  obtain ⟨out, roots, e, hr, h0, h1, -⟩ := FloatBreakdown.c40_binary64 name _ (Tree.whole_fl hwh) (Tree.load_fl hl) o ho
  rw [fl_roots] at hr
  simp only [Tree.total, fl_durVal] at h1
  refine ⟨out, roots, e, hr, fun e he => ?_, h1⟩
  rw [h0 e he]
  simp only [Tree.total, fl_selfVal, fl_all, ofType, fl_stat, Option.map_map]
  rfl

/-- **C87.** Each line's percentage, as printed with two digits, is between 0.00 and 100.00 and within half a hundredth (and
`2^-44`) of the true share, unless all root activities last 0 µs. -/
theorem c87_percent {ν : Type} [DecidableEq ν] (name : Activity → ν) (h : load cc tmin F64.ofInt j = some (.ok tr))
    (hw : WholeMicroseconds j) {roots : List Nat} (hr : rootActivities tr.tree = some roots)
    (hpos : (roots.map (durVal tr.tree)).sum ≠ 0) (out : List (ν × Fl ℚ))
    (ho : BreakdownOut (FloatBreakdown.addR Binary64.rnd) (.num 0) (programActs name tr.tree) (.ok out)) :
    ∀ e ∈ out, ∃ d, e.2 = .num d ∧
      let p := Share.hundredths (Share.percent (FloatBreakdown.rootDuration Binary64.rnd (roots.map (durVal tr.tree))) d)
      0 ≤ p ∧ p ≤ 10000 ∧
      |(p : ℚ) / 100 - 100 * (((ofType name tr.tree e.1).map (selfVal tr.tree)).sum / (roots.map (durVal tr.tree)).sum)|
        ≤ 1 / 200 + 1 / 2 ^ 44 := by
  obtain ⟨stats, hl, hwh⟩ := whole_stats h hw
  rw [← fl_acts] at ho
  have := FloatBreakdown.c86_trace name _ (Tree.whole_fl hwh) (Tree.load_fl hl) (roots := roots) (by rw [fl_roots]; exact hr)
    (by simp only [Tree.total, fl_durVal]; exact hpos) out ho
  intro e he
  obtain ⟨d, hd, hp⟩ := this e he
  refine ⟨d, hd, ?_⟩
  simp only [Tree.total, fl_durVal, fl_selfVal, fl_all, fl_stat, Option.map_map] at hp
  exact hp

/-- **C87**, from the bytes of the file: a file loads as the document it contains. -/
theorem c87_file {dec : List Char → Option F64} {t : List Char} (ht : IsText dec j t)
    (h : Build.JsonFiles.traceOfFile cc tmin F64.ofInt dec t.utf8Encode = some (.ok tr)) :
    load cc tmin F64.ofInt j = some (.ok tr) := by
  rw [Build.JsonFiles.traceOfFile, (Build.JsonFiles.fileText_iff _ t).2 rfl, Option.bind_some, Build.JsonFiles.traceOfText,
    (c79_reads dec t j).2 ht, Option.bind_some] at h
  exact h

end

/-! ### Example -/

/-- A trace file: a frontend of 9 µs with 5 µs in it, and a backend of 4 µs. -/
def exText : List Char :=
  ("{\"traceEvents\":[{\"pid\":7,\"tid\":7,\"ph\":\"X\",\"ts\":3,\"dur\":5,\"name\":\"Source\",\"args\":{\"detail\":\"/a.h\"}}," ++
    "{\"pid\":7,\"tid\":7,\"ph\":\"X\",\"ts\":2,\"dur\":9,\"name\":\"Frontend\"}," ++
    "{\"pid\":7,\"tid\":7,\"ph\":\"X\",\"ts\":11,\"dur\":4,\"name\":\"Backend\"}," ++
    "{\"cat\":\"\",\"pid\":7,\"tid\":7,\"ts\":0,\"ph\":\"M\",\"name\":\"process_name\",\"args\":{\"name\":\"clang\"}}]}").toList

def exCc : CharClass := ⟨Char.isUpper, Char.isAlphanum⟩

/-- A check for whole microseconds. -/
def wholeEvent (o : Entries F64) : Bool :=
  !(occ o "ph").any (fun p => match p with | .str s => s == "X" | _ => false) ||
  match occ o "ts", occ o "dur" with
  | [.num (.nat a)], [.num (.nat d)] => decide (a + d ≤ 2 ^ 53)
  | _, _ => false

def wholeB : Json F64 → Bool
  | .obj l => (occ l "traceEvents").all fun a => match a with
    | .arr js => js.all fun e => match e with
      | .obj o => wholeEvent o
      | _ => true
    | _ => true
  | _ => true

theorem wholeB_sound (j : Json F64) (h : wholeB j = true) : WholeMicroseconds j := by
  intro l js o e ha ho hx
  subst e
  simp only [wholeB, List.all_eq_true] at h
  have h1 := h _ ha
  simp only [List.all_eq_true] at h1
  have h2 := h1 _ ho
  simp only [wholeEvent, Bool.or_eq_true, Bool.not_eq_true'] at h2
  rcases h2 with h2 | h2
  · rw [List.any_eq_false] at h2
    exact absurd (h2 _ hx) (by simp)
  · split at h2
    · next a d e1 e2 => exact ⟨a, d, by rw [e1]; simp, by rw [e2]; simp, of_decide_eq_true h2⟩
    · simp at h2

/-- It loads, with a backend and a frontend as its roots, 9 µs and 4 µs long. -/
theorem exLoads : ∃ j tr, IsText (F := F64) (fun _ => none) j exText ∧ WholeMicroseconds j ∧
    load exCc ⟨-1⟩ F64.ofInt j = some (.ok tr) ∧ rootActivities tr.tree = some [2, 1] ∧
    ([2, 1].map (durVal tr.tree)).sum = 13 ∧ directChildren tr.tree 1 = some [0] ∧ durVal tr.tree 0 = 5 ∧
    selfVal tr.tree 0 = 5 ∧ allActivities tr.tree = [0, 1, 2] := by
  have h : (match parse (F := F64) (fun _ => none) exText with
    | some j => wholeB j && (match load exCc ⟨-1⟩ F64.ofInt j with
      | some (.ok tr) => decide (rootActivities tr.tree = some [2, 1] ∧ ([2, 1].map (durVal tr.tree)).sum = 13 ∧
          directChildren tr.tree 1 = some [0] ∧ durVal tr.tree 0 = 5 ∧ selfVal tr.tree 0 = 5 ∧ allActivities tr.tree = [0, 1, 2])
      | _ => false)
    | none => false) = true := by decide +kernel
  split at h
  · next j hj =>
    rw [Bool.and_eq_true] at h
    obtain ⟨h1, h2⟩ := h
    split at h2
    · next tr ht =>
      exact ⟨j, tr, (c79_reads _ _ _).1 hj, wholeB_sound j h1, ht, of_decide_eq_true h2⟩
    · simp at h2
  · simp at h

example : ∃ tr : ClangTrace F64, ([2, 1].map (durVal tr.tree)).sum = 13 ∧
    (∃ children inside, directChildren tr.tree 1 = some children ∧ allChildren tr.tree 1 = some inside ∧
      0 ≤ selfVal tr.tree 1 ∧ selfVal tr.tree 1 = durVal tr.tree 1 - (children.map (durVal tr.tree)).sum ∧
      durVal tr.tree 1 = ((1 :: inside).map (selfVal tr.tree)).sum) ∧
    (∃ roots, rootActivities tr.tree = some roots ∧
      (roots.map (durVal tr.tree)).sum = ((allActivities tr.tree).map (selfVal tr.tree)).sum) ∧
    ∃ out roots, rootActivities tr.tree = some roots ∧
      BreakdownOut (FloatBreakdown.addR Binary64.rnd) (.num 0) (programActs (fun a : Activity => a.name) tr.tree) (.ok out) ∧
      (out.map fun e => e.2.val).sum = (roots.map (durVal tr.tree)).sum ∧
      ∀ e ∈ out, ∃ d, e.2 = .num d ∧ Share.hundredths (Share.percent (FloatBreakdown.rootDuration Binary64.rnd
        (roots.map (durVal tr.tree))) d) ≤ 10000 := by
  obtain ⟨j, tr, ht, hw, hl, hr, hs, -, -, -, hall⟩ := exLoads
  have hl' : load exCc ⟨-1⟩ F64.ofInt j = some (.ok tr) := c87_file ht (by
    rw [Build.JsonFiles.traceOfFile, (Build.JsonFiles.fileText_iff _ _).2 rfl, Option.bind_some, Build.JsonFiles.traceOfText,
      (c79_reads _ _ _).2 ht, Option.bind_some, hl])
  obtain ⟨roots, h1, -, h2⟩ := c87_total hl' hw
  obtain ⟨o, ho⟩ := breakdown_exists (FloatBreakdown.addR Binary64.rnd) (.num 0) (programActs (fun a : Activity => a.name) tr.tree)
  obtain ⟨out, roots', rfl, h3, -, h4⟩ := c87_breakdown _ hl' hw o ho
  rw [hr] at h1 h3
  cases h1
  cases h3
  refine ⟨tr, hs, c87_self hl' hw 1 ?_, ⟨_, hr, h2⟩, out, _, hr, ho, h4, fun e he => ?_⟩
  · rw [hall]; simp
  · obtain ⟨d, hd, -, hp, -⟩ := c87_percent _ hl' hw hr (by rw [hs]; norm_num) out ho e he
    exact ⟨d, hd, hp⟩

end Verif.Analysis.WholeTrace
