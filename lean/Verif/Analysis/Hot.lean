/-
C39, C40: profile analysis (src/trace.rs).

Durations are floating-point numbers, of which only what matters here is kept:
some are NaN, the others are totally ordered.  Where sums are involved the
addition is an arbitrary operation, so that rounding is covered; only the theorems
that say so assume exact arithmetic.
-/
import Verif.Tree.Props
import Mathlib.Data.List.Sort
import Mathlib.Data.List.Nodup
import Mathlib.Data.List.Perm.Basic
import Mathlib.Algebra.BigOperators.Group.List.Lemmas

set_option autoImplicit false
set_option linter.unusedVariables false
set_option linter.unusedSimpArgs false

namespace Verif.Analysis

open Verif.Tree

/-- A floating-point number: NaN, or an ordered value (infinities included). -/
inductive Fl (D : Type) where
  | nan
  | num (d : D)
  deriving DecidableEq

section
variable {D : Type} [LinearOrder D]

/-- `a >= b` on floating-point numbers: false if either is NaN. -/
def Fl.ge : Fl D → Fl D → Bool
  | .num a, .num b => decide (b ≤ a)
  | _, _ => false

/-- `a.partial_cmp(&b)` on floating-point numbers. -/
def Fl.cmp : Fl D → Fl D → Option Ordering
  | .num a, .num b => some (compare a b)
  | _, _ => none

/-- Result of a function that may panic. -/
inductive Out (α : Type) where
  | ok (a : α)
  | panic

/-- Possible outcomes of `slice.sort_unstable_by(|a, b| cmp(a, b).expect(..))`: some
sorted permutation of the input (which one is not specified), or a panic if the
comparison of two elements can fail. -/
inductive SortOut {α : Type} (cmp : α → α → Option Ordering) (input : List α) : Out (List α) → Prop
  | ok (out : List α) : out.Perm input →
      out.Pairwise (fun a b => cmp a b = some .lt ∨ cmp a b = some .eq) → SortOut cmp input (.ok out)
  | panic (a b : α) : a ∈ input → b ∈ input → cmp a b = none → SortOut cmp input .panic

/-- Possible outcomes of `hottest_activities` (src/trace.rs 34-48).  The metric is a
function of the activity (all closures passed to it are). -/
def HottestOut {α : Type} (activities : List α) (duration : α → Fl D) (threshold : Fl D)
    (o : Out (List α)) : Prop :=
  SortOut (fun a1 a2 => (duration a2).cmp (duration a1))
    (activities.filter fun a => (duration a).ge threshold) o

theorem Fl.ge_num {a b : Fl D} (h : a.ge b = true) : ∃ x y, a = .num x ∧ b = .num y ∧ y ≤ x := by
  cases a <;> cases b <;> simp_all [Fl.ge]

/-- **C39.** For every collection of activities, every metric (which may be NaN for
some activities, as happens when the total duration is zero) and every threshold:
`hottest_activities` does not panic, and whatever order it chooses for equally hot
activities, it returns exactly the activities whose metric is at least the
threshold, each as many times as it was given, hottest first. -/
theorem hottest_spec {α : Type} (activities : List α) (duration : α → Fl D) (threshold : Fl D)
    (o : Out (List α)) (h : HottestOut activities duration threshold o) :
    ∃ out, o = .ok out ∧
      out.Perm (activities.filter fun a => (duration a).ge threshold) ∧
      (∀ a ∈ out, ∃ x y, duration a = .num x ∧ threshold = .num y ∧ y ≤ x) ∧
      out.Pairwise (fun a b => (duration a).ge (duration b) = true) := by
  cases h with
  | panic a b ha hb hc =>
    exfalso
    simp only [List.mem_filter] at ha hb
    obtain ⟨x, _, hx, _⟩ := Fl.ge_num ha.2
    obtain ⟨y, _, hy, _⟩ := Fl.ge_num hb.2
    simp [hx, hy, Fl.cmp] at hc
  | ok out hp hs =>
    refine ⟨out, rfl, hp, ?_, ?_⟩
    · intro a ha
      exact Fl.ge_num (List.mem_filter.1 (hp.mem_iff.1 ha)).2
    · refine hs.imp fun {a b} hab => ?_
      cases ha : duration a <;> cases hb : duration b <;> simp_all [Fl.cmp, Fl.ge]
      rcases hab with h | h
      · exact (compare_lt_iff_lt.1 h).le
      · exact h.symm.ge

/-- There always is an outcome (so that the theorem above is not vacuous). -/
theorem hottest_exists {α : Type} (activities : List α) (duration : α → Fl D) (threshold : Fl D) :
    ∃ o, HottestOut activities duration threshold o := by
  classical
  let key : α → WithBot D := fun a => match duration a with
    | .nan => ⊥
    | .num x => x
  refine ⟨.ok ((activities.filter fun a => (duration a).ge threshold).mergeSort
    (fun a b => decide (key b ≤ key a))), .ok _ (List.mergeSort_perm _ _) ?_⟩
  have hnum : ∀ a ∈ activities.filter (fun a => (duration a).ge threshold), ∃ x, duration a = .num x := by
    intro a ha
    obtain ⟨x, _, hx, _⟩ := Fl.ge_num (List.mem_filter.1 ha).2
    exact ⟨x, hx⟩
  generalize activities.filter (fun a => (duration a).ge threshold) = l at hnum
  have hp := List.pairwise_mergeSort (le := fun a b => decide (key b ≤ key a))
    (by intro a b c; simp; exact fun h1 h2 => h2.trans h1)
    (by intro a b; simp; exact le_total _ _) l
  have hmem : ∀ a ∈ l.mergeSort (fun a b => decide (key b ≤ key a)), ∃ x, duration a = .num x :=
    fun a ha => hnum a ((List.mergeSort_perm _ _).mem_iff.1 ha)
  refine hp.imp_of_mem ?_
  intro a b ha hb hab
  obtain ⟨x, hx⟩ := hmem a ha
  obtain ⟨y, hy⟩ := hmem b hb
  simp only [key, hx, hy, decide_eq_true_eq, WithBot.coe_le_coe] at hab
  simp only [hx, hy, Fl.cmp, Option.some.injEq, compare_lt_iff_lt, compare_eq_iff_eq]
  exact hab.lt_or_eq

/-! ## Breakdown by activity type -/

/-- `*profile.entry(name).or_default() += d` (src/trace.rs 17-19). -/
def addEntry {ν F : Type} [DecidableEq ν] (add : F → F → F) (zero : F) :
    List (ν × F) → ν → F → List (ν × F)
  | [], n, d => [(n, add zero d)]
  | (n', d') :: m, n, d => if n' = n then (n', add d' d) :: m else (n', d') :: addEntry add zero m n d

/-- The hash map after the loop (src/trace.rs 15-20), given the names and
self-durations of all activities in order.  It is an association list whose order
carries no meaning. -/
def profileMap {ν F : Type} [DecidableEq ν] (add : F → F → F) (zero : F) (acts : List (ν × F)) :
    List (ν × F) :=
  acts.foldl (fun m a => addEntry add zero m a.1 a.2) []

/-- Possible outcomes of `activity_type_breakdown` (src/trace.rs 14-26): the entries
are collected in an unspecified order (21), then sorted (22-24). -/
def BreakdownOut {ν : Type} [DecidableEq ν] (add : Fl D → Fl D → Fl D) (zero : Fl D)
    (acts : List (ν × Fl D)) (o : Out (List (ν × Fl D))) : Prop :=
  ∃ entries, entries.Perm (profileMap add zero acts) ∧
    SortOut (fun e1 e2 => e2.2.cmp e1.2) entries o

/-- Specification: the self-durations of the activities of one type, accumulated
in the order of the trace starting from zero. -/
def typeTotal {ν F : Type} [DecidableEq ν] (add : F → F → F) (zero : F) (acts : List (ν × F)) (n : ν) : F :=
  ((acts.filter fun a => a.1 = n).map (·.2)).foldl add zero

section map
variable {ν F : Type} [DecidableEq ν] (add : F → F → F) (zero : F)

theorem addEntry_keys (m : List (ν × F)) (n : ν) (d : F) :
    (addEntry add zero m n d).map (·.1) = if n ∈ m.map (·.1) then m.map (·.1) else m.map (·.1) ++ [n] := by
  induction m with
  | nil => simp [addEntry]
  | cons e m ih =>
    obtain ⟨n', d'⟩ := e
    simp only [addEntry]
    by_cases h : n' = n
    · simp [h]
    · simp only [h, if_false, List.map_cons, ih, List.mem_cons, Ne.symm h, false_or]
      split <;> rfl

theorem addEntry_mem (m : List (ν × F)) (hm : (m.map (·.1)).Nodup) (n : ν) (d : F) (e : ν × F) :
    e ∈ addEntry add zero m n d ↔
      (e.1 ≠ n ∧ e ∈ m) ∨ (e.1 = n ∧ ((∃ d', (n, d') ∈ m ∧ e.2 = add d' d) ∨
        (n ∉ m.map (·.1) ∧ e.2 = add zero d))) := by
  induction m with
  | nil =>
    obtain ⟨a, b⟩ := e
    simp [addEntry]
  | cons x m ih =>
    obtain ⟨n', d'⟩ := x
    obtain ⟨a, b⟩ := e
    simp only [List.map_cons, List.nodup_cons] at hm
    have ih := ih hm.2
    simp only [addEntry]
    by_cases h : n' = n
    · subst h
      have hnm : ∀ x, (n', x) ∉ m := fun x hx => hm.1 (List.mem_map.2 ⟨_, hx, rfl⟩)
      simp only [if_true, List.mem_cons, Prod.mk.injEq, List.map_cons, true_or, not_true, false_and,
        or_false]
      constructor
      · rintro (⟨rfl, rfl⟩ | hmem)
        · exact .inr ⟨rfl, d', .inl ⟨trivial, rfl⟩, rfl⟩
        · exact .inl ⟨fun h => hnm b (h ▸ hmem), .inr hmem⟩
      · rintro (⟨h1, ⟨rfl, rfl⟩ | hmem⟩ | ⟨rfl, x, ⟨-, rfl⟩ | hmem, rfl⟩)
        · exact absurd rfl h1
        · exact .inr hmem
        · exact .inl ⟨rfl, rfl⟩
        · exact absurd hmem (hnm x)
    · simp only [h, if_false, List.mem_cons, Prod.mk.injEq, List.map_cons, ih, Ne.symm h, false_or,
        false_and]
      constructor
      · rintro (⟨rfl, rfl⟩ | h)
        · exact .inl ⟨h, .inl ⟨rfl, rfl⟩⟩
        · rcases h with ⟨h1, h2⟩ | h
          · exact .inl ⟨h1, .inr h2⟩
          · exact .inr h
      · rintro (⟨h1, ⟨rfl, rfl⟩ | h2⟩ | h)
        · exact .inl ⟨rfl, rfl⟩
        · exact .inr (.inl ⟨h1, h2⟩)
        · exact .inr (.inr h)

theorem profileMap_spec (acts : List (ν × F)) :
    ((profileMap add zero acts).map (·.1)).Nodup ∧
    (∀ n, n ∈ (profileMap add zero acts).map (·.1) ↔ n ∈ acts.map (·.1)) ∧
    (∀ e ∈ profileMap add zero acts, e.2 = typeTotal add zero acts e.1) := by
  induction acts using List.reverseRecOn with
  | nil => simp [profileMap]
  | append_singleton acts a ih =>
    obtain ⟨n, d⟩ := a
    obtain ⟨h1, h2, h3⟩ := ih
    have hstep : profileMap add zero (acts ++ [(n, d)]) = addEntry add zero (profileMap add zero acts) n d := by
      simp [profileMap]
    have htot : ∀ k, typeTotal add zero (acts ++ [(n, d)]) k =
        if n = k then add (typeTotal add zero acts k) d else typeTotal add zero acts k := by
      intro k
      unfold typeTotal
      by_cases hk : n = k <;> simp [List.filter_append, hk]
    rw [hstep]
    refine ⟨?_, ?_, ?_⟩
    · rw [addEntry_keys]
      split
      · exact h1
      · rename_i hn
        rw [List.nodup_append]
        refine ⟨h1, List.nodup_singleton _, ?_⟩
        intro x hx y hy
        simp only [List.mem_singleton] at hy
        subst hy
        exact fun h => hn (h ▸ hx)
    · intro k
      rw [addEntry_keys]
      simp only [List.map_append, List.map_cons, List.map_nil, List.mem_append, List.mem_singleton, ← h2]
      split
      · rename_i hn
        constructor
        · exact .inl
        · rintro (h | rfl)
          · exact h
          · exact hn
      · simp [List.mem_append]
    · intro e he
      rw [addEntry_mem add zero _ h1] at he
      rw [htot]
      rcases he with ⟨hne, he⟩ | ⟨rfl, h⟩
      · rw [if_neg (fun h => hne h.symm)]; exact h3 e he
      · rw [if_pos rfl]
        rcases h with ⟨d', hd', he⟩ | ⟨hn, he⟩
        · rw [he, ← h3 _ hd']
        · rw [he]
          congr 1
          rw [h2] at hn
          unfold typeTotal
          rw [List.filter_eq_nil_iff.2]
          · rfl
          · intro a ha
            simp only [decide_eq_true_eq]
            exact fun h => hn (List.mem_map.2 ⟨a, ha, h⟩)

end map

/-- **C40.** For every sequence of activities, whatever the rounding of additions and the
iteration order of the hash map: if no type has a total that is NaN, the breakdown
by type does not panic; it lists each type that occurs exactly once, with the
self-durations of the activities of that type accumulated in trace order, by
decreasing duration. -/
theorem breakdown_spec {ν : Type} [DecidableEq ν] (add : Fl D → Fl D → Fl D) (zero : Fl D)
    (acts : List (ν × Fl D)) (hnan : ∀ n ∈ acts.map (·.1), typeTotal add zero acts n ≠ .nan)
    (o : Out (List (ν × Fl D))) (h : BreakdownOut add zero acts o) :
    ∃ out, o = .ok out ∧ (out.map (·.1)).Nodup ∧
      (∀ n, n ∈ out.map (·.1) ↔ n ∈ acts.map (·.1)) ∧
      (∀ e ∈ out, e.2 = typeTotal add zero acts e.1) ∧
      out.Pairwise (fun e1 e2 => e1.2.ge e2.2 = true) := by
  obtain ⟨h1, h2, h3⟩ := profileMap_spec add zero acts
  obtain ⟨entries, hp, hs⟩ := h
  have hnum : ∀ e ∈ entries, ∃ x, e.2 = .num x := by
    intro e he
    have he' := hp.mem_iff.1 he
    have := hnan e.1 ((h2 _).1 (List.mem_map.2 ⟨e, he', rfl⟩))
    rw [← h3 e he'] at this
    cases hx : e.2 with
    | nan => exact absurd hx this
    | num x => exact ⟨x, rfl⟩
  cases hs with
  | panic a b ha hb hc =>
    exfalso
    obtain ⟨x, hx⟩ := hnum a ha
    obtain ⟨y, hy⟩ := hnum b hb
    simp [hx, hy, Fl.cmp] at hc
  | ok out hp' hsort =>
    have hpp := hp'.trans hp
    refine ⟨out, rfl, (hpp.map _).nodup_iff.2 h1, fun n => ((hpp.map _).mem_iff).trans (h2 n),
      fun e he => h3 e (hpp.mem_iff.1 he), ?_⟩
    refine hsort.imp_of_mem fun {a b} ha hb hab => ?_
    obtain ⟨x, hx⟩ := hnum a (hp'.mem_iff.1 ha)
    obtain ⟨y, hy⟩ := hnum b (hp'.mem_iff.1 hb)
    simp only [hx, hy, Fl.cmp, Option.some.injEq, compare_lt_iff_lt, compare_eq_iff_eq] at hab
    simp only [hx, hy, Fl.ge, decide_eq_true_eq]
    rcases hab with h | h
    · exact h.le
    · exact h.le

/-- There always is an outcome. -/
theorem breakdown_exists {ν : Type} [DecidableEq ν] (add : Fl D → Fl D → Fl D) (zero : Fl D)
    (acts : List (ν × Fl D)) : ∃ o, BreakdownOut add zero acts o := by
  by_cases h : ∃ e ∈ profileMap add zero acts, e.2 = .nan
  · obtain ⟨e, he, hn⟩ := h
    exact ⟨.panic, _, List.Perm.refl _, .panic e e he he (by simp [hn, Fl.cmp])⟩
  · have hall : ∀ e ∈ profileMap add zero acts, ∃ x, e.2 = .num x := by
      intro e he
      cases hx : e.2 with
      | nan => exact absurd ⟨e, he, hx⟩ h
      | num x => exact ⟨x, rfl⟩
    classical
    let key : ν × Fl D → WithBot D := fun e => match e.2 with
      | .nan => ⊥
      | .num x => x
    refine ⟨.ok ((profileMap add zero acts).mergeSort (fun a b => decide (key b ≤ key a))), _,
      List.Perm.refl _, .ok _ (List.mergeSort_perm _ _) ?_⟩
    have hp := List.pairwise_mergeSort (le := fun a b => decide (key b ≤ key a))
      (by intro a b c; simp; exact fun h1 h2 => h2.trans h1)
      (by intro a b; simp; exact le_total _ _) (profileMap add zero acts)
    refine hp.imp_of_mem ?_
    intro a b ha hb hab
    obtain ⟨x, hx⟩ := hall a ((List.mergeSort_perm _ _).mem_iff.1 ha)
    obtain ⟨y, hy⟩ := hall b ((List.mergeSort_perm _ _).mem_iff.1 hb)
    simp only [key, hx, hy, decide_eq_true_eq, WithBot.coe_le_coe] at hab
    simp only [hx, hy, Fl.cmp, Option.some.injEq, compare_lt_iff_lt, compare_eq_iff_eq]
    exact hab.lt_or_eq

/-! ### Exact arithmetic, on a loaded trace -/

/-- Names and self-durations of all activities of a loaded tree, in order
(`trace.all_activities()` in src/trace.rs 16-19). -/
def treeActs {T α ν : Type} [LinearOrder T] [Zero D] [Add D] [Sub D] (name : α → ν)
    (t : ATree T D α) : List (ν × D) :=
  (allActivities t).filterMap fun i =>
    match statOf t i, selfDuration t i with
    | some s, some d => some (name s.act, d)
    | _, _ => none

/-- Numeric value, for sums. -/
def Fl.val [Zero D] : Fl D → D
  | .nan => 0
  | .num x => x

/-- Exact addition. -/
def Fl.add [Add D] : Fl D → Fl D → Fl D
  | .num a, .num b => .num (a + b)
  | _, _ => .nan

end

section exact
variable {G : Type} [AddCommGroup G] [LinearOrder G]

theorem foldl_add_num (l : List G) (x : G) :
    (l.map Fl.num).foldl Fl.add (.num x) = .num (x + l.sum) := by
  induction l generalizing x with
  | nil => simp
  | cons a l ih => simp [Fl.add, ih, add_assoc]

theorem typeTotal_exact {ν : Type} [DecidableEq ν] (acts : List (ν × G)) (n : ν) :
    typeTotal Fl.add (.num 0) (acts.map fun a => (a.1, Fl.num a.2)) n =
      .num ((acts.filter fun a => a.1 = n).map (·.2)).sum := by
  unfold typeTotal
  rw [List.filter_map, List.map_map]
  have := foldl_add_num ((acts.filter fun a => a.1 = n).map (·.2)) 0
  rw [List.map_map, zero_add] at this
  exact this

/-- Grouping a sum by key. -/
theorem sum_by_key {ν : Type} [DecidableEq ν] (acts : List (ν × G)) (keys : List ν) (hk : keys.Nodup)
    (hall : ∀ a ∈ acts, a.1 ∈ keys) :
    (keys.map fun n => ((acts.filter fun a => a.1 = n).map (·.2)).sum).sum = (acts.map (·.2)).sum := by
  induction acts with
  | nil => simp
  | cons a acts ih =>
    have hstep : ∀ n, (((a :: acts).filter fun b => b.1 = n).map (·.2)).sum =
        (if n = a.1 then a.2 else 0) + ((acts.filter fun b => b.1 = n).map (·.2)).sum := by
      intro n
      by_cases h : a.1 = n
      · simp [List.filter_cons, h]
      · simp [List.filter_cons, h, Ne.symm h]
    simp only [hstep]
    rw [List.sum_map_add, ih fun b hb => hall b (List.mem_cons_of_mem _ hb)]
    have : (keys.map fun n => if n = a.1 then a.2 else 0).sum = a.2 := by
      have hmem := hall a (by simp)
      clear hstep ih hall
      induction keys with
      | nil => cases hmem
      | cons k keys ihk =>
        simp only [List.nodup_cons] at hk
        by_cases h : k = a.1
        · have h0 : (keys.map fun n => if n = a.1 then a.2 else 0) = keys.map fun _ => 0 := by
            apply List.map_congr_left
            intro n hn
            rw [if_neg]
            rintro rfl
            exact hk.1 (h ▸ hn)
          simp [h, h0]
        · simp only [List.map_cons, h, if_false, List.sum_cons, zero_add]
          exact ihk hk.2 (by simpa [Ne.symm h] using hmem)
    rw [this]
    simp

/-- **C40** with exact arithmetic, for every loaded trace: the breakdown does not panic,
each type gets the sum of the self-durations of its activities, and the listed
durations add up to the sum of the durations of the root activities. -/
theorem breakdown_total {α ν : Type} [DecidableEq ν] [IsOrderedAddMonoid G] (name : α → ν) {tmin : G}
    {xs : List (Stat G G α)} {t : ATree G G α} (hl : load tmin xs = .ok t)
    (o : Out (List (ν × Fl G)))
    (h : BreakdownOut Fl.add (.num 0) ((treeActs name t).map fun a => (a.1, .num a.2)) o) :
    ∃ out roots, o = .ok out ∧ rootActivities t = some roots ∧
      (∀ e ∈ out, e.2 = .num (total (selfDuration t) ((allActivities t).filter fun i =>
        ((statOf t i).map fun s => name s.act) = some e.1))) ∧
      (out.map fun e => e.2.val).sum = total (duration t) roots := by
  obtain ⟨out, rfl, h1, h2, h3, -⟩ := breakdown_spec _ _ _
    (fun n _ => by rw [typeTotal_exact]; exact nofun) o h
  obtain ⟨roots, hr, hsum⟩ := c05_root_sum hl
  refine ⟨out, roots, rfl, hr, ?_, ?_⟩
  · intro e he
    rw [h3 e he, typeTotal_exact]
    congr 1
    have hin : ∀ i ∈ allActivities t, i < t.acts.length := fun i hi => List.mem_range.1 hi
    unfold treeActs total
    generalize allActivities t = ids at hin
    induction ids with
    | nil => rfl
    | cons i ids ih =>
      have hi := List.getElem?_eq_getElem (hin i (by simp))
      have ih := ih fun j hj => hin j (List.mem_cons_of_mem _ hj)
      simp only [List.filterMap_cons, statOf, selfDuration, hi, Option.map_some, List.filter_cons] at ih ⊢
      have hlt := hin i (by simp)
      by_cases hn : name (t.acts[i]).stat.act = e.1
      · simp only [hn, decide_true, if_true, List.map_cons, List.sum_cons, hi, Option.map_some,
          Option.getD_some, ih]
      · simp only [hn, decide_false, Option.some.injEq, Bool.false_eq_true, if_false, ih]
  · have hv : (out.map fun e => e.2.val) =
        (out.map (·.1)).map fun n => (((treeActs name t).filter fun a => a.1 = n).map (·.2)).sum := by
      rw [List.map_map]
      apply List.map_congr_left
      intro e he
      rw [h3 e he, typeTotal_exact]
      rfl
    rw [hv, sum_by_key _ _ h1, hsum]
    · have hin : ∀ i ∈ allActivities t, i < t.acts.length := fun i hi => List.mem_range.1 hi
      unfold treeActs total
      generalize allActivities t = ids at hin
      induction ids with
      | nil => rfl
      | cons i ids ih =>
        have hi := List.getElem?_eq_getElem (hin i (by simp))
        have ih := ih fun j hj => hin j (List.mem_cons_of_mem _ hj)
        simp only [List.filterMap_cons, statOf, selfDuration, hi, Option.map_some, List.map_cons,
          List.sum_cons, Option.getD_some] at ih ⊢
        rw [ih]
    · intro a ha
      rw [h2]
      simp only [List.map_map, List.mem_map, Function.comp]
      exact ⟨a, ha, rfl⟩

/-- **C39** on a loaded trace: applied to all activities, every activity that is hot
enough is listed exactly once. -/
theorem hottest_all {α : Type} {tmin : G} {xs : List (Stat G G α)} {t : ATree G G α}
    (hl : load tmin xs = .ok t) (metric : Nat → Fl G) (threshold : Fl G) (o : Out (List Nat))
    (h : HottestOut (allActivities t) metric threshold o) :
    ∃ out, o = .ok out ∧ out.Nodup ∧
      (∀ i, i ∈ out ↔ i < xs.length ∧ (metric i).ge threshold = true) ∧
      out.Pairwise (fun a b => (metric a).ge (metric b) = true) := by
  obtain ⟨out, rfl, hp, -, hs⟩ := hottest_spec _ _ _ _ h
  have hlen : t.acts.length = xs.length := by
    obtain ⟨b, roots, hb, rfl⟩ := load_inv hl
    exact hb.length
  refine ⟨out, rfl, hp.nodup_iff.2 (List.nodup_range.filter _), fun i => ?_, hs⟩
  rw [hp.mem_iff, List.mem_filter]
  simp [allActivities, hlen]

-- non-vacuity
example : ∃ out, HottestOut (D := Int) ["a", "b", "c", "d"]
    (fun n => if n = "a" then .num 3 else if n = "b" then .nan else if n = "c" then .num 5 else .num 1)
    (.num 2) (.ok out) ∧ out = ["c", "a"] :=
  ⟨_, .ok _ (List.Perm.swap _ _ _) (by decide), rfl⟩

example : BreakdownOut Fl.add (.num 0) ((treeActs id exTree).map fun a => (a.1, .num a.2))
    (.ok [("codegen", .num 4), ("parse", .num 3), ("frontend", .num 2), ("backend", .num 1)]) :=
  ⟨_, List.Perm.refl _, .ok _ (List.Perm.swap _ _ _) (by decide)⟩

end exact

end Verif.Analysis
