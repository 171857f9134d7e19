/-
C69: the table of the full-build profile (src/ui/tui/build/display.rs 24-68, 118-156).
-/
import Verif.Build.WallTime
import Mathlib.Data.List.Pairwise
import Mathlib.Order.WithBot
import Mathlib.Data.Int.Order.Basic

set_option autoImplicit false
set_option linter.unusedVariables false
set_option linter.unusedSimpArgs false

namespace Verif.Build.ProfileTable

open Verif.Build

/-! ## Model -/

/-- `UnitProfile` (cmakeperf/src/output.rs 52-64). `P`: paths. -/
structure Unit' (P : Type) where
  path : P
  rss : Nat
  time : Option F32

/-- `wall_time()` -/
def Unit'.wall {P : Type} (u : Unit' P) : Option (Except F32 Nat) := wallTime u.time

/-- build/display.rs 31-35: `has_walltime` looks at the first unit. -/
def hasWalltime {P : Type} (p : List (Unit' P)) : Bool :=
  match p with
  | [] => false
  | u :: _ => u.wall.isSome

/-- `f32::partial_cmp`; `none`: a NaN is involved. `-0.0 = 0.0`. -/
def cmpF32 : F32 → F32 → Option Ordering
  | .nan, _ => none
  | _, .nan => none
  | .inf a, .inf b => some (if a = b then .eq else if a = true then .lt else .gt)
  | .inf a, .fin _ _ => some (if a = true then .lt else .gt)
  | .fin _ _, .inf b => some (if b = true then .gt else .lt)
  | .fin a n, .fin b m => some (compare (val a n) (val b m))
where
  /-- value of a finite number -/
  val (neg : Bool) (n : Nat) : Int := if neg then -n else n

/-- The derived `partial_cmp` of `Result<Duration, f32>`: `Ok` before `Err`. -/
def cmpWall : Except F32 Nat → Except F32 Nat → Option Ordering
  | .ok a, .ok b => some (compare a b)
  | .ok _, .error _ => some .lt
  | .error _, .ok _ => some .gt
  | .error a, .error b => cmpF32 a b

/-- `ProfileColumn` (build/display.rs 108-117). -/
inductive Column where
  | maxRss | wallTime | relPath
  deriving DecidableEq

/-- `cmp` of the rows (build/display.rs 140-155); `none`: one of the two `expect` fails. -/
def cmp {P : Type} (cmpPath : P → P → Ordering) (c : Column) (a b : Unit' P) : Option Ordering :=
  match c with
  | .maxRss => some (compare a.rss b.rss)
  | .wallTime =>
    match a.wall, b.wall with
    | some x, some y => cmpWall x y
    | _, _ => none
  | .relPath => some (cmpPath a.path b.path)

/-- The columns of the table (build/display.rs 52-66). -/
def columns {P : Type} (p : List (Unit' P)) : List Column :=
  if hasWalltime p then [.maxRss, .wallTime, .relPath] else [.maxRss, .relPath]

/-- Can the text of a cell be made (`to_column`, build/display.rs 120-138)? The time must be present. -/
def cellOk {P : Type} (c : Column) (u : Unit' P) : Bool :=
  match c with
  | .wallTime => u.wall.isSome
  | _ => true

/-! ## Specification -/

/-- The table can be drawn and sorted by each of its columns, whichever the pairs of rows that the sort compares. -/
def Works {P : Type} (cmpPath : P → P → Ordering) (p : List (Unit' P)) : Prop :=
  (∀ c ∈ columns p, ∀ u ∈ p, cellOk c u = true) ∧
  (∀ c ∈ columns p, p.Pairwise fun a b => (cmp cmpPath c a b).isSome = true ∧ (cmp cmpPath c b a).isSome = true)

/-- The time of this unit is not a number. -/
def IsNan {P : Type} (u : Unit' P) : Prop := u.time = some .nan

/-- The time of this unit is not a possible duration: not a number, infinite, negative or too long (C30). -/
def Invalid {P : Type} (u : Unit' P) : Prop := ∃ f, u.wall = some (.error f)

/-! ## Theorems -/

theorem wall_isSome {P : Type} (u : Unit' P) : u.wall.isSome = u.time.isSome := by
  unfold Unit'.wall wallTime
  rcases u.time with _ | f
  · rfl
  · cases f with
    | nan => rfl
    | inf => rfl
    | fin neg n =>
      simp only [Option.isSome_some]
      split
      · rfl
      · split <;> rfl

theorem wall_err {P : Type} (u : Unit' P) (f : F32) (h : u.wall = some (.error f)) : u.time = some f := by
  unfold Unit'.wall wallTime at h
  rcases ht : u.time with _ | g
  · rw [ht] at h; cases h
  · rw [ht] at h
    cases g with
    | nan => cases h; rfl
    | inf => cases h; rfl
    | fin neg n =>
      simp only at h
      split at h
      · cases h; rfl
      · split at h
        · cases h; rfl
        · cases h

theorem isNan_iff {P : Type} (u : Unit' P) : IsNan u ↔ u.wall = some (.error .nan) := by
  constructor
  · intro h; unfold Unit'.wall; rw [h]; rfl
  · exact wall_err u _

theorem cmpF32_some (a b : F32) : (cmpF32 a b).isSome = true ↔ a ≠ .nan ∧ b ≠ .nan := by
  cases a <;> cases b <;> simp [cmpF32]

theorem cmp_wall_some {P : Type} (cmpPath : P → P → Ordering) (a b : Unit' P) (ha : a.wall.isSome = true)
    (hb : b.wall.isSome = true) :
    (cmp cmpPath .wallTime a b).isSome = true ↔ ¬ ((IsNan a ∧ Invalid b) ∨ (IsNan b ∧ Invalid a)) := by
  rw [isNan_iff, isNan_iff]
  unfold Invalid cmp
  obtain ⟨x, hx⟩ := Option.isSome_iff_exists.1 ha
  obtain ⟨y, hy⟩ := Option.isSome_iff_exists.1 hb
  rw [hx, hy]
  simp only
  cases x <;> cases y <;> simp [cmpWall, cmpF32_some]

/-- **C69.** Exact criterion: the table of a full-build profile can be drawn and sorted by each of its columns, whichever
rows the sort compares, exactly if the first unit has no time, or all units have one and no unit whose time is NaN comes
together with another unit whose time is invalid. -/
theorem c69_table_works {P : Type} (cmpPath : P → P → Ordering) (u : Unit' P) (p : List (Unit' P)) :
    Works cmpPath (u :: p) ↔
      u.time = none ∨
        ((∀ v ∈ u :: p, v.time ≠ none) ∧
          (u :: p).Pairwise fun a b => ¬ (IsNan a ∧ Invalid b) ∧ ¬ (IsNan b ∧ Invalid a)) := by
  have hs : ∀ v : Unit' P, v.wall.isSome = true ↔ v.time ≠ none := by
    intro v; rw [wall_isSome]; cases v.time <;> simp
  constructor
  · intro ⟨h1, h2⟩
    by_cases hu : u.time = none
    · exact Or.inl hu
    · right
      have hw : hasWalltime (u :: p) = true := by
        simp only [hasWalltime]; exact (hs u).2 hu
      have hm : Column.wallTime ∈ columns (u :: p) := by simp [columns, hw]
      have ha : ∀ v ∈ u :: p, v.wall.isSome = true := fun v hv => h1 _ hm v hv
      refine ⟨fun v hv => (hs v).1 (ha v hv), ?_⟩
      refine List.Pairwise.imp_of_mem ?_ (h2 _ hm)
      intro a b hma hmb hab
      have := (cmp_wall_some cmpPath a b (ha a hma) (ha b hmb)).1 hab.1
      tauto
  · intro h
    have general : ∀ c ∈ columns (u :: p), c ≠ .wallTime →
        (∀ v ∈ u :: p, cellOk c v = true) ∧
        (u :: p).Pairwise fun a b => (cmp cmpPath c a b).isSome = true ∧ (cmp cmpPath c b a).isSome = true := by
      intro c hc hne
      cases c with
      | wallTime => exact absurd rfl hne
      | maxRss => exact ⟨fun _ _ => rfl, List.pairwise_of_forall (fun _ _ => ⟨rfl, rfl⟩)⟩
      | relPath => exact ⟨fun _ _ => rfl, List.pairwise_of_forall (fun _ _ => ⟨rfl, rfl⟩)⟩
    have wall : Column.wallTime ∈ columns (u :: p) → (∀ v ∈ u :: p, cellOk .wallTime v = true) ∧
        (u :: p).Pairwise fun a b =>
          (cmp cmpPath .wallTime a b).isSome = true ∧ (cmp cmpPath .wallTime b a).isSome = true := by
      intro hc
      rcases h with h | ⟨h1, h2⟩
      · exfalso
        have hw : hasWalltime (u :: p) = false := by
          simp only [hasWalltime, wall_isSome, h]; rfl
        simp [columns, hw] at hc
      · have ha : ∀ v ∈ u :: p, v.wall.isSome = true := fun v hv => (hs v).2 (h1 v hv)
        refine ⟨ha, List.Pairwise.imp_of_mem ?_ h2⟩
        intro a b hma hmb hab
        exact ⟨(cmp_wall_some cmpPath a b (ha a hma) (ha b hmb)).2 (by tauto),
          (cmp_wall_some cmpPath b a (ha b hmb) (ha a hma)).2 (by tauto)⟩
    constructor
    · intro c hc
      by_cases hw : c = .wallTime
      · subst hw; exact (wall hc).1
      · exact (general c hc hw).1
    · intro c hc
      by_cases hw : c = .wallTime
      · subst hw; exact (wall hc).2
      · exact (general c hc hw).2

/-- **C69.** A profile measured by the program (`UnitProfile::new`: all units with a duration, or none) always works. -/
theorem c69_measured_profile_works {P : Type} (cmpPath : P → P → Ordering) (times : Bool)
    (units : List (P × Nat × Nat)) :
    Works cmpPath (units.map fun x => ⟨x.1, x.2.1, storedTime (if times then some x.2.2 else none)⟩) := by
  cases units with
  | nil => exact ⟨fun c hc u hu => by simp at hu, fun c hc => List.Pairwise.nil⟩
  | cons x l =>
    rw [List.map_cons, c69_table_works]
    cases times
    · exact Or.inl rfl
    · right
      have hn : ∀ v ∈ (x :: l).map fun x => (⟨x.1, x.2.1, storedTime (if true = true then some x.2.2 else none)⟩ : Unit' P),
          v.time ≠ none ∧ ¬ IsNan v := by
        intro v hv
        obtain ⟨y, -, rfl⟩ := List.mem_map.1 hv
        refine ⟨by simp [storedTime], ?_⟩
        simp [IsNan, storedTime, asSecsF32]
      rw [List.map_cons] at hn
      refine ⟨fun v hv => (hn v hv).1, List.Pairwise.imp_of_mem (R := fun _ _ => True) ?_
        (List.pairwise_of_forall (fun _ _ => trivial))⟩
      intro a b ha hb _
      exact ⟨fun h => (hn a ha).2 h.1, fun h => (hn b hb).2 h.1⟩

/-- Place of a number on the number line extended by both infinities. -/
def place : F32 → Option (WithBot (WithTop Int))
  | .nan => none
  | .inf true => some ⊥
  | .inf false => some ((⊤ : WithTop Int) : WithBot (WithTop Int))
  | .fin neg n => some (((if neg then -(n : Int) else n : Int) : WithTop Int) : WithBot (WithTop Int))

/-- **C69.** Order of the time column: durations by length, before the invalid times; these in numerical order (negative
infinity first, positive infinity last, both zeros equal), and comparing them fails exactly if one is NaN. -/
theorem c69_time_order (a b : Nat) (f g : F32) :
    cmpWall (.ok a) (.ok b) = some (compare a b) ∧
    cmpWall (.ok a) (.error f) = some .lt ∧ cmpWall (.error f) (.ok a) = some .gt ∧
    (cmpWall (.error f) (.error g) = some .lt ↔ ∃ x y, place f = some x ∧ place g = some y ∧ x < y) ∧
    (cmpWall (.error f) (.error g) = some .eq ↔ ∃ x, place f = some x ∧ place g = some x) ∧
    (cmpWall (.error f) (.error g) = some .gt ↔ ∃ x y, place f = some x ∧ place g = some y ∧ y < x) ∧
    (cmpWall (.error f) (.error g) = none ↔ f = .nan ∨ g = .nan) := by
  refine ⟨rfl, rfl, rfl, ?_⟩
  have top : ∀ k : Int, ((k : WithTop Int) : WithBot (WithTop Int)) < ((⊤ : WithTop Int) : WithBot (WithTop Int)) :=
    fun k => WithBot.coe_lt_coe.2 (WithTop.coe_lt_top k)
  have bot : ∀ x : WithTop Int, (⊥ : WithBot (WithTop Int)) < (x : WithBot (WithTop Int)) := WithBot.bot_lt_coe
  rcases f with _ | a | ⟨a, n⟩ <;> rcases g with _ | b | ⟨b, m⟩
  case fin.fin =>
    simp only [cmpWall, cmpF32, cmpF32.val, place]
    generalize (if a = true then -(n : Int) else n) = k
    generalize (if b = true then -(m : Int) else m) = l
    simp [compare_lt_iff_lt, compare_eq_iff_eq, compare_gt_iff_gt, WithBot.coe_lt_coe, WithTop.coe_lt_coe]
    exact eq_comm
  case inf.fin =>
    simp only [cmpWall, cmpF32, place]
    generalize (if b = true then -(m : Int) else m) = l
    cases a <;> simp [top, bot, not_lt_of_gt (top l)]
    exact top l
  case fin.inf =>
    simp only [cmpWall, cmpF32, place]
    generalize (if a = true then -(n : Int) else n) = l
    cases b <;> simp [top, bot, not_lt_of_gt (top l)]
    exact top l
  all_goals try cases a
  all_goals try cases b
  all_goals simp [cmpWall, cmpF32, place]

/-- **C69.** The memory column compares by memory, and the path column by path; neither ever fails. -/
theorem c69_other_orders {P : Type} (cmpPath : P → P → Ordering) (a b : Unit' P) :
    (cmp cmpPath .maxRss a b = some .lt ↔ a.rss < b.rss) ∧ (cmp cmpPath .maxRss a b = some .eq ↔ a.rss = b.rss) ∧
    (cmp cmpPath .maxRss a b = some .gt ↔ b.rss < a.rss) ∧ cmp cmpPath .relPath a b = some (cmpPath a.path b.path) := by
  simp only [cmp, Option.some.injEq, Nat.compare_eq_lt, Nat.compare_eq_eq, Nat.compare_eq_gt, and_self]

/-! ## Concrete cases -/

/-- *Defect*: a profile file with a time in the first row only makes the program panic when it draws the table. -/
theorem c69_missing_time_panics : ¬ Works (P := Nat) compare [⟨1, 5, some (.fin false 7)⟩, ⟨2, 6, none⟩] := by
  rw [c69_table_works]
  simp

/-- *Defect*: so do two NaN times when the table is sorted by time. -/
theorem c69_nan_panics : ¬ Works (P := Nat) compare [⟨1, 5, some .nan⟩, ⟨2, 6, some .nan⟩] := by
  rw [c69_table_works]
  simp only [reduceCtorEq, List.mem_cons, List.not_mem_nil, or_false, false_or, not_and]
  intro _ h
  rw [List.pairwise_cons] at h
  exact (h.1 ⟨2, 6, some .nan⟩ (by simp)).1 rfl ⟨.nan, rfl⟩

/-- One NaN among valid times is harmless. -/
example : Works (P := Nat) compare [⟨1, 5, some .nan⟩, ⟨2, 6, some (.fin false 0)⟩] := by
  rw [c69_table_works]
  right
  refine ⟨by simp, ?_⟩
  simp only [List.pairwise_cons, List.mem_singleton, forall_eq, List.not_mem_nil, false_implies, implies_true,
    List.Pairwise.nil, and_true]
  constructor
  · rintro ⟨-, f, hf⟩
    have := wall_err _ _ hf
    simp only [Option.some.injEq] at this
    subst this
    revert hf
    decide +kernel
  · rintro ⟨h, -⟩
    simp [IsNan] at h

end Verif.Build.ProfileTable
