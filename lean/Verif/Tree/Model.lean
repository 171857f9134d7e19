import Mathlib.Order.Defs.LinearOrder

/-!
# Model of `clang-time-trace/src/tree.rs`

Timestamps live in an arbitrary linearly ordered type `T` (so the theorems apply to the
non-NaN `f64` values that JSON can denote), durations in an arbitrary type `D` with the
operations the code uses.  Slices are lists, `usize` indices are `Nat`, and every indexing or
slicing operation that would panic in Rust is an explicit `panic` error.
-/

set_option autoImplicit false

namespace Verif.Tree

/-- `ActivityStat` (clang-time-trace/src/stats/activity/mod.rs:26-43): what clang did, when it
started, when it stopped and how long it took.  The activity payload `α` is opaque here. -/
structure Stat (T D α : Type) where
  act : α
  start : T
  stop : T
  dur : D
deriving DecidableEq, Repr

/-- `ActivityNode` (tree.rs:189-211).  `children_indices` is the pair `chLo..chHi`. -/
structure Node (T D α : Type) where
  stat : Stat T D α
  selfDur : D
  first : Nat
  chLo : Nat
  chHi : Nat
  parent : Option Nat
deriving DecidableEq, Repr

/-- `ActivityTreeBuilder` (tree.rs:214-225). -/
structure Builder (T D α : Type) where
  acts : List (Node T D α)
  children : List Nat
  lastEnd : T
deriving DecidableEq, Repr

/-- `ActivityTree` (tree.rs:17-34). -/
structure ATree (T D α : Type) where
  acts : List (Node T D α)
  children : List Nat
  firstRoot : Nat
deriving DecidableEq, Repr

/-- `ActivityTreeError` (tree.rs:338-end), plus the explicit `panic` outcome.  The overlap error
carries the two activities instead of their `Debug` rendering. -/
inductive Err (T D α : Type) where
  | order (prev current : T)
  | overlap (prev current : Stat T D α)
  | panic
deriving DecidableEq, Repr

variable {T D α : Type} [LinearOrder T] [Zero D] [Add D] [Sub D]

/-- `ActivityTreeBuilder::with_capacity` (tree.rs:230-236); `tmin` is `Timestamp::MIN`. -/
def empty (tmin : T) : Builder T D α := ⟨[], [], tmin⟩

/-- `NonZeroUsize::new` (used at tree.rs:283): zero is not representable. -/
def nonZero (n : Nat) : Option Nat := if n = 0 then none else some n

/-- The child collection loop of `insert` (tree.rs:261-291).  `n` is the length of the
`child_candidates` slice, whose last element is `acts[n-1]`.  Reslicing to
`next_candidates[..first_related_idx]` panics when out of range (tree.rs:290). -/
def scan (x : Stat T D α) (cur : Nat) (acts : List (Node T D α)) (children : List Nat)
    (cdur : D) (first : Nat) (n : Nat) :
    Except (Err T D α) (List (Node T D α) × List Nat × D × Nat) :=
  match n with
  | 0 => .ok (acts, children, cdur, first)
  | k + 1 =>
    match acts[k]? with
    | none => .error .panic
    | some cand =>
      if cand.stat.start < x.start then
        if cand.stat.stop ≤ x.start then .ok (acts, children, cdur, first)
        else .error (.overlap cand.stat x)
      else if cand.first ≤ k then
        scan x cur (acts.set k { cand with parent := nonZero cur }) (children ++ [k])
          (cdur + cand.stat.dur) cand.first cand.first
      else .error .panic
termination_by n

/-- `ActivityTreeBuilder::insert` (tree.rs:242-306). -/
def insert (b : Builder T D α) (x : Stat T D α) : Except (Err T D α) (Builder T D α) :=
  if x.stop < b.lastEnd then .error (.order b.lastEnd x.stop)
  else
    let cur := b.acts.length
    match scan x cur b.acts b.children 0 cur cur with
    | .error e => .error e
    | .ok (acts, children, cdur, first) =>
      .ok { acts := acts ++ [{ stat := x, selfDur := x.dur - cdur, first := first,
                               chLo := b.children.length, chHi := children.length,
                               parent := none }],
            children := children,
            lastEnd := x.stop }

/-- The root collection loop of `build` (tree.rs:312-319). -/
def rootScan (acts : List (Node T D α)) (children : List Nat) (n : Nat) :
    Except (Err T D α) (List Nat) :=
  match n with
  | 0 => .ok children
  | k + 1 =>
    match acts[k]? with
    | none => .error .panic
    | some root =>
      if root.first ≤ k then rootScan acts (children ++ [k]) root.first
      else .error .panic
termination_by n

/-- `ActivityTreeBuilder::build` (tree.rs:309-335), with its `assert_eq!`. -/
def build (b : Builder T D α) : Except (Err T D α) (ATree T D α) :=
  match rootScan b.acts b.children b.acts.length with
  | .error e => .error e
  | .ok children =>
    if b.acts.length = children.length then
      .ok { acts := b.acts, children := children, firstRoot := b.children.length }
    else .error .panic

/-- The use of the builder by `ClangTrace::from_str` (lib.rs:254-350): insert every activity in
turn, stop at the first error, then build. -/
def insertAll (b : Builder T D α) : List (Stat T D α) → Except (Err T D α) (Builder T D α)
  | [] => .ok b
  | x :: xs =>
    match insert b x with
    | .error e => .error e
    | .ok b' => insertAll b' xs

/-- Load a whole sequence of activities into a fresh builder, then build. -/
def load (tmin : T) (xs : List (Stat T D α)) : Except (Err T D α) (ATree T D α) :=
  match insertAll (empty tmin) xs with
  | .error e => .error e
  | .ok b => build b

/-! ## Accessors; `none` is a panic (out of range index). -/

/-- Rust range slicing `v[lo..hi]`. -/
def slice {β : Type} (v : List β) (lo hi : Nat) : Option (List β) :=
  if lo ≤ hi ∧ hi ≤ v.length then some ((v.take hi).drop lo) else none

/-- `hierarchy_iter` (tree.rs:50-61): every listed id must index `activities`. -/
def hierarchyIter (t : ATree T D α) (ids : Option (List Nat)) : Option (List Nat) :=
  match ids with
  | none => none
  | some l => if l.all (· < t.acts.length) then some l else none

/-- `ActivityTree::root_activities` (tree.rs:41-43), as a list of activity ids. -/
def rootActivities (t : ATree T D α) : Option (List Nat) :=
  hierarchyIter t (slice t.children t.firstRoot t.children.length)

/-- `ActivityTree::all_activities` (tree.rs:67-76). -/
def allActivities (t : ATree T D α) : List Nat := List.range t.acts.length

/-- `ActivityTree::activity_trace` + `ActivityTrace::{activity,start,duration,end}`
(tree.rs:79-85, 109-131): the recorded statistics of activity `i`. -/
def statOf (t : ATree T D α) (i : Nat) : Option (Stat T D α) := t.acts[i]?.map (·.stat)

/-- `ActivityTrace::self_duration` (tree.rs:124-126). -/
def selfDuration (t : ATree T D α) (i : Nat) : Option D := t.acts[i]?.map (·.selfDur)

/-- `ActivityTrace::direct_children` (tree.rs:137-140). -/
def directChildren (t : ATree T D α) (i : Nat) : Option (List Nat) :=
  match t.acts[i]? with
  | none => none
  | some nd => hierarchyIter t (slice t.children nd.chLo nd.chHi)

/-- `ActivityTrace::all_children` (tree.rs:147-160). -/
def allChildren (t : ATree T D α) (i : Nat) : Option (List Nat) :=
  match t.acts[i]? with
  | none => none
  | some nd =>
    match slice t.acts nd.first i with
    | none => none
    | some l => some ((List.range l.length).map (· + nd.first))

/-- `ActivityTrace::parent` (tree.rs:163-172): outer `none` is a panic, inner `none` "no parent". -/
def parentOf (t : ATree T D α) (i : Nat) : Option (Option Nat) :=
  match t.acts[i]? with
  | none => none
  | some nd =>
    match nd.parent with
    | none => some none
    | some p => if p < t.acts.length then some (some p) else none

end Verif.Tree
