import Mathlib.Logic.Function.Basic
import Mathlib.Data.List.Basic

/-!
# Files, inodes and the two operations the measurement backups are made of

A small file system: a directory maps paths to inodes, inodes hold contents.  Open file
descriptors designate inodes, so that renaming over a file that somebody has open does not
redirect that somebody's writes.  This is the part of POSIX `std::fs::rename`,
`std::fs::remove_file` and `File::create` rest on.
-/

set_option autoImplicit false
set_option linter.unusedVariables false
set_option linter.unusedSimpArgs false

namespace Verif.Tui

/-- Result of a file operation, as the code distinguishes them: success, `NotFound`, any other error. -/
inductive IoRes where
  | ok | notFound | other
  deriving DecidableEq

/-- File system state: directory entries, inode contents and the next unused inode number. -/
structure Fs (P C : Type) where
  dir : P → Option Nat
  data : Nat → C
  next : Nat

variable {P C : Type} [DecidableEq P]

/-- What opening `p` and reading it to the end gives. -/
def Fs.read (fs : Fs P C) (p : P) : Option C := (fs.dir p).map fs.data

/-- `std::fs::rename(p, q)` when nothing goes wrong (trace/measure.rs 247, build/measure.rs 162):
`NotFound` when `p` does not exist, otherwise `q` atomically becomes what `p` was. Renaming a path
to itself changes nothing. -/
def Fs.rename (fs : Fs P C) (p q : P) : IoRes × Fs P C :=
  match fs.dir p with
  | none => (.notFound, fs)
  | some i => if p = q then (.ok, fs) else (.ok, { fs with dir := fun r => if r = q then some i else if r = p then none else fs.dir r })

/-- `std::fs::remove_file(p)` when nothing goes wrong. -/
def Fs.remove (fs : Fs P C) (p : P) : IoRes × Fs P C :=
  match fs.dir p with
  | none => (.notFound, fs)
  | some _ => (.ok, { fs with dir := fun r => if r = p then none else fs.dir r })

/-- Make `p` a brand new file holding `c`. -/
def Fs.link (fs : Fs P C) (p : P) (c : C) : Fs P C :=
  { dir := fun r => if r = p then some fs.next else fs.dir r, data := fun j => if j = fs.next then c else fs.data j, next := fs.next + 1 }

/-- Write through a descriptor to inode `i`. -/
def Fs.write (fs : Fs P C) (i : Nat) (c : C) : Fs P C :=
  { fs with data := fun j => if j = i then c else fs.data j }

/-- `File::create(p)`: truncate the existing file or make a new, empty one; returns the inode. -/
def Fs.create (fs : Fs P C) (p : P) (empty : C) : Nat × Fs P C :=
  match fs.dir p with
  | some i => (i, fs.write i empty)
  | none => (fs.next, fs.link p empty)

/-- A file system in which every directory entry points at an allocated inode and no two paths share one. -/
structure Fs.Wf (fs : Fs P C) : Prop where
  lt : ∀ p i, fs.dir p = some i → i < fs.next
  inj : ∀ p q i, fs.dir p = some i → fs.dir q = some i → p = q

/-! ## Backup paths -/

/-- Part of a file name before its extension (`Path::file_stem`): everything before the last `'.'`,
or the whole name when there is no dot or only a leading one. -/
def stem (n : List Char) : List Char :=
  let before := (n.reverse.dropWhile (· ≠ '.')).drop 1 |>.reverse
  if before = [] then n else before

/-- `with_extension("bak")` on a file name (trace/measure.rs 246, build/measure.rs 161). -/
def bakName (n : List Char) : List Char := stem n ++ ".bak".toList

theorem dropWhile_append_dot (a b : List Char) (h : '.' ∉ a) : (a ++ '.' :: b).dropWhile (· ≠ '.') = '.' :: b := by
  induction a with
  | nil => simp
  | cons x a ih =>
    have hx : x ≠ '.' := fun e => h (by simp [e])
    have ha : '.' ∉ a := fun e => h (by simp [e])
    simp only [List.cons_append, List.dropWhile_cons]
    simp only [ne_eq, hx, not_false_eq_true, decide_true, if_true]
    exact ih ha

theorem stem_ext (s e : List Char) (hs : s ≠ []) (he : '.' ∉ e) : stem (s ++ '.' :: e) = s := by
  unfold stem
  have h1 : (s ++ '.' :: e).reverse = e.reverse ++ '.' :: s.reverse := by simp
  rw [h1, dropWhile_append_dot _ _ (by simpa using he)]
  simp [hs]

/-- The backup of `name.ext` is `name.bak`. -/
theorem bakName_ext (s e : List Char) (hs : s ≠ []) (he : '.' ∉ e) : bakName (s ++ '.' :: e) = s ++ ".bak".toList := by
  unfold bakName; rw [stem_ext s e hs he]

/-- The backup path coincides with the profile path exactly when the profile is itself called `something.bak`. -/
theorem bakName_eq_self (n : List Char) : bakName n = n ↔ ∃ s, s ≠ [] ∧ n = s ++ ".bak".toList := by
  constructor
  · intro h
    refine ⟨stem n, ?_, h.symm⟩
    intro h0
    unfold bakName at h
    rw [h0] at h
    have : n = ".bak".toList := by rw [← h]; rfl
    subst this
    revert h0; decide
  · rintro ⟨s, hs, rfl⟩
    exact bakName_ext s "bak".toList hs (by decide)

example : bakName "cmakeperf.csv".toList = "cmakeperf.bak".toList := by decide
example : bakName "main.cpp.json".toList = "main.cpp.bak".toList := by decide
example : bakName ".profile".toList = ".profile.bak".toList := by decide

/-! ## Elementary facts -/

variable {fs : Fs P C}

theorem dir_rename (p q r : P) (hpq : p ≠ q) : (fs.rename p q).2.dir r =
    if fs.dir p = none then fs.dir r else if r = q then fs.dir p else if r = p then none else fs.dir r := by
  unfold Fs.rename
  cases h : fs.dir p with
  | none => simp
  | some i => simp [hpq]

theorem data_rename (p q : P) : (fs.rename p q).2.data = fs.data := by
  unfold Fs.rename
  cases h : fs.dir p with
  | none => rfl
  | some i => simp only; split <;> rfl

theorem next_rename (p q : P) : (fs.rename p q).2.next = fs.next := by
  unfold Fs.rename
  cases h : fs.dir p with
  | none => rfl
  | some i => simp only; split <;> rfl

theorem rename_res (p q : P) : (fs.rename p q).1 = if fs.dir p = none then .notFound else .ok := by
  unfold Fs.rename
  cases h : fs.dir p with
  | none => simp
  | some i => simp only; split <;> simp

theorem dir_remove (p r : P) : (fs.remove p).2.dir r = if r = p then none else fs.dir r := by
  unfold Fs.remove
  cases h : fs.dir p with
  | none => simp only; split_ifs with hr <;> simp [*]
  | some i => simp

theorem data_remove (p : P) : (fs.remove p).2.data = fs.data := by
  unfold Fs.remove; cases h : fs.dir p <;> rfl

theorem next_remove (p : P) : (fs.remove p).2.next = fs.next := by
  unfold Fs.remove; cases h : fs.dir p <;> rfl

theorem wf_rename (h : fs.Wf) (p q : P) (hpq : p ≠ q) : (fs.rename p q).2.Wf := by
  constructor
  · intro r i hr
    rw [next_rename]
    rw [dir_rename _ _ _ hpq] at hr
    split_ifs at hr with h1 h2 h3
    · exact h.lt _ _ hr
    · exact h.lt _ _ hr
    · exact h.lt _ _ hr
  · intro r r' i hr hr'
    rw [dir_rename _ _ _ hpq] at hr hr'
    split_ifs at hr hr' with h1 h2 h3 h4 h5
    all_goals first
      | exact h.inj _ _ _ hr hr'
      | (subst_vars; rfl)
      | (exact absurd (h.inj _ _ _ hr hr') (by tauto))
      | (exact absurd (h.inj _ _ _ hr' hr) (by tauto))
      | skip

theorem wf_remove (h : fs.Wf) (p : P) : (fs.remove p).2.Wf := by
  constructor
  · intro r i hr
    rw [next_remove]
    rw [dir_remove] at hr
    split_ifs at hr
    exact h.lt _ _ hr
  · intro r r' i hr hr'
    rw [dir_remove] at hr hr'
    split_ifs at hr hr'
    exact h.inj _ _ _ hr hr'

theorem wf_link (h : fs.Wf) (p : P) (c : C) : (fs.link p c).Wf := by
  constructor
  · intro r i hr
    simp only [Fs.link] at hr ⊢
    split_ifs at hr
    · simp at hr; omega
    · have := h.lt _ _ hr; omega
  · intro r r' i hr hr'
    simp only [Fs.link] at hr hr'
    split_ifs at hr hr' with h1 h2 h3
    · rw [h1, h2]
    · have := h.lt _ _ hr'; simp at hr; omega
    · have := h.lt _ _ hr; simp at hr'; omega
    · exact h.inj _ _ _ hr hr'

theorem wf_write (h : fs.Wf) (i : Nat) (c : C) : (fs.write i c).Wf := ⟨h.lt, h.inj⟩

theorem wf_create (h : fs.Wf) (p : P) (c : C) : (fs.create p c).2.Wf := by
  unfold Fs.create
  cases hp : fs.dir p with
  | none => exact wf_link h p c
  | some i => exact wf_write h i c

end Verif.Tui
