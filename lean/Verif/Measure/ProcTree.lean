/-
C26: process tree tracking (cmakeperf/src/measure/worker.rs:148-230).

Simplifications: the process table (`sysinfo::System::processes()`, a hash map) is a list with distinct pids in any
order; the `while` loop is a fuelled function that returns `none` when the fuel is exhausted (theorems say for which
tables some amount of fuel suffices, and that otherwise no amount does); memory is an unbounded natural number.
-/
import Mathlib.Data.List.Nodup
import Mathlib.Logic.Relation
import Mathlib.Data.Finset.Card

set_option autoImplicit false
set_option linter.unusedVariables false
set_option linter.unusedSimpArgs false

namespace Verif.Measure

/-- An entry of the process table: pid, `Process::parent()`, `Process::memory()`. -/
structure Proc where
  pid : Nat
  parent : Option Nat
  mem : Nat
  deriving DecidableEq

/-- worker.rs:194-199: the inner loop, children of one parent in table order -/
def childrenOf (t : List Proc) (p : Nat) : List Nat :=
  (t.filter (fun q => decide (q.parent = some p))).map Proc.pid

/-- worker.rs:190-206: the `while` loop; one unit of fuel per generation. Returns the pids pushed to `tree`. -/
def refreshLoop (t : List Proc) : Nat → List Nat → Option (List Nat)
  | _, [] => some []
  | 0, _ :: _ => none
  | fuel + 1, parents => (refreshLoop t fuel (parents.flatMap (childrenOf t))).map (parents ++ ·)

/-- worker.rs:172-175 `set_root` -/
def setRoot (root : Nat) : List Nat := [root]

/-- worker.rs:178-207 `refresh`: `tree` is the previous tree, whose first element is the root (`none`: out of fuel, or
the `expect` of line 185) -/
def refresh (t : List Proc) (fuel : Nat) (tree : List Nat) : Option (List Nat) :=
  match tree.head? with
  | none => none
  | some root => refreshLoop t fuel [root]

/-- worker.rs:210-212 `processes()` -/
def treeProcs (t : List Proc) (tree : List Nat) : List Proc :=
  tree.flatMap fun pid => (t.find? (fun q => q.pid = pid)).toList

/-- worker.rs:215-217 `memory` -/
def treeMemory (t : List Proc) (tree : List Nat) : Nat := ((treeProcs t tree).map Proc.mem).sum

/-- worker.rs:220-228 `kill`: the processes that are signalled, and the global result -/
def treeKill (t : List Proc) (tree : List Nat) (killOk : Nat → Bool) : List Nat × Bool :=
  ((treeProcs t tree).map Proc.pid, (treeProcs t tree).all fun q => killOk q.pid)

/-! ## Specification -/

/-- `b` is in the process table as a child of `a`. -/
def IsChild (t : List Proc) (a b : Nat) : Prop := ∃ q ∈ t, q.pid = b ∧ q.parent = some a

/-- `b` is `root` or one of its transitive children in the table. -/
def Descendant (t : List Proc) (root b : Nat) : Prop := Relation.ReflTransGen (IsChild t) root b

/-! ## Proof -/

variable {t : List Proc}

theorem mem_childrenOf (p b : Nat) : b ∈ childrenOf t p ↔ IsChild t p b := by
  simp only [childrenOf, List.mem_map, List.mem_filter, decide_eq_true_eq, IsChild]
  constructor
  · rintro ⟨q, ⟨h1, h2⟩, h3⟩; exact ⟨q, h1, h3, h2⟩
  · rintro ⟨q, h1, h2, h3⟩; exact ⟨q, ⟨h1, h3⟩, h2⟩

/-- Generation `k`. -/
def gen (t : List Proc) (root : Nat) : Nat → List Nat
  | 0 => [root]
  | k + 1 => (gen t root k).flatMap (childrenOf t)

theorem mem_gen_succ (root k b : Nat) : b ∈ gen t root (k + 1) ↔ ∃ a ∈ gen t root k, IsChild t a b := by
  simp only [gen, List.mem_flatMap, mem_childrenOf]

theorem parent_unique (hp : (t.map Proc.pid).Nodup) {a a' b : Nat} (h : IsChild t a b) (h' : IsChild t a' b) : a = a' := by
  obtain ⟨q, hq, rfl, h2⟩ := h
  obtain ⟨q', hq', h1', h2'⟩ := h'
  have : q' = q := List.inj_on_of_nodup_map hp hq' hq h1'
  subst this
  rw [h2] at h2'; cases h2'; rfl

theorem gen_desc (root k b : Nat) (h : b ∈ gen t root k) : Descendant t root b := by
  induction k generalizing b with
  | zero => simp [gen] at h; subst h; exact Relation.ReflTransGen.refl
  | succ k ih =>
    rw [mem_gen_succ] at h
    obtain ⟨a, ha, hc⟩ := h
    exact (ih a ha).tail hc

theorem gen_trans (root k b : Nat) (h : b ∈ gen t root (k + 1)) : Relation.TransGen (IsChild t) root b := by
  rw [mem_gen_succ] at h
  obtain ⟨a, ha, hc⟩ := h
  exact Relation.TransGen.tail' (gen_desc root k a ha) hc

theorem desc_gen (root b : Nat) (h : Descendant t root b) : ∃ k, b ∈ gen t root k := by
  induction h with
  | refl => exact ⟨0, by simp [gen]⟩
  | tail _ hc ih =>
    obtain ⟨k, hk⟩ := ih
    exact ⟨k + 1, (mem_gen_succ _ _ _).2 ⟨_, hk, hc⟩⟩

theorem depth_unique (hp : (t.map Proc.pid).Nodup) (root : Nat) (hc : ¬ Relation.TransGen (IsChild t) root root) :
    ∀ k l b, b ∈ gen t root k → b ∈ gen t root l → k = l := by
  intro k
  induction k with
  | zero =>
    intro l b hk hl
    simp [gen] at hk; subst hk
    cases l with
    | zero => rfl
    | succ l => exact absurd (gen_trans b l b hl) hc
  | succ k ih =>
    intro l b hk hl
    cases l with
    | zero =>
      simp [gen] at hl; subst hl
      exact absurd (gen_trans b k b hk) hc
    | succ l =>
      rw [mem_gen_succ] at hk hl
      obtain ⟨a, ha, hca⟩ := hk
      obtain ⟨a', ha', hca'⟩ := hl
      have := parent_unique hp hca hca'
      subst this
      rw [ih l a ha ha']

theorem childrenOf_nodup (hp : (t.map Proc.pid).Nodup) (p : Nat) : (childrenOf t p).Nodup :=
  hp.sublist (List.filter_sublist.map _)

theorem gen_nodup (hp : (t.map Proc.pid).Nodup) (root k : Nat) : (gen t root k).Nodup := by
  induction k with
  | zero => simp [gen]
  | succ k ih =>
    rw [gen, List.nodup_flatMap]
    refine ⟨fun x _ => childrenOf_nodup hp x, ?_⟩
    refine List.Pairwise.imp ?_ ih
    intro a a' hne
    simp only [Function.onFun, List.disjoint_left, mem_childrenOf]
    intro b h1 h2
    exact hne (parent_unique hp h1 h2)

/-- Generations `k`, `k+1`, ..., `k+m-1`. -/
def gens (t : List Proc) (root k m : Nat) : List Nat := (List.range' k m).flatMap (gen t root)

theorem gens_nodup (hp : (t.map Proc.pid).Nodup) (root : Nat) (hc : ¬ Relation.TransGen (IsChild t) root root)
    (k m : Nat) : (gens t root k m).Nodup := by
  unfold gens
  rw [List.nodup_flatMap]
  refine ⟨fun x _ => gen_nodup hp root x, ?_⟩
  refine List.Pairwise.imp ?_ List.nodup_range'
  intro a a' hne
  simp only [Function.onFun, List.disjoint_left]
  intro b h1 h2
  exact hne (depth_unique hp root hc a a' b h1 h2)

theorem gen_sub (root k b : Nat) (h : b ∈ gen t root (k + 1)) : b ∈ t.map Proc.pid := by
  rw [mem_gen_succ] at h
  obtain ⟨a, -, q, hq, hpid, -⟩ := h
  exact List.mem_map.2 ⟨q, hq, hpid⟩

theorem gen_empty_later (root k : Nat) (h : gen t root k = []) : ∀ j, gen t root (k + j) = [] := by
  intro j
  induction j with
  | zero => exact h
  | succ j ih => show gen t root (k + j + 1) = []; rw [gen, ih]; rfl

theorem gens_length (root k m : Nat) (h : ∀ j, j < m → gen t root (k + j) ≠ []) : m ≤ (gens t root k m).length := by
  induction m generalizing k with
  | zero => omega
  | succ m ih =>
    unfold gens at ih ⊢
    rw [List.range'_succ, List.flatMap_cons, List.length_append]
    have h1 := List.length_pos_iff.2 (h 0 (by omega))
    have h2 := ih (k + 1) (fun j hj => by have := h (j + 1) (by omega); rwa [show k + 1 + j = k + (j + 1) by omega])
    simp only [Nat.add_zero] at h1
    omega

/-- Some generation is empty, at most `t.length + 1`. -/
theorem gen_ends (hp : (t.map Proc.pid).Nodup) (root : Nat) (hc : ¬ Relation.TransGen (IsChild t) root root) :
    gen t root (t.length + 1) = [] := by
  by_contra hne
  have hall : ∀ j, j < t.length + 1 → gen t root (1 + j) ≠ [] := by
    intro j hj he
    apply hne
    have := gen_empty_later root (1 + j) he (t.length - j)
    rwa [show 1 + j + (t.length - j) = t.length + 1 by omega] at this
  have h1 := gens_length root 1 (t.length + 1) hall
  have h2 := gens_nodup hp root hc 1 (t.length + 1)
  have h3 : (gens t root 1 (t.length + 1)).toFinset ⊆ (t.map Proc.pid).toFinset := by
    intro b hb
    rw [List.mem_toFinset] at hb ⊢
    unfold gens at hb
    rw [List.mem_flatMap] at hb
    obtain ⟨k, hk, hb⟩ := hb
    rw [List.mem_range'_1] at hk
    obtain ⟨k', rfl⟩ : ∃ k', k = k' + 1 := ⟨k - 1, by omega⟩
    exact gen_sub root k' b hb
  have h4 := Finset.card_le_card h3
  rw [List.toFinset_card_of_nodup h2, List.toFinset_card_of_nodup hp, List.length_map] at h4
  omega

theorem loop_gens (root : Nat) : ∀ (m k : Nat), gen t root (k + m) = [] →
    refreshLoop t m (gen t root k) = some (gens t root k m) := by
  intro m
  induction m with
  | zero =>
    intro k h
    rw [Nat.add_zero] at h
    rw [h]; simp [refreshLoop, gens]
  | succ m ih =>
    intro k h
    have ih' := ih (k + 1) (by rwa [show k + 1 + m = k + (m + 1) by omega])
    cases hg : gen t root k with
    | nil =>
      have hall := gen_empty_later root k hg
      simp only [refreshLoop]
      have : gens t root k (m + 1) = [] := by
        unfold gens
        rw [List.flatMap_eq_nil_iff]
        intro x hx
        rw [List.mem_range'_1] at hx
        have := hall (x - k)
        rwa [show k + (x - k) = x by omega] at this
      rw [this]
    | cons x xs =>
      rw [refreshLoop]
      · rw [← hg]
        have : (gen t root k).flatMap (childrenOf t) = gen t root (k + 1) := rfl
        rw [this, ih']
        simp [gens, List.range'_succ]
      · intro h; cases h

theorem loop_mono (fuel : Nat) : ∀ (ps r : List Nat), refreshLoop t fuel ps = some r →
    ∀ extra, refreshLoop t (fuel + extra) ps = some r := by
  induction fuel with
  | zero =>
    intro ps r h extra
    cases ps with
    | nil => simpa [refreshLoop] using h
    | cons x xs => simp [refreshLoop] at h
  | succ fuel ih =>
    intro ps r h extra
    cases ps with
    | nil => simpa [refreshLoop] using h
    | cons x xs =>
      rw [show fuel + 1 + extra = fuel + extra + 1 by omega]
      rw [refreshLoop] at h ⊢
      · cases hr : refreshLoop t fuel ((x :: xs).flatMap (childrenOf t)) with
        | none => rw [hr] at h; simp at h
        | some r' =>
          rw [hr] at h
          rw [ih _ _ hr extra]; exact h
      all_goals (intro h; cases h)

/-- **C26.** For every process table with distinct pids in which the root is not its own transitive child, `refresh`
terminates, and its result is: the root first; exactly the root and its transitive children; each once; no process
before its parent. The result does not depend on how long we are ready to wait. -/
theorem c26_refresh (t : List Proc) (hp : (t.map Proc.pid).Nodup) (root : Nat)
    (hc : ¬ Relation.TransGen (IsChild t) root root) (rest : List Nat) :
    ∃ tree, (∀ fuel, t.length + 1 ≤ fuel → refresh t fuel (root :: rest) = some tree) ∧
      tree.head? = some root ∧
      (∀ b, b ∈ tree ↔ Descendant t root b) ∧
      tree.Nodup ∧
      tree.Pairwise (fun x y => ¬ IsChild t y x) := by
  have hend := gen_ends hp root hc
  have hloop := loop_gens (t := t) root (t.length + 1) 0 (by rwa [Nat.zero_add])
  refine ⟨gens t root 0 (t.length + 1), ?_, ?_, ?_, gens_nodup hp root hc _ _, ?_⟩
  · intro fuel hf
    obtain ⟨e, rfl⟩ := Nat.exists_eq_add_of_le hf
    exact loop_mono _ _ _ hloop e
  · simp [gens, List.range'_succ, gen]
  · intro b
    constructor
    · intro hb
      unfold gens at hb
      rw [List.mem_flatMap] at hb
      obtain ⟨k, -, hb⟩ := hb
      exact gen_desc root k b hb
    · intro hd
      obtain ⟨k, hk⟩ := desc_gen root b hd
      unfold gens
      rw [List.mem_flatMap]
      refine ⟨k, ?_, hk⟩
      rw [List.mem_range'_1]
      refine ⟨by omega, ?_⟩
      by_contra hge
      have := gen_empty_later root _ hend (k - (t.length + 1))
      rw [show t.length + 1 + (k - (t.length + 1)) = k by omega] at this
      rw [this] at hk; cases hk
  · unfold gens
    rw [List.pairwise_flatMap]
    refine ⟨?_, ?_⟩
    · intro k hk
      refine List.Pairwise.imp_of_mem ?_ (gen_nodup hp root k)
      intro x y hx hy _ hch
      have hx' : x ∈ gen t root (k + 1) := (mem_gen_succ _ _ _).2 ⟨y, hy, hch⟩
      have := depth_unique hp root hc _ _ _ hx hx'
      omega
    · refine List.Pairwise.imp ?_ List.pairwise_lt_range'
      intro k l hkl x hx y hy hch
      have hx' : x ∈ gen t root (l + 1) := (mem_gen_succ _ _ _).2 ⟨y, hy, hch⟩
      have := depth_unique hp root hc _ _ _ hx hx'
      omega

/-- **C26, repeated refreshes.** The root survives any number of refreshes on changing process tables. -/
theorem c26_root_stable (root : Nat) (ts : List (List Proc × Nat)) (tree : List Nat)
    (h : ts.foldlM (fun tree (x : List Proc × Nat) => refresh x.1 x.2 tree) (setRoot root) = some tree) :
    tree.head? = some root := by
  suffices ∀ (ts : List (List Proc × Nat)) (tr tree : List Nat), tr.head? = some root →
      ts.foldlM (fun tree (x : List Proc × Nat) => refresh x.1 x.2 tree) tr = some tree → tree.head? = some root from
    this ts _ tree rfl h
  intro ts
  induction ts with
  | nil => intro tr tree h1 h2; simp at h2; subst h2; exact h1
  | cons x xs ih =>
    intro tr tree h1 h2
    rw [List.foldlM_cons] at h2
    cases hr : refresh x.1 x.2 tr with
    | none => rw [hr] at h2; simp at h2
    | some tr' =>
      rw [hr] at h2
      refine ih tr' tree ?_ h2
      unfold refresh at hr
      rw [h1] at hr
      simp only at hr
      cases hx : x.2 with
      | zero => rw [hx] at hr; simp [refreshLoop] at hr
      | succ f =>
        rw [hx, refreshLoop] at hr
        · cases hy : refreshLoop x.1 f ([root].flatMap (childrenOf x.1)) with
          | none => rw [hy] at hr; simp at hr
          | some r => rw [hy] at hr; simp at hr; subst hr; rfl
        · intro h; cases h

theorem find_pid (hp : (t.map Proc.pid).Nodup) (q : Proc) (hq : q ∈ t) : t.find? (fun x => x.pid = q.pid) = some q := by
  cases hf : t.find? (fun x => x.pid = q.pid) with
  | none =>
    rw [List.find?_eq_none] at hf
    have := hf q hq; simp at this
  | some q' =>
    have h1 := List.find?_some hf
    have h2 := List.mem_of_find?_eq_some hf
    simp only [decide_eq_true_eq] at h1
    rw [List.inj_on_of_nodup_map hp h2 hq h1]

/-- **C26, memory and kill.** On a refreshed tree, the processes whose memory is summed and that are killed are exactly
the processes of the table that are the root or its transitive children, each once. -/
theorem c26_memory_kill (t : List Proc) (hp : (t.map Proc.pid).Nodup) (root : Nat)
    (hc : ¬ Relation.TransGen (IsChild t) root root) (rest : List Nat) (fuel : Nat) (tree : List Nat)
    (hr : refresh t fuel (root :: rest) = some tree) (killOk : Nat → Bool) :
    ∃ procs : List Proc, procs.Nodup ∧ (∀ q, q ∈ procs ↔ q ∈ t ∧ Descendant t root q.pid) ∧
      treeMemory t tree = (procs.map Proc.mem).sum ∧
      treeKill t tree killOk = (procs.map Proc.pid, procs.all fun q => killOk q.pid) := by
  obtain ⟨tree', h1, -, h3, h4, -⟩ := c26_refresh t hp root hc rest
  have htree : tree = tree' := by
    have ha := h1 (fuel + (t.length + 1)) (by omega)
    have hb : refresh t (fuel + (t.length + 1)) (root :: rest) = some tree := loop_mono fuel _ _ hr _
    rw [ha] at hb; cases hb; rfl
  subst htree
  have hmem : ∀ q, q ∈ treeProcs t tree ↔ q ∈ t ∧ q.pid ∈ tree := by
    intro q
    unfold treeProcs
    rw [List.mem_flatMap]
    constructor
    · rintro ⟨pid, hpid, hq⟩
      rw [Option.mem_toList] at hq
      have hq1 := List.find?_some hq
      simp only [decide_eq_true_eq] at hq1
      exact ⟨List.mem_of_find?_eq_some hq, hq1 ▸ hpid⟩
    · rintro ⟨hq, hpid⟩
      exact ⟨q.pid, hpid, by rw [find_pid hp q hq]; simp⟩
  refine ⟨treeProcs t tree, ?_, ?_, rfl, rfl⟩
  · unfold treeProcs
    rw [List.nodup_flatMap]
    refine ⟨fun x _ => by cases t.find? (fun q => q.pid = x) <;> simp, ?_⟩
    refine List.Pairwise.imp ?_ h4
    intro a b hne
    simp only [Function.onFun, List.disjoint_left, Option.mem_toList]
    intro q hqa hqb
    have h1 := List.find?_some hqa
    have h2 := List.find?_some hqb
    simp only [decide_eq_true_eq] at h1 h2
    omega
  · intro q; rw [hmem, h3]

/-- **C26 needs its hypothesis**: when the root is its own transitive child, the loop never ends. -/
theorem c26_cycle_diverges (t : List Proc) (root : Nat) (hc : Relation.TransGen (IsChild t) root root)
    (rest : List Nat) (fuel : Nat) : refresh t fuel (root :: rest) = none := by
  have key : ∀ (fuel : Nat) (ps : List Nat), (∃ p ∈ ps, Relation.TransGen (IsChild t) p root) →
      refreshLoop t fuel ps = none := by
    intro fuel
    induction fuel with
    | zero =>
      rintro ps ⟨p, hp, -⟩
      cases ps with
      | nil => cases hp
      | cons x xs => rfl
    | succ fuel ih =>
      rintro ps ⟨p, hp, hpr⟩
      cases ps with
      | nil => cases hp
      | cons x xs =>
        rw [refreshLoop]
        · rw [ih]
          · rfl
          · obtain ⟨c, hpc, hcr⟩ := Relation.TransGen.head'_iff.1 hpr
            refine ⟨c, List.mem_flatMap.2 ⟨p, hp, (mem_childrenOf _ _).2 hpc⟩, ?_⟩
            rcases Relation.ReflTransGen.cases_head hcr with rfl | ⟨d, hcd, hdr⟩
            · exact hc
            · exact Relation.TransGen.head' hcd hdr
        · intro h; cases h
  exact key fuel [root] ⟨root, by simp, hc⟩

/-- Non-vacuity: a shell (10) that started a compiler driver (11), which started two processes; 20 is unrelated. -/
def sampleTable : List Proc := [⟨12, some 11, 100⟩, ⟨20, some 1, 7⟩, ⟨11, some 10, 30⟩, ⟨10, some 1, 5⟩, ⟨13, some 11, 50⟩]

example : refresh sampleTable 6 [10] = some [10, 11, 12, 13] ∧ treeMemory sampleTable [10, 11, 12, 13] = 185 ∧
    (sampleTable.map Proc.pid).Nodup ∧ ¬ Relation.TransGen (IsChild sampleTable) 10 10 := by
  refine ⟨by decide, by decide, by decide, ?_⟩
  intro h
  obtain ⟨b, hb, hc⟩ := Relation.TransGen.tail'_iff.1 h
  have hb1 : b = 1 := by
    obtain ⟨q, hq, h1, h2⟩ := hc
    simp only [sampleTable, List.mem_cons, List.not_mem_nil, or_false] at hq
    rcases hq with rfl | rfl | rfl | rfl | rfl <;> simp_all
  subst hb1
  have key : ∀ x, Relation.ReflTransGen (IsChild sampleTable) 10 x → x ≠ 1 := by
    intro x hx
    cases hx with
    | refl => decide
    | tail _ hch =>
      obtain ⟨q, hq, h1, h2⟩ := hch
      simp only [sampleTable, List.mem_cons, List.not_mem_nil, or_false] at hq
      rcases hq with rfl | rfl | rfl | rfl | rfl <;> simp_all <;> omega
  exact key 1 hb rfl

end Verif.Measure
