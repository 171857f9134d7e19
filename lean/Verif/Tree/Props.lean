import Verif.Tree.Lemmas
import Mathlib.Algebra.Order.Group.Defs
import Mathlib.Algebra.BigOperators.Group.List.Basic
import Mathlib.Algebra.Order.Group.Int
import Mathlib.Tactic.Abel
import Mathlib.Tactic.Linarith

/-!
# Properties C01–C06: the activity tree

All theorems quantify over every sequence `xs` of activities for which loading succeeds
(`load tmin xs = .ok t`), or over every sequence at all.
-/

set_option autoImplicit false
set_option linter.unusedSectionVars false
set_option linter.unusedSimpArgs false

namespace Verif.Tree

variable {T D α : Type} [LinearOrder T] [Zero D] [Add D] [Sub D]

/-! ## Specification vocabulary -/

/-- `c` is listed among the direct children of `i`. -/
def IsChild (t : ATree T D α) (i c : Nat) : Prop := ∃ cs, directChildren t i = some cs ∧ c ∈ cs

/-- `d` is reachable from `i` through one or more `direct_children()` steps. -/
def IsDescendant (t : ATree T D α) : Nat → Nat → Prop := Relation.TransGen (IsChild t)

/-- A sequence of activities is well nested: ends never decrease, and no earlier activity that
starts strictly before a later one is still running when the later one starts. -/
def WellNested (xs : List (Stat T D α)) : Prop :=
  ∀ (i j : Nat) (a c : Stat T D α), i < j → xs[i]? = some a → xs[j]? = some c →
    a.stop ≤ c.stop ∧ ¬ (a.start < c.start ∧ c.start < a.stop)

/-! A small running example: `parse` and `codegen` inside `frontend`, then `backend`. -/

def exXs : List (Stat Int Int String) :=
  [⟨"parse", 2, 5, 3⟩, ⟨"codegen", 5, 9, 4⟩, ⟨"frontend", 1, 10, 9⟩, ⟨"backend", 11, 12, 1⟩]

def exTree : ATree Int Int String where
  acts := [⟨⟨"parse", 2, 5, 3⟩, 3, 0, 0, 0, some 2⟩, ⟨⟨"codegen", 5, 9, 4⟩, 4, 1, 0, 0, some 2⟩,
    ⟨⟨"frontend", 1, 10, 9⟩, 2, 0, 0, 2, none⟩, ⟨⟨"backend", 11, 12, 1⟩, 1, 3, 2, 2, none⟩]
  children := [1, 0, 3, 2]
  firstRoot := 2

theorem exLoad : load 0 exXs = .ok exTree := by
  simp [load, exXs, exTree, insertAll, insert, scan, build, rootScan, empty, nonZero]

/-! ## Internal view of a loaded tree -/

/-- Listed children of node `i`. -/
def chOf (b : Builder T D α) (i : Nat) : List Nat :=
  match b.acts[i]? with
  | none => []
  | some nd => (b.children.take nd.chHi).drop nd.chLo

theorem chOf_some {b : Builder T D α} {i : Nat} {nd : Node T D α} (h : b.acts[i]? = some nd) :
    chOf b i = (b.children.take nd.chHi).drop nd.chLo := by simp [chOf, h]

section view
variable {tmin : T} {b : Builder T D α} {xs : List (Stat T D α)} {roots : List Nat}

theorem BInv.ids_lt (h : BInv tmin b xs roots) : ∀ k ∈ b.children ++ roots, k < b.acts.length :=
  fun k hk => List.mem_range.1 (h.perm.mem_iff.1 hk)

theorem BInv.directChildren (h : BInv tmin b xs roots) {i : Nat} (hi : i < b.acts.length) :
    directChildren (⟨b.acts, b.children ++ roots, b.children.length⟩ : ATree T D α) i =
      some (chOf b i) := by
  obtain ⟨nd, hnd⟩ : ∃ c, b.acts[i]? = some c := ⟨_, List.getElem?_eq_getElem hi⟩
  obtain ⟨h1, h2, h3, h4⟩ := h.node i nd hnd
  rw [chOf_some hnd]
  have hs : slice (b.children ++ roots) nd.chLo nd.chHi =
      some ((b.children.take nd.chHi).drop nd.chLo) := by
    rw [slice, if_pos ⟨h1, by rw [List.length_append]; omega⟩,
      List.take_append_of_le_length h2]
  simp only [Tree.directChildren, hnd, hs, hierarchyIter]
  rw [if_pos]
  rw [List.all_eq_true]
  intro k hk
  have := h3.mem_lt k hk
  simp only [decide_eq_true_eq]
  omega

theorem BInv.rootActivities (h : BInv tmin b xs roots) :
    rootActivities (⟨b.acts, b.children ++ roots, b.children.length⟩ : ATree T D α) =
      some roots := by
  have hs : slice (b.children ++ roots) b.children.length (b.children ++ roots).length =
      some roots := by
    rw [slice, if_pos ⟨by rw [List.length_append]; omega, le_refl _⟩, List.take_length,
      List.drop_left]
  simp only [Tree.rootActivities, hs, hierarchyIter]
  rw [if_pos]
  rw [List.all_eq_true]
  intro k hk
  have := h.ids_lt k (by simp [hk])
  simpa using this

theorem BInv.isChild (h : BInv tmin b xs roots) (i c : Nat) :
    IsChild (⟨b.acts, b.children ++ roots, b.children.length⟩ : ATree T D α) i c ↔
      i < b.acts.length ∧ c ∈ chOf b i := by
  constructor
  · rintro ⟨cs, h1, h2⟩
    by_cases hi : i < b.acts.length
    · rw [h.directChildren hi] at h1
      cases h1
      exact ⟨hi, h2⟩
    · have : b.acts[i]? = none := by simp; omega
      simp [Tree.directChildren, this] at h1
  · rintro ⟨h1, h2⟩
    exact ⟨_, h.directChildren h1, h2⟩

theorem BInv.length (h : BInv tmin b xs roots) : b.acts.length = xs.length := by
  rw [← h.stats]; simp

theorem BInv.stat (h : BInv tmin b xs roots) {i : Nat} {nd : Node T D α}
    (hi : b.acts[i]? = some nd) : xs[i]? = some nd.stat := by
  rw [← h.stats, List.getElem?_map, hi]; rfl

theorem BInv.chFlat (h : BInv tmin b xs roots) :
    (List.range b.acts.length).flatMap (chOf b) = b.children := by
  refine Eq.trans ?_ h.flat
  rw [List.flatMap_def, List.flatMap_def]
  congr 1
  apply List.ext_getElem?
  intro i
  rw [List.getElem?_map, List.getElem?_map]
  by_cases hi : i < b.acts.length
  · rw [List.getElem?_range hi, List.getElem?_eq_getElem hi]
    simp [chOf, hi]
  · have h1 : b.acts[i]? = none := by simp; omega
    have h2 : (List.range b.acts.length)[i]? = none := by simp; omega
    rw [h1, h2]; rfl

theorem BInv.descendant (h : BInv tmin b xs roots) : ∀ (i : Nat) (nd : Node T D α),
    b.acts[i]? = some nd → ∀ j,
    ((nd.first ≤ j ∧ j < i) ↔
      IsDescendant (⟨b.acts, b.children ++ roots, b.children.length⟩ : ATree T D α) i j) := by
  intro i
  induction i using Nat.strong_induction_on with
  | _ i ih =>
    intro nd hnd j
    have hi := (List.getElem?_eq_some_iff.1 hnd).1
    have hch := (h.node i nd hnd).2.2.1
    rw [← chOf_some hnd] at hch
    rw [hch.cover j]
    constructor
    · rintro ⟨k, hk, h1, h2⟩
      have hki := hch.mem_lt k hk
      have hkn : k < b.acts.length := by omega
      have hchild : IsChild (⟨b.acts, b.children ++ roots, b.children.length⟩ : ATree T D α) i k :=
        (h.isChild i k).2 ⟨hi, hk⟩
      have hkg := List.getElem?_eq_getElem hkn
      rcases Nat.lt_or_ge j k with hjk | hjk
      · rw [firstOf_some hkg] at h1
        exact .head hchild ((ih k hki _ hkg j).1 ⟨h1, hjk⟩)
      · have : j = k := by omega
        subst this
        exact .single hchild
    · intro hd
      rcases Relation.TransGen.head'_iff.1 hd with ⟨k, hik, hkj⟩
      have hk := ((h.isChild i k).1 hik).2
      have hki := hch.mem_lt k hk
      have hkn : k < b.acts.length := by omega
      have hkg := List.getElem?_eq_getElem hkn
      have hfk := (hch.mem_ge k hk).1
      refine ⟨k, hk, ?_⟩
      rcases Relation.reflTransGen_iff_eq_or_transGen.1 hkj with rfl | hkj
      · exact ⟨hfk, le_refl _⟩
      · have := (ih k hki _ hkg j).2 hkj
        rw [firstOf_some hkg]
        omega

end view

/-! ## C01 -/

/-- **C01** Activities form a forest: the root list and all the direct children lists together
list every activity exactly once. -/
theorem c01_forest {tmin : T} {xs : List (Stat T D α)} {t : ATree T D α}
    (h : load tmin xs = .ok t) :
    ∃ (roots : List Nat) (ch : Nat → List Nat),
      rootActivities t = some roots ∧
      (∀ i ∈ allActivities t, directChildren t i = some (ch i)) ∧
      (roots ++ (allActivities t).flatMap ch).Perm (allActivities t) := by
  obtain ⟨b, roots, hb, rfl⟩ := load_inv h
  refine ⟨roots, chOf b, hb.rootActivities, ?_, ?_⟩
  · intro i hi
    exact hb.directChildren (List.mem_range.1 hi)
  · show (roots ++ (List.range b.acts.length).flatMap (chOf b)).Perm (List.range b.acts.length)
    rw [hb.chFlat]
    exact List.perm_append_comm.trans hb.perm

/-- **C01** (second half) the tree holds exactly the activities that were inserted, in order. -/
theorem c01_contents {tmin : T} {xs : List (Stat T D α)} {t : ATree T D α}
    (h : load tmin xs = .ok t) :
    allActivities t = List.range xs.length ∧ ∀ i, statOf t i = xs[i]? := by
  obtain ⟨b, roots, hb, rfl⟩ := load_inv h
  refine ⟨by simp [allActivities, hb.length], fun i => ?_⟩
  rw [← hb.stats, List.getElem?_map]
  rfl

/-- **C01** (consequence) each activity is either a root and nobody's child, or not a root and
the child of exactly one activity. -/
theorem c01_root_xor_child {tmin : T} {xs : List (Stat T D α)} {t : ATree T D α}
    (h : load tmin xs = .ok t) {i : Nat} (hi : i < xs.length) :
    ∃ roots, rootActivities t = some roots ∧
      ((i ∈ roots ∧ ∀ p, ¬ IsChild t p i) ∨
       (i ∉ roots ∧ ∃ p, IsChild t p i ∧ ∀ q, IsChild t q i → q = p)) := by
  obtain ⟨b, roots, hb, rfl⟩ := load_inv h
  refine ⟨roots, hb.rootActivities, ?_⟩
  have hnodup : (b.children ++ roots).Nodup := hb.perm.nodup_iff.2 List.nodup_range
  have hin : ∀ p, i ∈ chOf b p → p < b.acts.length → i ∈ b.children := by
    intro p hp hpl
    rw [← hb.chFlat]
    exact List.mem_flatMap.2 ⟨p, List.mem_range.2 hpl, hp⟩
  have hmem : i ∈ b.children ++ roots := by
    rw [hb.perm.mem_iff, List.mem_range, hb.length]; exact hi
  rcases List.mem_append.1 hmem with hc | hr
  · right
    refine ⟨fun hr => (List.nodup_append.1 hnodup).2.2 i hc i hr rfl, ?_⟩
    have hc' := hc
    rw [← hb.chFlat, List.mem_flatMap] at hc'
    obtain ⟨p, hp1, hp2⟩ := hc'
    refine ⟨p, (hb.isChild p i).2 ⟨List.mem_range.1 hp1, hp2⟩, ?_⟩
    intro q hq
    obtain ⟨hq1, hq2⟩ := (hb.isChild q i).1 hq
    have hi' : i < b.acts.length := by rw [hb.length]; exact hi
    have hig := List.getElem?_eq_getElem hi'
    have hpg := List.getElem?_eq_getElem (List.mem_range.1 hp1)
    have hqg := List.getElem?_eq_getElem hq1
    rw [chOf_some hpg] at hp2
    rw [chOf_some hqg] at hq2
    have e1 := (hb.par i _ p hig).2 ⟨_, hpg, hp2⟩
    have e2 := (hb.par i _ q hig).2 ⟨_, hqg, hq2⟩
    rw [e1] at e2
    exact (Option.some.inj e2).symm
  · left
    refine ⟨hr, fun p hp => ?_⟩
    obtain ⟨h1, h2⟩ := (hb.isChild p i).1 hp
    exact (List.nodup_append.1 hnodup).2.2 i (hin p h2 h1) i hr rfl

example : ∃ (roots : List Nat) (ch : Nat → List Nat), rootActivities exTree = some roots ∧
      (∀ i ∈ allActivities exTree, directChildren exTree i = some (ch i)) ∧
      (roots ++ (allActivities exTree).flatMap ch).Perm (allActivities exTree) := c01_forest exLoad
example : rootActivities exTree = some [3, 2] ∧ directChildren exTree 2 = some [1, 0] := by decide

/-! ## C02 -/

/-- **C02** `all_children()` yields, in increasing id order, exactly the activities reachable
through one or more `direct_children()` steps. -/
theorem c02_allChildren_descendants {tmin : T} {xs : List (Stat T D α)} {t : ATree T D α}
    (h : load tmin xs = .ok t) {i : Nat} (hi : i < xs.length) :
    ∃ l, allChildren t i = some l ∧ l.Pairwise (· < ·) ∧ ∀ j, j ∈ l ↔ IsDescendant t i j := by
  obtain ⟨b, roots, hb, rfl⟩ := load_inv h
  have hi' : i < b.acts.length := by rw [hb.length]; exact hi
  have hig := List.getElem?_eq_getElem hi'
  have hfi : (b.acts[i]).first ≤ i := (hb.node i _ hig).2.2.1.le
  have hs : slice b.acts (b.acts[i]).first i = some ((b.acts.take i).drop (b.acts[i]).first) := by
    rw [slice, if_pos ⟨hfi, by omega⟩]
  have hlen : ((b.acts.take i).drop (b.acts[i]).first).length = i - (b.acts[i]).first := by
    simp; omega
  refine ⟨(List.range (i - (b.acts[i]).first)).map (· + (b.acts[i]).first), ?_, ?_, ?_⟩
  · simp only [allChildren, hig, hs, hlen]
  · rw [List.pairwise_map]
    exact List.pairwise_lt_range.imp (by intro a c h; omega)
  · intro j
    rw [← hb.descendant i _ hig j, List.mem_map]
    constructor
    · rintro ⟨a, ha, rfl⟩
      have := List.mem_range.1 ha
      omega
    · rintro ⟨h1, h2⟩
      exact ⟨j - (b.acts[i]).first, List.mem_range.2 (by omega), by omega⟩

/-- **C02** `parent()` never panics and is the inverse of `direct_children()`. -/
theorem c02_parent_inverse {tmin : T} {xs : List (Stat T D α)} {t : ATree T D α}
    (h : load tmin xs = .ok t) {c : Nat} (hc : c < xs.length) :
    ∃ p?, parentOf t c = some p? ∧ ∀ p, p? = some p ↔ IsChild t p c := by
  obtain ⟨b, roots, hb, rfl⟩ := load_inv h
  have hc' : c < b.acts.length := by rw [hb.length]; exact hc
  have hcg := List.getElem?_eq_getElem hc'
  have key : ∀ p, (b.acts[c]).parent = some p ↔
      IsChild (⟨b.acts, b.children ++ roots, b.children.length⟩ : ATree T D α) p c := by
    intro p
    rw [hb.par c _ p hcg, hb.isChild]
    constructor
    · rintro ⟨pn, h1, h2⟩
      exact ⟨(List.getElem?_eq_some_iff.1 h1).1, by rw [chOf_some h1]; exact h2⟩
    · rintro ⟨h1, h2⟩
      have hpg := List.getElem?_eq_getElem h1
      exact ⟨_, hpg, by rw [← chOf_some hpg]; exact h2⟩
  refine ⟨(b.acts[c]).parent, ?_, key⟩
  simp only [parentOf, hcg]
  cases hp : (b.acts[c]).parent with
  | none => rfl
  | some p =>
    have := ((hb.isChild p c).1 ((key p).1 hp)).1
    simp [this]

/-- **C02** the roots are exactly the activities without a parent. -/
theorem c02_roots_no_parent {tmin : T} {xs : List (Stat T D α)} {t : ATree T D α}
    (h : load tmin xs = .ok t) {c : Nat} (hc : c < xs.length) :
    ∃ roots, rootActivities t = some roots ∧ (c ∈ roots ↔ parentOf t c = some none) := by
  obtain ⟨roots, h1, h2⟩ := c01_root_xor_child h hc
  obtain ⟨p?, h3, h4⟩ := c02_parent_inverse h hc
  refine ⟨roots, h1, ?_⟩
  rw [h3]
  rcases h2 with ⟨h5, h6⟩ | ⟨h5, p, h6, _⟩
  · refine ⟨fun _ => ?_, fun _ => h5⟩
    cases p? with
    | none => rfl
    | some p => exact absurd ((h4 p).1 rfl) (h6 p)
  · refine ⟨fun h => absurd h h5, fun h => ?_⟩
    rw [(h4 p).2 h6] at h
    simp at h

example : ∃ l, allChildren exTree 2 = some l ∧ l.Pairwise (· < ·) ∧
    ∀ j, j ∈ l ↔ IsDescendant exTree 2 j := c02_allChildren_descendants exLoad (by decide)
example : allChildren exTree 2 = some [0, 1] ∧ parentOf exTree 1 = some (some 2) ∧
    parentOf exTree 3 = some none := by decide

/-! ## C03 -/

/-- **C03** a direct child's time span lies inside its parent's. -/
theorem c03_nested {tmin : T} {xs : List (Stat T D α)} {t : ATree T D α}
    (h : load tmin xs = .ok t) {p c : Nat} (hpc : IsChild t p c) :
    ∃ ps cs, statOf t p = some ps ∧ statOf t c = some cs ∧
      ps.start ≤ cs.start ∧ cs.stop ≤ ps.stop := by
  obtain ⟨b, roots, hb, rfl⟩ := load_inv h
  obtain ⟨hp, hc⟩ := (hb.isChild p c).1 hpc
  have hpg := List.getElem?_eq_getElem hp
  have hch := (hb.node p _ hpg).2.2.1
  rw [← chOf_some hpg] at hch
  have hcp := hch.mem_lt c hc
  have hcn : c < b.acts.length := by omega
  have hcg := List.getElem?_eq_getElem hcn
  have hf := hch.mem_ge c hc
  have hcx := hb.stat hcg
  have hpx := hb.stat hpg
  refine ⟨(b.acts[p]).stat, (b.acts[c]).stat, by simp [statOf, hpg], by simp [statOf, hcg],
    ?_, ?_⟩
  · exact hb.nest p _ hpg c (by omega) (by omega) _ hcx
  · rw [List.getElem?_eq_some_iff] at hcx hpx
    obtain ⟨hc1, hc2⟩ := hcx
    obtain ⟨hp1, hp2⟩ := hpx
    have := List.pairwise_iff_getElem.1 hb.ends c p hc1 hp1 hcp
    rw [hc2, hp2] at this
    exact this

/-- `l` lists activities from last to first without overlap: whatever is listed later stops no
later than anything listed before it starts. -/
def DisjointBackwards (t : ATree T D α) (l : List Nat) : Prop :=
  l.Pairwise (fun k j => ∀ a c, statOf t k = some a → statOf t j = some c → c.stop ≤ a.start)

/-- **C03** roots never overlap, and siblings never overlap. -/
theorem c03_siblings_disjoint {tmin : T} {xs : List (Stat T D α)} {t : ATree T D α}
    (h : load tmin xs = .ok t) :
    (∀ roots, rootActivities t = some roots → DisjointBackwards t roots) ∧
    (∀ i cs, directChildren t i = some cs → DisjointBackwards t cs) := by
  have hst := (c01_contents h).2
  obtain ⟨b, roots, hb, rfl⟩ := load_inv h
  constructor
  · intro r hr
    rw [hb.rootActivities] at hr
    cases hr
    refine hb.rootSib.imp ?_
    intro k j hkj a c ha hc
    rw [hst] at ha hc
    exact hkj a c ha hc
  · intro i cs hcs
    have hi : i < b.acts.length := by
      by_contra hi
      have : b.acts[i]? = none := by simp; omega
      simp [directChildren, this] at hcs
    rw [hb.directChildren hi] at hcs
    cases hcs
    have hig := List.getElem?_eq_getElem hi
    rw [chOf_some hig]
    refine (hb.sib i _ hig).imp ?_
    intro k j hkj a c ha hc
    rw [hst] at ha hc
    exact hkj a c ha hc

example : IsChild exTree 2 1 := ⟨[1, 0], by decide, by decide⟩
example : DisjointBackwards exTree [1, 0] :=
  (c03_siblings_disjoint exLoad).2 2 [1, 0] (by decide)

/-! ## C04 -/

/-- **C04** Loading succeeds iff the sequence is well nested (and no activity ends before the
smallest timestamp, which no JSON trace can express: lib.rs:285 only inserts `ts > 1.0`). -/
theorem c04_accept_iff (tmin : T) (xs : List (Stat T D α)) (hmin : ∀ a ∈ xs, tmin ≤ a.stop) :
    (∃ t, load tmin xs = .ok t) ↔ WellNested xs := by
  have toPair : ∀ ys : List (Stat T D α), WellNested ys ↔
      ys.Pairwise (fun a c => a.stop ≤ c.stop ∧ ¬ (a.start < c.start ∧ c.start < a.stop)) := by
    intro ys
    rw [List.pairwise_iff_getElem]
    constructor
    · intro h i j hi hj hij
      exact h i j _ _ hij (List.getElem?_eq_getElem hi) (List.getElem?_eq_getElem hj)
    · intro h i j a c hij ha hc
      rw [List.getElem?_eq_some_iff] at ha hc
      obtain ⟨ha1, rfl⟩ := ha
      obtain ⟨hc1, rfl⟩ := hc
      exact h i j ha1 hc1 hij
  rw [toPair]
  constructor
  · rintro ⟨t, ht⟩
    obtain ⟨b, roots, hb, -⟩ := load_inv ht
    exact List.pairwise_and_iff.2 ⟨hb.ends, hb.noOverlap⟩
  · intro hw
    rcases insertAll_spec xs (BInv.nil (T := T) (D := D) (α := α) tmin) with
      ⟨b', r', h5, h6⟩ | ⟨pre, x, post, h5, b'', r'', h6, h7, h8⟩
    · exact ⟨_, by rw [load, h5]; exact build_spec h6⟩
    · exfalso
      rw [h5, List.pairwise_append] at hw
      have hx : ∀ a ∈ pre, a.stop ≤ x.stop ∧ ¬ (a.start < x.start ∧ x.start < a.stop) :=
        fun a ha => hw.2.2 a ha x (by simp)
      rcases h8 with ⟨h9, -⟩ | ⟨-, k, a, h9, h10, h11, -⟩
      · rw [h7.lastIs, List.nil_append] at h9
        cases hl : pre.getLast? with
        | none =>
          rw [hl] at h9
          exact absurd (hmin x (by rw [h5]; simp)) (not_le.2 h9)
        | some a =>
          rw [hl] at h9
          exact absurd (hx a (List.mem_of_getLast? hl)).1 (not_le.2 h9)
      · rw [List.nil_append] at h9
        exact (hx a (List.mem_of_getElem? h9)).2 ⟨h10, h11⟩

/-- **C04** the reported error is determined by the first activity `x` that does not fit after
the accepted prefix `pre`: an order error naming the preceding end time if `x` ends before it,
otherwise an overlap error naming the last earlier activity that starts before `x` does. -/
theorem c04_error (tmin : T) (pre post : List (Stat T D α)) (x : Stat T D α)
    (hpre : ∃ t, load tmin pre = .ok t) :
    let prevEnd := ((pre.getLast?).map (·.stop)).getD tmin
    (x.stop < prevEnd → load tmin (pre ++ x :: post) = .error (.order prevEnd x.stop)) ∧
    (prevEnd ≤ x.stop → (∃ a ∈ pre, a.start < x.start ∧ x.start < a.stop) →
      ∃ (k : Nat) (a : Stat T D α), pre[k]? = some a ∧ a.start < x.start ∧ x.start < a.stop ∧
        (∀ (j : Nat) (c : Stat T D α), k < j → pre[j]? = some c → x.start ≤ c.start) ∧
        load tmin (pre ++ x :: post) = .error (.overlap a x)) := by
  intro prevEnd
  obtain ⟨t, ht⟩ := hpre
  have happ : ∀ (ys zs : List (Stat T D α)) (b b' : Builder T D α), insertAll b ys = .ok b' →
      insertAll b (ys ++ zs) = insertAll b' zs := by
    intro ys
    induction ys with
    | nil => intro zs b b' h; cases h; rfl
    | cons y ys ih =>
      intro zs b b' h
      simp only [insertAll, List.cons_append] at h ⊢
      cases hy : insert b y with
      | error e => rw [hy] at h; simp at h
      | ok b1 => rw [hy] at h; exact ih zs b1 b' h
  rcases insertAll_spec pre (BInv.nil (T := T) (D := D) (α := α) tmin) with
    ⟨b', r', h5, h6⟩ | ⟨pr, y, po, h5, b'', r'', h6, h7, h8⟩
  swap
  · exfalso
    rcases h8 with ⟨_, h8⟩ | ⟨_, k, a, _, _, _, _, h8⟩ <;> simp [load, h8] at ht
  rw [List.nil_append] at h6
  have hl : b'.lastEnd = prevEnd := h6.lastIs
  have hload : ∀ e, insert b' x = .error e → load tmin (pre ++ x :: post) = .error e := by
    intro e he
    simp [load, happ pre (x :: post) _ _ h5, insertAll, he]
  constructor
  · intro h
    rcases insert_spec h6 x with ⟨h1, h2⟩ | ⟨h1, -⟩ | ⟨h1, -⟩
    · rw [hload _ h2, hl]
    · rw [hl] at h1; exact absurd h (not_lt.2 h1)
    · rw [hl] at h1; exact absurd h (not_lt.2 h1)
  · rintro h ⟨a, ha, ha1, ha2⟩
    rcases insert_spec h6 x with ⟨h1, h2⟩ | ⟨h1, k, a, h2, h3, h4, h5, h6⟩ | ⟨h1, h2, -⟩
    · rw [hl] at h1; exact absurd h1 (not_lt.2 h)
    · exact ⟨k, a, h2, h3, h4, h5, hload _ h6⟩
    · exact absurd ⟨ha1, ha2⟩ (h2 a ha)

example : WellNested exXs :=
  (c04_accept_iff 0 exXs (by decide)).1 ⟨_, exLoad⟩
example : load 0 (exXs ++ ⟨"late", 3, 4, 1⟩ :: []) = .error (.order 12 4) :=
  (c04_error 0 exXs [] ⟨"late", 3, 4, 1⟩ ⟨_, exLoad⟩).1 (by decide)

/-! ## C05 -/

/-- **C05** `self_duration` is the duration minus the durations of the direct children, summed
in listing order starting from zero; this holds for any arithmetic, floating point included. -/
theorem c05_self_duration {tmin : T} {xs : List (Stat T D α)} {t : ATree T D α}
    (h : load tmin xs = .ok t) {i : Nat} (hi : i < xs.length) :
    ∃ s cs, statOf t i = some s ∧ directChildren t i = some cs ∧
      selfDuration t i = some (s.dur -
        cs.foldl (fun d c => d + ((statOf t c).map (·.dur)).getD 0) 0) := by
  have hst := (c01_contents h).2
  obtain ⟨b, roots, hb, rfl⟩ := load_inv h
  have hi' : i < b.acts.length := by rw [hb.length]; exact hi
  have hig := List.getElem?_eq_getElem hi'
  refine ⟨(b.acts[i]).stat, _, by simp [statOf, hig], hb.directChildren hi', ?_⟩
  simp only [selfDuration, hig, Option.map_some, Option.some.injEq]
  rw [(hb.node i _ hig).2.2.2, chOf_some hig]
  simp only [hst]
  rfl

section exact
variable {G : Type} [AddCommGroup G] [LinearOrder G] [IsOrderedAddMonoid G]

/-- Exact arithmetic total of a quantity over a list of activity ids. -/
def total (f : Nat → Option G) (l : List Nat) : G := (l.map (fun i => (f i).getD 0)).sum

/-- Duration of an activity. -/
def duration (t : ATree G G α) (i : Nat) : Option G := (statOf t i).map (·.dur)

theorem foldl_sum (f : Nat → G) : ∀ (l : List Nat) (d : G),
    l.foldl (fun d k => d + f k) d = d + (l.map f).sum := by
  intro l
  induction l with
  | nil => simp
  | cons k l ih => intro d; simp [ih, add_assoc]

theorem chain_sum {F : Nat → Nat} (g : Nat → G) (dur : Nat → G) {hi lo : Nat} {l : List Nat}
    (h : Chain F hi lo l)
    (hsub : ∀ k ∈ l, ((List.range' (F k) (k - F k)).map g).sum + g k = dur k) :
    ((List.range' lo (hi - lo)).map g).sum = (l.map dur).sum := by
  induction h with
  | nil => simp
  | cons k lo l h1 h2 ih =>
    have hle := h2.le
    have e : List.range' lo (k + 1 - lo) =
        List.range' lo (F k - lo) ++ (List.range' (F k) (k - F k) ++ [k]) := by
      have e1 : List.range' (F k) (k - F k) ++ [k] = List.range' (F k) (k - F k + 1) := by
        rw [List.range'_concat]
        congr 2
        omega
      rw [e1]
      have e2 : F k = lo + (F k - lo) := by omega
      conv_rhs => rw [e2]
      have e3 : lo + (F k - lo) - lo = F k - lo := by omega
      rw [e3, List.range'_append_1]
      congr 1
      omega
    rw [e, List.map_append, List.sum_append, List.map_append, List.sum_append,
      ih (fun j hj => hsub j (by simp [hj]))]
    simp only [List.map_cons, List.map_nil, List.sum_cons, List.sum_nil, add_zero]
    rw [hsub k (by simp)]
    abel

theorem subtree_sum {tmin : G} {b : Builder G G α} {xs : List (Stat G G α)} {roots : List Nat}
    (h : BInv tmin b xs roots) : ∀ (i : Nat) (nd : Node G G α), b.acts[i]? = some nd →
    ((List.range' nd.first (i - nd.first)).map
      (fun j => ((b.acts[j]?).map (·.selfDur)).getD 0)).sum + nd.selfDur = nd.stat.dur := by
  intro i
  induction i using Nat.strong_induction_on with
  | _ i ih =>
    intro nd hnd
    have hi := (List.getElem?_eq_some_iff.1 hnd).1
    obtain ⟨-, -, hch, hself⟩ := h.node i nd hnd
    rw [chain_sum _ (durOf xs) hch ?_, hself, foldl_sum]
    · abel
    · intro k hk
      have hki := hch.mem_lt k hk
      have hkn : k < b.acts.length := by omega
      have hkg := List.getElem?_eq_getElem hkn
      have := ih k hki _ hkg
      rw [firstOf_some hkg]
      simp only [hkg, Option.map_some, Option.getD_some]
      rw [this, durOf, h.stat hkg]
      rfl

/-- **C05** with exact arithmetic, the self-durations of an activity and of all its descendants
sum to its duration. -/
theorem c05_subtree_sum {tmin : G} {xs : List (Stat G G α)} {t : ATree G G α}
    (h : load tmin xs = .ok t) {i : Nat} (hi : i < xs.length) :
    ∃ l, allChildren t i = some l ∧
      duration t i = some (total (selfDuration t) (i :: l)) := by
  obtain ⟨b, roots, hb, rfl⟩ := load_inv h
  have hi' : i < b.acts.length := by rw [hb.length]; exact hi
  have hig := List.getElem?_eq_getElem hi'
  have hfi : (b.acts[i]).first ≤ i := (hb.node i _ hig).2.2.1.le
  have hs : slice b.acts (b.acts[i]).first i = some ((b.acts.take i).drop (b.acts[i]).first) := by
    rw [slice, if_pos ⟨hfi, by omega⟩]
  have hlen : ((b.acts.take i).drop (b.acts[i]).first).length = i - (b.acts[i]).first := by
    simp; omega
  refine ⟨List.range' (b.acts[i]).first (i - (b.acts[i]).first), ?_, ?_⟩
  · simp only [allChildren, hig, hs, hlen, List.range'_eq_map_range]
    congr 1
    apply List.map_congr_left
    intro a _
    omega
  · have := subtree_sum hb i _ hig
    simp only [duration, statOf, hig, Option.map_some, total, selfDuration, List.map_cons,
      List.sum_cons, Option.getD_some]
    rw [← this]
    congr 1
    abel

/-- **C05** with exact arithmetic, root durations sum to the total of all self-durations. -/
theorem c05_root_sum {tmin : G} {xs : List (Stat G G α)} {t : ATree G G α}
    (h : load tmin xs = .ok t) :
    ∃ roots, rootActivities t = some roots ∧
      total (duration t) roots = total (selfDuration t) (allActivities t) := by
  obtain ⟨b, roots, hb, rfl⟩ := load_inv h
  refine ⟨roots, hb.rootActivities, ?_⟩
  have hc := chain_sum (fun j => ((b.acts[j]?).map (·.selfDur)).getD 0) (durOf xs) hb.rootChain ?_
  · rw [Nat.sub_zero, ← List.range_eq_range'] at hc
    simp only [total, allActivities, selfDuration]
    rw [hc]
    congr 1
    apply List.map_congr_left
    intro k hk
    have hkn := hb.rootChain.mem_lt k hk
    have hkg := List.getElem?_eq_getElem hkn
    simp only [duration, statOf, hkg, durOf, hb.stat hkg]
    rfl
  · intro k hk
    have hkn := hb.rootChain.mem_lt k hk
    have hkg := List.getElem?_eq_getElem hkn
    have := subtree_sum hb k _ hkg
    rw [firstOf_some hkg]
    simp only [hkg, Option.map_some, Option.getD_some]
    rw [this, durOf, hb.stat hkg]
    rfl

/-- **C05** with exact arithmetic, when `end = start + duration` (activity/mod.rs:56) and
durations are not negative, self-durations are never negative. -/
theorem c05_self_nonneg {tmin : G} {xs : List (Stat G G α)} {t : ATree G G α}
    (h : load tmin xs = .ok t)
    (hend : ∀ a ∈ xs, a.stop = a.start + a.dur) (hpos : ∀ a ∈ xs, 0 ≤ a.dur)
    {i : Nat} (hi : i < xs.length) : ∃ d, selfDuration t i = some d ∧ 0 ≤ d := by
  obtain ⟨b, roots, hb, rfl⟩ := load_inv h
  have hi' : i < b.acts.length := by rw [hb.length]; exact hi
  have hig := List.getElem?_eq_getElem hi'
  obtain ⟨-, -, hch, hself⟩ := hb.node i _ hig
  have hsib := hb.sib i _ hig
  have hnest := hb.nest i _ hig
  refine ⟨_, by simp [selfDuration, hig]; rfl, ?_⟩
  rw [hself, foldl_sum, zero_add, sub_nonneg]
  set nd := b.acts[i] with hnd
  have hx := hb.stat hig
  have hmem := List.mem_of_getElem? hx
  -- generalized telescoping bound
  have key : ∀ l : List Nat, (∀ k ∈ l, nd.first ≤ k ∧ k < i) →
      l.Pairwise (fun k j => ∀ a c : Stat G G α, xs[k]? = some a → xs[j]? = some c →
        c.stop ≤ a.start) → ∀ e : G, nd.stat.start ≤ e →
      (∀ k ∈ l, ∀ c, xs[k]? = some c → c.stop ≤ e) →
      (l.map (durOf xs)).sum ≤ e - nd.stat.start := by
    intro l
    induction l with
    | nil => intro _ _ e he _; simpa using he
    | cons k l ih =>
      intro hl hp e he hle
      obtain ⟨hk1, hk2⟩ := hl k (by simp)
      have hkn : k < b.acts.length := by omega
      have hkx := hb.stat (List.getElem?_eq_getElem hkn)
      set a := (b.acts[k]).stat with ha
      have hst : nd.stat.start ≤ a.start := hnest k hk1 (by omega) a hkx
      rw [List.pairwise_cons] at hp
      have := ih (fun j hj => hl j (by simp [hj])) hp.2 a.start hst
        (fun j hj c hc => hp.1 j hj a c hkx hc)
      have hae := hle k (by simp) a hkx
      have hd : durOf xs k = a.dur := by simp [durOf, hkx]
      have hee := hend a (List.mem_of_getElem? hkx)
      rw [List.map_cons, List.sum_cons, hd]
      have e1 : a.dur = a.stop - a.start := by rw [hee]; abel
      rw [e1]
      calc a.stop - a.start + (l.map (durOf xs)).sum
          ≤ a.stop - a.start + (a.start - nd.stat.start) := by gcongr
        _ = a.stop - nd.stat.start := by abel
        _ ≤ e - nd.stat.start := by gcongr
  have hse := hend _ hmem
  have hres := key _ (fun k hk => ⟨by have := hch.mem_ge k hk; omega, hch.mem_lt k hk⟩) hsib
    nd.stat.stop (by rw [hse]; exact le_add_of_nonneg_right (hpos _ hmem)) ?_
  · rw [hse] at hres
    have e2 : nd.stat.start + nd.stat.dur - nd.stat.start = nd.stat.dur := by abel
    rw [e2] at hres
    exact hres
  · intro k hk c hc
    have hki := hch.mem_lt k hk
    have hx' := hx
    rw [List.getElem?_eq_some_iff] at hx' hc
    obtain ⟨hc1, hc2⟩ := hc
    obtain ⟨hp1, hp2⟩ := hx'
    have := List.pairwise_iff_getElem.1 hb.ends k i hc1 hp1 hki
    rw [hc2, hp2] at this
    exact this

end exact

example : ∃ l, allChildren exTree 2 = some l ∧
    duration exTree 2 = some (total (selfDuration exTree) (2 :: l)) :=
  c05_subtree_sum exLoad (by decide)
example : ∃ d, selfDuration exTree 2 = some d ∧ 0 ≤ d :=
  c05_self_nonneg exLoad (by decide) (by decide) (by decide)

/-! ## C06 -/

/-- **C06** loading never panics: no slicing is out of range, the final assertion holds. -/
theorem c06_no_panic (tmin : T) (xs : List (Stat T D α)) : load tmin xs ≠ .error .panic := by
  rcases insertAll_spec xs (BInv.nil (T := T) (D := D) (α := α) tmin) with
    ⟨b', r', h5, h6⟩ | ⟨pre, x, post, h5, b'', r'', h6, h7, h8⟩
  · rw [load, h5]; simp only; rw [build_spec h6]; simp
  · rcases h8 with ⟨_, h8⟩ | ⟨_, k, a, _, _, _, _, h8⟩ <;> simp [load, h8]

/-- **C06** no accessor panics on a loaded tree, for any valid id. -/
theorem c06_accessors_no_panic {tmin : T} {xs : List (Stat T D α)} {t : ATree T D α}
    (h : load tmin xs = .ok t) :
    rootActivities t ≠ none ∧ ∀ i < xs.length, directChildren t i ≠ none ∧
      allChildren t i ≠ none ∧ parentOf t i ≠ none ∧ statOf t i ≠ none ∧
      selfDuration t i ≠ none := by
  obtain ⟨roots, ch, h1, h2, -⟩ := c01_forest h
  obtain ⟨h3, h4⟩ := c01_contents h
  refine ⟨by rw [h1]; simp, fun i hi => ?_⟩
  obtain ⟨l, h5, -⟩ := c02_allChildren_descendants h hi
  obtain ⟨p, h6, -⟩ := c02_parent_inverse h hi
  obtain ⟨s, cs, h7, -, h8⟩ := c05_self_duration h hi
  refine ⟨by rw [h2 i (by rw [h3]; exact List.mem_range.2 hi)]; simp, by rw [h5]; simp,
    by rw [h6]; simp, by rw [h7]; simp, by rw [h8]; simp⟩

example : load 0 exXs ≠ .error .panic := c06_no_panic 0 exXs

end Verif.Tree
