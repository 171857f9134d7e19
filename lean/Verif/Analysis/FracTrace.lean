/-
C93: the profile by activity type of a trace with fractional times.
-/
import Verif.Analysis.WholeTrace
import Verif.Tree.FracTimes

set_option autoImplicit false
set_option linter.unusedVariables false
set_option linter.unusedSimpArgs false
set_option linter.unusedSectionVars false

namespace Verif.Analysis.WholeTrace

open Verif.Tree (F64 Stat ATree statOf selfDuration directChildren allChildren rootActivities allActivities exactDur floatSelf total Timed)
open Verif.Trace Verif.Trace.Ctf Verif.Trace.Ctf.Text

/-- Specification: the exact self-duration of an activity, its duration minus those of its direct children. -/
def exactSelf {α : Type} (t : ATree F64 F64 α) (i : Nat) : ℚ := durVal t i - (((directChildren t i).getD []).map (durVal t)).sum

variable {α : Type}

theorem durVal_eq (t : ATree F64 F64 α) (i : Nat) : durVal t i = exactDur t i := by
  rw [durVal, exactDur]; cases statOf t i <;> rfl

theorem selfVal_eq (t : ATree F64 F64 α) (i : Nat) : selfVal t i = floatSelf t i := by
  rw [selfVal, floatSelf]; cases selfDuration t i <;> rfl

/-! ### Sums over some of the activities -/

theorem sub_sum {f : Nat → ℚ} {L M : List Nat} (h : L.Sublist M) (hf : ∀ i ∈ M, 0 ≤ f i) : (L.map f).sum ≤ (M.map f).sum := by
  induction h with
  | slnil => exact le_refl _
  | cons a _ ih =>
    have := ih fun i hi => hf i (by simp [hi])
    have := hf a (by simp)
    rw [List.map_cons, List.sum_cons]; linarith
  | cons_cons a _ ih =>
    have := ih fun i hi => hf i (by simp [hi])
    rw [List.map_cons, List.sum_cons, List.map_cons, List.sum_cons]; linarith

theorem sum_add_map (f g : Nat → ℚ) (l : List Nat) : (l.map fun i => f i + g i).sum = (l.map f).sum + (l.map g).sum := by
  induction l with
  | nil => simp
  | cons a l ih => simp only [List.map_cons, List.sum_cons, ih]; ring

theorem sum_mul_map (f : Nat → ℚ) (c : ℚ) (l : List Nat) : (l.map fun i => f i * c).sum = (l.map f).sum * c := by
  induction l with
  | nil => simp
  | cons a l ih => simp only [List.map_cons, List.sum_cons, ih]; ring

theorem sum_two_sub (f : Nat → ℚ) (l : List Nat) : (l.map fun i => 2 - f i).sum = 2 * l.length - (l.map f).sum := by
  induction l with
  | nil => simp
  | cons a l ih => simp only [List.map_cons, List.sum_cons, List.length_cons, ih]; push_cast; ring

/-- Rounded sums of few numbers of any sign. -/
theorem fold_signed {rnd : ℚ → ℚ} {ε B : ℚ} (hε : 0 < ε) (err : ∀ x : ℚ, |x| < B → |rnd x - x| ≤ ε) : ∀ (l : List ℚ) (m : ℕ) (a acc : ℚ),
    |acc - a| ≤ m * ε → (∀ p, p <+: l → |a + p.sum| + (m + l.length) * ε < B) →
    |l.foldl (fun s d => rnd (s + d)) acc - (a + l.sum)| ≤ (m + l.length) * ε := by
  intro l
  induction l with
  | nil => intro m a acc h _; simpa using h
  | cons d l ih =>
    intro m a acc h hp
    have h1 := hp [d] ⟨l, rfl⟩
    simp only [List.sum_singleton, List.length_cons] at h1
    push_cast at h1
    have hl : (0 : ℚ) ≤ l.length * ε := by positivity
    have h2 : |acc + d| < B := by
      have h3 : acc + d = (a + d) + (acc - a) := by ring
      rw [h3]
      have := abs_add_le (a + d) (acc - a)
      nlinarith
    have h4 := err _ h2
    have h5 := ih (m + 1) (a + d) (rnd (acc + d)) (by
      have h3 : rnd (acc + d) - (a + d) = (rnd (acc + d) - (acc + d)) + (acc - a) := by ring
      rw [h3]
      have := abs_add_le (rnd (acc + d) - (acc + d)) (acc - a)
      push_cast; linarith) (by
      intro p hpl
      have := hp (d :: p) ((List.cons_prefix_cons).2 ⟨rfl, hpl⟩)
      rw [List.sum_cons, List.length_cons] at this
      push_cast at this ⊢
      have e : a + d + p.sum = a + (d + p.sum) := by ring
      rw [e]
      nlinarith)
    rw [List.foldl_cons, List.sum_cons, List.length_cons]
    have e : a + (d + l.sum) = a + d + l.sum := by ring
    rw [e]
    refine h5.trans (le_of_eq ?_)
    push_cast; ring

section main
variable {tmin : F64} {xs : List (Stat F64 F64 α)} {t : ATree F64 F64 α}

/-- Root activities hardly last longer than the trace. -/
theorem roots_dur {k : ℤ} (hk : -1022 < k) (hx : ∀ a ∈ xs, Timed a) (hb : ∀ a ∈ xs, a.stop.val < 2 ^ k) (h : Tree.load tmin xs = .ok t)
    {roots : List Nat} (hr : rootActivities t = some roots) :
    (roots.map (durVal t)).sum ≤ 2 ^ (53 : ℕ) * 2 ^ (k - 53) + roots.length * (2 ^ (k - 53) / 2) ∧ roots.length ≤ xs.length := by
  obtain ⟨t', h', -, -, hro⟩ := Tree.same_shape (fun s => s.stop.val - s.start.val) h
  obtain ⟨roots', ch, h1, -, h3⟩ := Tree.c01_forest h
  rw [hr, Option.some.injEq] at h1
  subst h1
  have hlen : roots.length ≤ xs.length := by
    have := h3.length_eq
    rw [List.length_append, (Tree.c01_contents h).1, List.length_range] at this
    omega
  have hin : ∀ i ∈ roots, i < xs.length := by
    intro i hi
    have := h3.mem_iff.1 (List.mem_append_left _ hi)
    rwa [(Tree.c01_contents h).1, List.mem_range] at this
  have hst : ∀ j, statOf t' j = (xs[j]?).map (Stat.weigh fun s => s.stop.val - s.start.val) := by
    intro j; rw [(Tree.c01_contents h').2, List.getElem?_map]
  have hsum := FloatBreakdown.sum_le_stop t' roots (fun i hi => by
      have hi' := hin i hi
      have hm := List.getElem_mem hi'
      have h0 := Tree.stop_err hk (hx _ hm) (hb _ hm)
      refine ⟨_, by rw [hst, List.getElem?_eq_getElem hi']; rfl, (hx _ hm).1, ?_, ?_⟩
      · simp only [Stat.weigh]; ring
      · simp only [Stat.weigh]; linarith [h0.2.1])
    ((Tree.c03_siblings_disjoint h').1 roots (hro ▸ hr)) (2 ^ k) (Binary64.pow_pos2 k).le (fun i hi s hs => by
      rw [hst] at hs
      cases ha : xs[i]? with
      | none => rw [ha] at hs; cases hs
      | some a =>
        rw [ha] at hs
        cases hs
        exact (hb a (List.mem_of_getElem? ha)).le)
  rw [Tree.pow_k] at hsum
  refine ⟨?_, hlen⟩
  have hnear : ∀ l : List Nat, (∀ i ∈ l, i < xs.length) → (l.map (durVal t)).sum ≤ total (Tree.duration t') l + l.length * (2 ^ (k - 53) / 2) := by
    intro l
    induction l with
    | nil => intro _; simp [total]
    | cons i l ih =>
      intro hl
      have h4 := ih fun j hj => hl j (by simp [hj])
      have hi' := hl i (by simp)
      have hm := List.getElem_mem hi'
      have h0 := (abs_le.1 (Tree.stop_err hk (hx _ hm) (hb _ hm)).1).1
      have e1 : durVal t i = (xs[i]).dur.val := by
        rw [durVal, (Tree.c01_contents h).2, List.getElem?_eq_getElem hi']; rfl
      have e2 : (Tree.duration t' i).getD 0 = (xs[i]).stop.val - (xs[i]).start.val := by
        rw [Tree.duration, hst, List.getElem?_eq_getElem hi']; rfl
      simp only [total, List.map_cons, List.sum_cons, List.length_cons, e1, e2] at h4 ⊢
      push_cast
      linarith
  have := hnear roots hin
  linarith

theorem roots_nonneg (hx : ∀ a ∈ xs, Timed a) (h : Tree.load tmin xs = .ok t) (l : List Nat) : 0 ≤ (l.map (durVal t)).sum := by
  apply List.sum_nonneg
  intro x hx'
  obtain ⟨c, hc, rfl⟩ := List.mem_map.1 hx'
  simp only [durVal, (Tree.c01_contents h).2]
  cases hxi : xs[c]? with
  | none => exact le_refl (0 : ℚ)
  | some a => exact (hx a (List.mem_of_getElem? hxi)).2.2.1

theorem sums_arith {ε n rl r w A A' x y : ℚ} (hε : 0 < ε) (hN : n ≤ 2 ^ (50 : ℕ)) (hN0 : 0 ≤ n)
    (hR : r ≤ 2 ^ (53 : ℕ) * ε + rl * (ε / 2)) (hRl : rl ≤ n) (hw : 0 ≤ w) (h5 : |y - x| ≤ A * ε) (h6 : A ≤ A')
    (h7 : x + A * (ε / 2) ≤ r + A' * (ε / 2)) (h8 : 0 ≤ x + A * (ε / 2)) (h9 : 0 ≤ A) (h10 : A' = 2 * n - w) (hr0 : 0 ≤ r) :
    |y - x| ≤ 2 * n * ε ∧ |y| + n * ε < 2 ^ (54 : ℕ) * ε ∧ |x| ≤ r + n * ε := by
  have e1 : A * ε ≤ A' * ε := mul_le_mul_of_nonneg_right h6 hε.le
  have e2 : A' * ε = 2 * (n * ε) - w * ε := by rw [h10]; ring
  have e3 : 0 ≤ w * ε := mul_nonneg hw hε.le
  have e4 : n * ε ≤ 2 ^ (50 : ℕ) * ε := mul_le_mul_of_nonneg_right hN hε.le
  have e5 : rl * ε ≤ n * ε := mul_le_mul_of_nonneg_right hRl hε.le
  have e6 : 0 ≤ A * ε := mul_nonneg h9 hε.le
  norm_num at e4 hR ⊢
  have h5' := abs_le.1 h5
  refine ⟨by linarith, ?_, ?_⟩
  · have : |y| < 18014398509481984 * ε - n * ε := by
      rw [abs_lt]; constructor <;> linarith
    linarith
  · rw [abs_le]; constructor <;> linarith

/-- The sums of self-durations, exact and computed, over some of the activities. -/
theorem sums {k : ℤ} (hk : -1022 < k) (hx : ∀ a ∈ xs, Timed a) (hb : ∀ a ∈ xs, a.stop.val < 2 ^ k) (h : Tree.load tmin xs = .ok t)
    (hlen : xs.length ≤ 2 ^ 50) {L : List Nat} (hL : L.Sublist (List.range xs.length)) :
    |(L.map (selfVal t)).sum - (L.map (exactSelf t)).sum| ≤ 2 * xs.length * 2 ^ (k - 53) ∧
      |(L.map (selfVal t)).sum| + xs.length * 2 ^ (k - 53) < 2 ^ (54 : ℕ) * 2 ^ (k - 53) ∧
      ∀ roots, rootActivities t = some roots → |(L.map (exactSelf t)).sum| ≤ (roots.map (durVal t)).sum + xs.length * 2 ^ (k - 53) := by
  obtain ⟨t', t1, h', h1, -, -, hro, hro1, hdur, hone, hch, key⟩ := Tree.sum_error hk hx hb h hlen
  have hε := Binary64.pow_pos2 (k - 53)
  have hroot : ∀ roots, rootActivities t = some roots → _ := fun roots hr => roots_dur hk hx hb h (roots := roots) hr
  have hcd : ∀ j, j < xs.length → ∀ cs, directChildren t j = some cs → _ := fun j hj cs hc => Tree.children_dur hk hx hb h (i := j) hj (cs := cs) hc
  generalize (2 : ℚ) ^ (k - 53) = ε at *
  have hin : ∀ j ∈ L, j < xs.length := fun j hj => List.mem_range.1 (hL.subset hj)
  have hE : ∀ j, j < xs.length → (selfDuration t' j).getD 0 = exactSelf t j := by
    intro j hj
    obtain ⟨cs, h2, -, h3, -⟩ := hch j hj
    rw [h3, exactSelf, h2, Option.getD_some, durVal_eq]
    congr 2
    exact List.map_congr_left fun c _ => (durVal_eq t c).symm
  have hlow : ∀ j, j < xs.length → 0 ≤ exactSelf t j + (2 - (selfDuration t1 j).getD 0) * (ε / 2) := by
    intro j hj
    obtain ⟨cs, h2, -, h3, h4⟩ := hch j hj
    have := hcd j hj cs h2
    rw [← hE j hj, h3, h4]
    nlinarith
  have hW : ∀ j, j < xs.length → 0 ≤ 2 - (selfDuration t1 j).getD 0 := by
    intro j hj
    obtain ⟨cs, -, -, -, h4⟩ := hch j hj
    rw [h4]
    have : (0 : ℚ) ≤ cs.length := by positivity
    linarith
  have ha' : allActivities t' = List.range xs.length := by rw [(Tree.c01_contents h').1, List.length_map]
  have ha1 : allActivities t1 = List.range xs.length := by rw [(Tree.c01_contents h1).1, List.length_map]
  -- all activities
  obtain ⟨roots, hr, hs⟩ := Tree.c05_root_sum h'
  obtain ⟨roots1, hr1, hs1⟩ := Tree.c05_root_sum h1
  rw [← hro] at hr
  rw [← hro1, hr, Option.some.injEq] at hr1
  subst hr1
  obtain ⟨hR, hRl⟩ := hroot roots hr
  have hRl' : (roots.length : ℚ) ≤ xs.length := by exact_mod_cast hRl
  have hr0 : 0 ≤ (roots.map (durVal t)).sum := roots_nonneg hx h roots
  rw [hr]
  have hEall : ((List.range xs.length).map (exactSelf t)).sum = (roots.map (durVal t)).sum := by
    rw [ha'] at hs
    have e1 : total (selfDuration t') (List.range xs.length) = ((List.range xs.length).map (exactSelf t)).sum := by
      simp only [total]
      congr 1
      exact List.map_congr_left fun j hj => hE j (List.mem_range.1 hj)
    have e2 : total (Tree.duration t') roots = (roots.map (durVal t)).sum := by
      simp only [total]
      congr 1
      exact List.map_congr_left fun j _ => (hdur j).trans (durVal_eq t j).symm
    rw [← e1, ← hs, e2]
  have hWall : 0 ≤ ((List.range xs.length).map fun j => (selfDuration t1 j).getD 0).sum := by
    rw [ha1] at hs1
    have : total (selfDuration t1) (List.range xs.length) = ((List.range xs.length).map fun j => (selfDuration t1 j).getD 0).sum := rfl
    rw [← this, ← hs1]
    simp only [total]
    apply List.sum_nonneg
    intro x hx'
    obtain ⟨c, hc, rfl⟩ := List.mem_map.1 hx'
    simp only [Tree.duration, (Tree.c01_contents h1).2, List.getElem?_map]
    cases xs[c]? with
    | none => exact le_refl (0 : ℚ)
    | some a => exact zero_le_one
  have hk1 : total (selfDuration t1) L = (L.map fun j => (selfDuration t1 j).getD 0).sum := rfl
  have hk2 : total (selfDuration t') L = (L.map (exactSelf t)).sum := by
    simp only [total]
    congr 1
    exact List.map_congr_left fun j hj => hE j (hin j hj)
  have hk3 : (L.map (floatSelf t)).sum = (L.map (selfVal t)).sum := by
    congr 1
    exact List.map_congr_left fun j _ => (selfVal_eq t j).symm
  have h5 := key L hin
  rw [hk1, hk2, hk3] at h5
  have h6 := sub_sum hL (f := fun j => 2 - (selfDuration t1 j).getD 0) fun j hj => hW j (List.mem_range.1 hj)
  have h7 := sub_sum hL (f := fun j => exactSelf t j + (2 - (selfDuration t1 j).getD 0) * (ε / 2)) fun j hj => hlow j (List.mem_range.1 hj)
  have h8 : 0 ≤ (L.map fun j => exactSelf t j + (2 - (selfDuration t1 j).getD 0) * (ε / 2)).sum := by
    apply List.sum_nonneg
    intro x hx'
    obtain ⟨c, hc, rfl⟩ := List.mem_map.1 hx'
    exact hlow c (hin c hc)
  have h9 : 0 ≤ (L.map fun j => 2 - (selfDuration t1 j).getD 0).sum := by
    apply List.sum_nonneg
    intro x hx'
    obtain ⟨c, hc, rfl⟩ := List.mem_map.1 hx'
    exact hW c (hin c hc)
  rw [sum_add_map, sum_add_map, sum_mul_map, sum_mul_map, hEall] at h7
  rw [sum_add_map, sum_mul_map] at h8
  rw [← sum_two_sub] at h5
  have h10 := sum_two_sub (fun j => (selfDuration t1 j).getD 0) (List.range xs.length)
  rw [List.length_range] at h10
  generalize (L.map fun j => 2 - (selfDuration t1 j).getD 0).sum = A at *
  generalize ((List.range xs.length).map fun j => 2 - (selfDuration t1 j).getD 0).sum = A' at *
  generalize (L.map (exactSelf t)).sum = x at *
  generalize (L.map (selfVal t)).sum = y at *
  generalize hre : (roots.map (durVal t)).sum = r at *
  generalize ((List.range xs.length).map fun j => (selfDuration t1 j).getD 0).sum = w at *
  have hN : (xs.length : ℚ) ≤ 2 ^ (50 : ℕ) := by exact_mod_cast hlen
  generalize (roots.length : ℚ) = rl at *
  have hN0 : (0 : ℚ) ≤ xs.length := by positivity
  generalize (xs.length : ℚ) = n at *
  obtain ⟨q1, q2, q3⟩ := sums_arith hε hN hN0 hR hRl' hWall h5 h6 h7 h8 h9 h10 hr0
  refine ⟨q1, q2, ?_⟩
  rintro _ ⟨rfl⟩
  rw [hre]
  exact q3

end main

section breakdown
variable {ν : Type} [DecidableEq ν]

theorem fold_num (rnd : ℚ → ℚ) (l : List ℚ) (a : ℚ) :
    (l.map Fl.num).foldl (FloatBreakdown.addR rnd) (.num a) = .num (l.foldl (fun s d => rnd (s + d)) a) := by
  induction l generalizing a with
  | nil => rfl
  | cons d l ih => rw [List.map_cons, List.foldl_cons, List.foldl_cons]; exact ih _

/-- What the program computes for a type. -/
theorem type_total (name : Activity → ν) (t : ATree F64 F64 Activity) (hs : ∀ i ∈ allActivities t, (statOf t i).isSome ∧ (selfDuration t i).isSome)
    (n : ν) : typeTotal (FloatBreakdown.addR Binary64.rnd) (.num 0) (programActs name t) n =
      .num (((ofType name t n).map (selfVal t)).foldl (fun s d => Binary64.rnd (s + d)) 0) := by
  rw [← fold_num]
  have key : ((programActs name t).filter fun a => a.1 = n).map (·.2) = ((ofType name t n).map (selfVal t)).map Fl.num := by
    simp only [programActs, treeActs, ofType]
    generalize allActivities t = l at hs
    induction l with
    | nil => rfl
    | cons i l ih =>
      have ih := ih fun j hj => hs j (by simp [hj])
      obtain ⟨h1, h2⟩ := hs i (by simp)
      obtain ⟨s, h1⟩ := Option.isSome_iff_exists.1 h1
      obtain ⟨d, h2⟩ := Option.isSome_iff_exists.1 h2
      by_cases hn : name s.act = n
      · simp [h1, h2, hn, selfVal] at ih ⊢
        exact ih
      · simp [h1, h2, hn, selfVal] at ih ⊢
        exact ih
  rw [typeTotal, key]

/-- A rounded sum over some of the activities. -/
theorem fold_err_of {k : ℤ} (hk : -1022 < k) {n : ℕ} (l : List ℚ) (hl : l.length ≤ n)
    (hp : ∀ p, p <+: l → |p.sum| + n * 2 ^ (k - 53) < 2 ^ (54 : ℕ) * 2 ^ (k - 53)) :
    |l.foldl (fun s d => Binary64.rnd (s + d)) 0 - l.sum| ≤ n * 2 ^ (k - 53) := by
  have hε := Binary64.pow_pos2 (k - 53)
  have hn : (l.length : ℚ) ≤ n := by exact_mod_cast hl
  have := fold_signed hε (fun x => Tree.err_large (k := k) hk (x := x)) l 0 0 0 (by simp) (fun p hpl => by
    have := hp p hpl
    have := mul_le_mul_of_nonneg_right hn hε.le
    push_cast
    rw [zero_add, zero_add]
    linarith)
  have h2 := mul_le_mul_of_nonneg_right hn hε.le
  push_cast at this
  rw [zero_add, zero_add] at this
  exact this.trans h2

/-- **C93.** The profile by activity type, computed with rounded additions of rounded self-durations: it does not panic, the number on
each line is the exact sum of the exact self-durations of the activities of the type up to `3 N 2^(k-53)`, and the total that shares
are computed from is the exact sum of the durations of the root activities up to `N 2^(k-53)`, for a trace of `N` activities that
ends before `2^k`. -/
theorem c93_breakdown {k : ℤ} (hk : -1022 < k) {tmin : F64} {xs : List (Stat F64 F64 Activity)} {t : ATree F64 F64 Activity}
    (hx : ∀ a ∈ xs, Timed a) (hb : ∀ a ∈ xs, a.stop.val < 2 ^ k) (h : Tree.load tmin xs = .ok t) (hlen : xs.length ≤ 2 ^ 50)
    (name : Activity → ν) (o : Out (List (ν × Fl ℚ)))
    (ho : BreakdownOut (FloatBreakdown.addR Binary64.rnd) (.num 0) (programActs name t) o) :
    ∃ out roots, o = .ok out ∧ rootActivities t = some roots ∧
      (∀ e ∈ out, ∃ d, e.2 = .num d ∧ |d - ((ofType name t e.1).map (exactSelf t)).sum| ≤ 3 * xs.length * 2 ^ (k - 53)) ∧
      |FloatBreakdown.rootDuration Binary64.rnd (roots.map (durVal t)) - (roots.map (durVal t)).sum| ≤ xs.length * 2 ^ (k - 53) := by
  have hall := (Tree.c01_contents h).1
  have hs : ∀ i ∈ allActivities t, (statOf t i).isSome ∧ (selfDuration t i).isSome := by
    intro i hi
    rw [hall, List.mem_range] at hi
    obtain ⟨s, d, h1, h2, -⟩ := Tree.c93_self_le_duration hx h hi
    rw [h1, h2]; simp
  obtain ⟨out, rfl, -, -, h3, -⟩ := breakdown_spec _ _ _ (fun n _ => by rw [type_total name t hs]; exact nofun) o ho
  obtain ⟨roots, ch, h1, -, h4⟩ := Tree.c01_forest h
  obtain ⟨hR, hRl⟩ := roots_dur hk hx hb h h1
  have hε := Binary64.pow_pos2 (k - 53)
  refine ⟨out, roots, rfl, h1, fun e he => ?_, ?_⟩
  · refine ⟨_, (h3 e he).trans (type_total name t hs e.1), ?_⟩
    have hsub : (ofType name t e.1).Sublist (List.range xs.length) := by
      rw [← hall]; exact List.filter_sublist
    have hll : (ofType name t e.1).length ≤ xs.length := by
      have := hsub.length_le
      rwa [List.length_range] at this
    have e1 := fold_err_of (k := k) hk ((ofType name t e.1).map (selfVal t)) (n := xs.length) (by rwa [List.length_map]) (by
      intro p hp
      obtain ⟨l', hl', rfl⟩ := List.prefix_map_iff.1 hp
      exact (sums hk hx hb h hlen (hl'.sublist.trans hsub)).2.1)
    have e2 := (sums hk hx hb h hlen hsub).1
    have e3 := abs_le.1 e1
    have e4 := abs_le.1 e2
    rw [abs_le]
    constructor <;> linarith
  · refine fold_err_of (k := k) hk (roots.map (durVal t)) (n := xs.length) (by rwa [List.length_map]) ?_
    intro p hp
    obtain ⟨l', hl', rfl⟩ := List.prefix_map_iff.1 hp
    have hd : ∀ i ∈ roots, 0 ≤ durVal t i := by
      intro i _
      simp only [durVal, (Tree.c01_contents h).2]
      cases hxi : xs[i]? with
      | none => exact le_refl (0 : ℚ)
      | some a => exact (hx a (List.mem_of_getElem? hxi)).2.2.1
    have e1 := sub_sum hl'.sublist hd
    have e2 : 0 ≤ (l'.map (durVal t)).sum := by
      apply List.sum_nonneg
      intro x hx'
      obtain ⟨c, hc, rfl⟩ := List.mem_map.1 hx'
      exact hd c (hl'.sublist.subset hc)
    rw [abs_of_nonneg e2]
    have hN : (xs.length : ℚ) ≤ 2 ^ (50 : ℕ) := by exact_mod_cast hlen
    have hRl' : (roots.length : ℚ) ≤ xs.length := by exact_mod_cast hRl
    have e5 := mul_le_mul_of_nonneg_right hN hε.le
    have e6 := mul_le_mul_of_nonneg_right hRl' hε.le
    generalize (2 : ℚ) ^ (k - 53) = ε at *
    norm_num at e5 hR ⊢
    linarith

/-! ### Percentages -/

/-- A printed percentage of a number that may be slightly negative, or above the total. -/
theorem percent_near {S d : ℚ} (h : Share.Sane S) (hd : |d| ≤ 2 * S) :
    |(Share.hundredths (Share.percent S d) : ℚ) / 100 - 100 * (d / S)| ≤ 1 / 200 + 1 / 2 ^ 43 := by
  have hS := h.pos
  have hq : |d / S| ≤ 2 := by rw [abs_div, abs_of_pos hS, div_le_iff₀ hS]; exact hd
  have h1 : |d * Share.durationNorm S - d / S| ≤ 2 / 2 ^ (53 : ℕ) := by
    have e : d * Share.durationNorm S - d / S = d * (Binary64.rnd (1 / S) - 1 / S) := by
      rw [Share.durationNorm]; ring
    rw [e, abs_mul]
    have := Share.norm_err h (le_refl (1 : ℚ))
    have h2 : |d| * |Binary64.rnd (1 / S) - 1 / S| ≤ (2 * S) * (1 / S / 2 ^ (53 : ℕ)) :=
      mul_le_mul hd this (abs_nonneg _) (by positivity)
    refine h2.trans (le_of_eq ?_)
    field_simp
  have hq' := abs_le.1 hq
  have h1' := abs_le.1 h1
  have h2 : |Share.share S d - d * Share.durationNorm S| ≤ 1 / 2 ^ (51 : ℕ) := by
    have := Tree.rnd_err_abs (x := d * Share.durationNorm S) (k := 2) (by
      rw [abs_lt]; norm_num at h1' ⊢
      constructor <;> linarith) (by norm_num)
    refine this.trans (by norm_num)
  have h2' := abs_le.1 h2
  have h3 : |Share.percent S d - Share.share S d * 100| ≤ 1 / 2 ^ (46 : ℕ) := by
    have := Tree.rnd_err_abs (x := Share.share S d * 100) (k := 8) (by
      rw [abs_lt]; norm_num at h1' h2' ⊢
      constructor <;> linarith) (by norm_num)
    refine this.trans (by norm_num)
  have h3' := abs_le.1 h3
  have h4 := abs_le.1 (Binary64.rne_err (Share.percent S d * 100))
  rw [show Binary64.rne (Share.percent S d * 100) = Share.hundredths (Share.percent S d) from rfl] at h4
  norm_num at h1' h2' h3' h4 ⊢
  rw [abs_le]; constructor <;> linarith

/-- The same in the terminal interface. -/
theorem percent_tui_near {S d : ℚ} (h : Share.Sane S) (hd : |d| ≤ 2 * S) :
    |(Share.hundredths (Share.percentTui S d) : ℚ) / 100 - 100 * (d / S)| ≤ 1 / 200 + 1 / 2 ^ 43 := by
  have hS := h.pos
  have hq : |d / S| ≤ 2 := by rw [abs_div, abs_of_pos hS, div_le_iff₀ hS]; exact hd
  have h1 : |d * Share.percentNorm S - 100 * (d / S)| ≤ 200 / 2 ^ (53 : ℕ) := by
    have e : d * Share.percentNorm S - 100 * (d / S) = d * (Binary64.rnd (100 / S) - 100 / S) := by
      rw [Share.percentNorm]; ring
    rw [e, abs_mul]
    have := Share.norm_err h (k := 100) (by norm_num)
    have h2 : |d| * |Binary64.rnd (100 / S) - 100 / S| ≤ (2 * S) * (100 / S / 2 ^ (53 : ℕ)) :=
      mul_le_mul hd this (abs_nonneg _) (by positivity)
    refine h2.trans (le_of_eq ?_)
    field_simp
    norm_num
  have hq' := abs_le.1 hq
  have h1' := abs_le.1 h1
  have h3 : |Share.percentTui S d - d * Share.percentNorm S| ≤ 1 / 2 ^ (46 : ℕ) := by
    have := Tree.rnd_err_abs (x := d * Share.percentNorm S) (k := 8) (by
      rw [abs_lt]; norm_num at h1' ⊢
      constructor <;> linarith) (by norm_num)
    refine this.trans (by norm_num)
  have h3' := abs_le.1 h3
  have h4 := abs_le.1 (Binary64.rne_err (Share.percentTui S d * 100))
  rw [show Binary64.rne (Share.percentTui S d * 100) = Share.hundredths (Share.percentTui S d) from rfl] at h4
  norm_num at h1' h3' h4 ⊢
  rw [abs_le]; constructor <;> linarith

theorem ratio_near {T T' d x δ : ℚ} (hT : 0 < T) (hδ0 : 0 ≤ δ) (hδ : 1024 * δ ≤ T) (h1 : |T' - T| ≤ δ) (h2 : |d - x| ≤ 3 * δ) (h3 : |x| ≤ T + δ) :
    T ≤ 2 * T' ∧ T' ≤ 2 * T ∧ |d| ≤ 2 * T' ∧ |d / T' - x / T| ≤ 5 * δ / T := by
  have h1' := abs_le.1 h1
  have h2' := abs_le.1 h2
  have h3' := abs_le.1 h3
  have hT' : 0 < T' := by linarith
  refine ⟨by linarith, by linarith, by rw [abs_le]; constructor <;> linarith, ?_⟩
  have e : d / T' - x / T = ((d - x) * T - x * (T' - T)) / (T' * T) := by
    field_simp; ring
  rw [e, abs_div, abs_of_pos (mul_pos hT' hT), div_le_iff₀ (mul_pos hT' hT)]
  have h4 : |(d - x) * T - x * (T' - T)| ≤ 3 * δ * T + (T + δ) * δ := by
    have a1 := abs_sub ((d - x) * T) (x * (T' - T))
    rw [abs_mul, abs_mul, abs_of_pos hT] at a1
    have a2 := mul_le_mul_of_nonneg_right h2 hT.le
    have a3 : |x| * |T' - T| ≤ (T + δ) * δ := mul_le_mul h3 h1 (abs_nonneg _) (by linarith)
    linarith
  have h5 : 5 * δ / T * (T' * T) = 5 * δ * T' := by field_simp
  rw [h5]
  nlinarith

/-- **C93.** Each line's percentage, as printed with two digits by either interface, is within half a hundredth, `2^-43` and a relative error of
`500 N 2^(k-53)` of the exact share, if the trace is long enough for this to be small. -/
theorem c93_percent {k : ℤ} (hk : -1022 < k) {tmin : F64} {xs : List (Stat F64 F64 Activity)} {t : ATree F64 F64 Activity}
    (hx : ∀ a ∈ xs, Timed a) (hb : ∀ a ∈ xs, a.stop.val < 2 ^ k) (h : Tree.load tmin xs = .ok t) (hlen : xs.length ≤ 2 ^ 50)
    {roots : List Nat} (hr : rootActivities t = some roots)
    (hlong : 2 ^ (-900 : ℤ) ≤ (roots.map (durVal t)).sum ∧ (roots.map (durVal t)).sum ≤ 2 ^ (900 : ℤ))
    (hmany : 1024 * (xs.length * 2 ^ (k - 53)) ≤ (roots.map (durVal t)).sum)
    (name : Activity → ν) (out : List (ν × Fl ℚ))
    (ho : BreakdownOut (FloatBreakdown.addR Binary64.rnd) (.num 0) (programActs name t) (.ok out)) :
    ∀ e ∈ out, ∃ d, e.2 = .num d ∧
      ∀ p, p = Share.hundredths (Share.percent (FloatBreakdown.rootDuration Binary64.rnd (roots.map (durVal t))) d) ∨
          p = Share.hundredths (Share.percentTui (FloatBreakdown.rootDuration Binary64.rnd (roots.map (durVal t))) d) →
      |(p : ℚ) / 100 - 100 * (((ofType name t e.1).map (exactSelf t)).sum / (roots.map (durVal t)).sum)|
        ≤ 1 / 200 + 1 / 2 ^ 43 + 500 * (xs.length * 2 ^ (k - 53)) / (roots.map (durVal t)).sum := by
  obtain ⟨out', roots', ho', hr', h1, h2⟩ := c93_breakdown hk hx hb h hlen name _ ho
  cases ho'
  rw [hr] at hr'
  cases hr'
  intro e he
  obtain ⟨d, hd, h3⟩ := h1 e he
  have hsub : (ofType name t e.1).Sublist (List.range xs.length) := by
    rw [← (Tree.c01_contents h).1]; exact List.filter_sublist
  have h4 := (sums hk hx hb h hlen hsub).2.2 roots hr
  refine ⟨d, hd, ?_⟩
  have hε := Binary64.pow_pos2 (k - 53)
  have hδ0 : (0 : ℚ) ≤ xs.length * 2 ^ (k - 53) := by positivity
  rw [mul_assoc] at h3
  generalize (xs.length : ℚ) * 2 ^ (k - 53) = δ at *
  generalize (roots.map (durVal t)).sum = T at *
  generalize ((ofType name t e.1).map (exactSelf t)).sum = x at *
  generalize FloatBreakdown.rootDuration Binary64.rnd (roots.map (durVal t)) = T' at *
  have hT : 0 < T := lt_of_lt_of_le (Binary64.pow_pos2 _) hlong.1
  obtain ⟨a1, a2, a3, a4⟩ := ratio_near hT hδ0 hmany h2 h3 h4
  have hsane : Share.Sane T' := by
    have p1 : (2 : ℚ) * 2 ^ (-1000 : ℤ) ≤ 2 ^ (-900 : ℤ) := by
      rw [← zpow_one_add₀ (by norm_num)]; exact zpow_le_zpow_right₀ (by norm_num) (by norm_num)
    have p2 : (2 : ℚ) * 2 ^ (900 : ℤ) ≤ 2 ^ (1000 : ℤ) := by
      rw [← zpow_one_add₀ (by norm_num)]; exact zpow_le_zpow_right₀ (by norm_num) (by norm_num)
    obtain ⟨l1, l2⟩ := hlong
    generalize (2 : ℚ) ^ (-900 : ℤ) = c1 at *
    generalize (2 : ℚ) ^ (900 : ℤ) = c2 at *
    rw [Share.Sane]
    generalize (2 : ℚ) ^ (-1000 : ℤ) = c3 at *
    generalize (2 : ℚ) ^ (1000 : ℤ) = c4 at *
    constructor <;> linarith
  have h6 := abs_le.1 a4
  have e5 : 500 * δ / T = 100 * (5 * δ / T) := by ring
  intro p hp
  have h5 : |(p : ℚ) / 100 - 100 * (d / T')| ≤ 1 / 200 + 1 / 2 ^ 43 := by
    rcases hp with rfl | rfl
    · exact percent_near hsane a3
    · exact percent_tui_near hsane a3
  have h5 := abs_le.1 h5
  rw [e5, abs_le]
  constructor <;> linarith [h5.1, h5.2, h6.1, h6.2]

end breakdown

/-! ### Example -/

/-- Two activities that last a tenth of a microsecond inside one that lasts one. -/
def fracActs : List (Stat F64 F64 Activity) := Tree.fracXs.map fun a =>
  { act := ⟨a.act, true, .nothing, none⟩, start := a.start, stop := a.stop, dur := a.dur }

theorem fracActs_loads : ∃ t, Tree.load ⟨-1⟩ fracActs = .ok t ∧ rootActivities t = some [2] := by
  have h : (match Tree.load ⟨-1⟩ fracActs with | .ok t => rootActivities t == some [2] | .error _ => false) = true := by decide +kernel
  split at h
  · next t ht => exact ⟨t, ht, by simpa using h⟩
  · simp at h

/-- Its profile by name is within `9 * 2^(-52)` µs of the exact one. -/
example : ∃ t out, Tree.load ⟨-1⟩ fracActs = .ok t ∧
    BreakdownOut (FloatBreakdown.addR Binary64.rnd) (.num 0) (programActs (fun a => a.name) t) (.ok out) ∧
    (∀ e ∈ out, ∃ d, e.2 = .num d ∧ |d - ((ofType (fun a => a.name) t e.1).map (exactSelf t)).sum| ≤ 3 * (3 : ℕ) * 2 ^ ((1 : ℤ) - 53)) ∧
    ∃ roots, rootActivities t = some roots ∧ (roots.map (durVal t)).sum = 1 ∧
    ∀ e ∈ out, ∃ d, e.2 = .num d ∧
      |(Share.hundredths (Share.percent (FloatBreakdown.rootDuration Binary64.rnd (roots.map (durVal t))) d) : ℚ) / 100 -
        100 * (((ofType (fun a => a.name) t e.1).map (exactSelf t)).sum / 1)| ≤
        1 / 200 + 1 / 2 ^ 43 + 500 * ((3 : ℕ) * 2 ^ ((1 : ℤ) - 53)) / 1 := by
  obtain ⟨t, h, hr⟩ := fracActs_loads
  have hx : ∀ a ∈ fracActs, Timed a := by
    intro a ha
    obtain ⟨b, hb, rfl⟩ := List.mem_map.1 ha
    exact Tree.fracXs_timed b hb
  have hb : ∀ a ∈ fracActs, a.stop.val < 2 ^ (1 : ℤ) := by
    have : ∀ a ∈ fracActs, a.stop.val < 2 := by decide +kernel
    intro a ha
    have := this a ha
    norm_num at this ⊢
    exact this
  obtain ⟨o, ho⟩ := breakdown_exists (FloatBreakdown.addR Binary64.rnd) (.num 0) (programActs (fun a : Activity => a.name) t)
  obtain ⟨out, roots, rfl, -, h1, -⟩ := c93_breakdown (k := 1) (by norm_num) hx hb h (by decide) _ _ ho
  have hs : (([2] : List Nat).map (durVal t)).sum = 1 := by
    simp only [List.map_cons, List.map_nil, durVal, (Tree.c01_contents h).2]
    decide +kernel
  have h2 := c93_percent (k := 1) (by norm_num) hx hb h (by decide) hr (by
    rw [hs, ← zpow_zero (2 : ℚ)]
    exact ⟨zpow_le_zpow_right₀ (by norm_num) (by norm_num), zpow_le_zpow_right₀ (by norm_num) (by norm_num)⟩) (by
    rw [hs]; simp only [fracActs, Tree.fracXs, List.length_map, List.length_cons, List.length_nil]; norm_num) _ _ ho
  rw [hs] at h2
  exact ⟨t, out, h, ho, h1, [2], hr, hs, fun e he => (h2 e he).imp fun d hd => ⟨hd.1, hd.2 _ (.inl rfl)⟩⟩



end Verif.Analysis.WholeTrace
