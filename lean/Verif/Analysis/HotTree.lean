/-
C88: which activities the reports show, in the arithmetic of the program: the hierarchical report shows every activity
whose share of the total reaches the threshold (no hot activity hides below a cold one), the flat report the same for
self-durations, and rounding only matters within 2^-44 of the threshold.
-/
import Verif.Analysis.WholeTrace
import Verif.Analysis.Report

set_option autoImplicit false
set_option linter.unusedVariables false
set_option linter.unusedSimpArgs false
set_option linter.unusedSectionVars false

namespace Verif.Analysis.HotTree

open Verif.Tree (F64 Stat ATree statOf selfDuration directChildren allChildren rootActivities allActivities IsChild)
open Verif.Trace Verif.Trace.Ctf Verif.Analysis.WholeTrace Verif.Display

/-! ### Model and specification -/

/-- Total duration that the program computes (src/trace.rs 8-11). -/
def totalOf {α : Type} (t : ATree F64 F64 α) (roots : List Nat) : ℚ :=
  FloatBreakdown.rootDuration Binary64.rnd (roots.map (durVal t))

/-- src/ui/stdio.rs 207: `a.duration() * duration_norm`. -/
def hierMetric {α : Type} (t : ATree F64 F64 α) (roots : List Nat) (i : Nat) : Fl F64 :=
  .num ⟨Share.share (totalOf t roots) (durVal t i)⟩

/-- src/ui/stdio.rs 104: `a.self_duration() * duration_norm`. -/
def flatMetric {α : Type} (t : ATree F64 F64 α) (roots : List Nat) (i : Nat) : Fl F64 :=
  .num ⟨Share.share (totalOf t roots) (selfVal t i)⟩

/-- Activity `i` is `k` levels below activity `r`. -/
inductive Below {α : Type} (t : ATree F64 F64 α) : Nat → Nat → Nat → Prop
  | refl (r : Nat) : Below t r 0 r
  | step {r c k i : Nat} : IsChild t r c → Below t c k i → Below t r (k + 1) i

/-! ### Proofs -/

section
variable {cc : CharClass} {tmin : F64} {j : Json F64} {tr : ClangTrace F64}

theorem child_mem (h : load cc tmin F64.ofInt j = some (.ok tr)) (hw : WholeMicroseconds j) {i c : Nat}
    (hi : i ∈ allActivities tr.tree) (hc : IsChild tr.tree i c) : c ∈ allActivities tr.tree := by
  obtain ⟨stats, hl, -⟩ := whole_stats h hw
  obtain ⟨roots, ch, hr, hch, hp⟩ := Tree.c01_forest hl
  obtain ⟨cs, e, hm⟩ := hc
  rw [hch i hi] at e
  cases e
  exact hp.mem_iff.1 (List.mem_append_right _ (List.mem_flatMap.2 ⟨i, hi, hm⟩))

theorem self_nonneg (h : load cc tmin F64.ofInt j = some (.ok tr)) (hw : WholeMicroseconds j) {i : Nat}
    (hi : i ∈ allActivities tr.tree) : 0 ≤ selfVal tr.tree i := by
  obtain ⟨-, -, -, -, h1, -⟩ := c87_self h hw i hi
  exact h1

theorem inside_mem (h : load cc tmin F64.ofInt j = some (.ok tr)) (hw : WholeMicroseconds j) {i : Nat} {l : List Nat}
    (hi : i ∈ allActivities tr.tree) (hl : allChildren tr.tree i = some l) :
    (i :: l).Nodup ∧ ∀ k ∈ i :: l, k ∈ allActivities tr.tree := by
  have hin : ∀ k, k ∈ allActivities tr.tree ↔ k < tr.tree.acts.length := fun k => by simp [allActivities]
  have key : l.Nodup ∧ ∀ k ∈ l, k < i := by
    unfold allChildren at hl
    split at hl
    · simp at hl
    · next nd hnd =>
      split at hl
      · simp at hl
      · next l' hl' =>
        cases hl
        have hlen : l'.length = i - nd.first ∧ nd.first ≤ i := by
          unfold Tree.slice at hl'
          split at hl'
          · next hb => cases hl'; constructor
                       · simp; omega
                       · omega
          · simp at hl'
        refine ⟨List.nodup_range.map fun a b hab => by simpa using hab, fun k hk => ?_⟩
        obtain ⟨r, hr, rfl⟩ := List.mem_map.1 hk
        rw [List.mem_range] at hr
        omega
  refine ⟨List.nodup_cons.2 ⟨fun hc => absurd (key.2 i hc) (by omega), key.1⟩, fun k hk => ?_⟩
  rcases List.mem_cons.1 hk with rfl | hk
  · exact hi
  · rw [hin] at hi ⊢
    exact (key.2 k hk).trans hi

theorem dur_nonneg (h : load cc tmin F64.ofInt j = some (.ok tr)) (hw : WholeMicroseconds j) {i : Nat}
    (hi : i ∈ allActivities tr.tree) : 0 ≤ durVal tr.tree i := by
  obtain ⟨cs, l, -, h2, -, -, h3⟩ := c87_self h hw i hi
  rw [h3]
  refine List.sum_nonneg fun x hx => ?_
  obtain ⟨k, hk, rfl⟩ := List.mem_map.1 hx
  exact self_nonneg h hw ((inside_mem h hw hi h2).2 k hk)

/-- A part does not last longer than the whole. -/
theorem child_le (h : load cc tmin F64.ofInt j = some (.ok tr)) (hw : WholeMicroseconds j) {i c : Nat}
    (hi : i ∈ allActivities tr.tree) (hc : IsChild tr.tree i c) : durVal tr.tree c ≤ durVal tr.tree i := by
  obtain ⟨cs, l, h1, -, h2, h3, -⟩ := c87_self h hw i hi
  have hmem : ∀ k ∈ cs, k ∈ allActivities tr.tree := fun k hk => child_mem h hw hi ⟨cs, h1, hk⟩
  obtain ⟨cs', e, hm⟩ := hc
  rw [h1] at e
  cases e
  have h4 : durVal tr.tree c ≤ (cs.map (durVal tr.tree)).sum := by
    refine List.single_le_sum (fun x hx => ?_) _ (List.mem_map_of_mem hm)
    obtain ⟨k, hk, rfl⟩ := List.mem_map.1 hx
    exact dur_nonneg h hw (hmem k hk)
  linarith

/-- The total is at least 1 and at most 2^53, unless all roots last 0. -/
theorem total_sane (h : load cc tmin F64.ofInt j = some (.ok tr)) (hw : WholeMicroseconds j) {roots : List Nat}
    (hr : rootActivities tr.tree = some roots) (hpos : totalOf tr.tree roots ≠ 0) :
    totalOf tr.tree roots = (roots.map (durVal tr.tree)).sum ∧ 1 ≤ totalOf tr.tree roots ∧ Share.Sane (totalOf tr.tree roots) := by
  obtain ⟨roots', hr', h1, -⟩ := c87_total h hw
  rw [hr] at hr'
  cases hr'
  obtain ⟨stats, hl, hwh⟩ := whole_stats h hw
  obtain ⟨roots', hr', hn, hle, -⟩ :=
    FloatBreakdown.facts Binary64.rnd_roundsWell _ (Tree.whole_fl hwh) (Tree.load_fl hl)
  rw [fl_roots, hr] at hr'
  cases hr'
  have hnat : ∀ ids : List Nat, (∀ i ∈ ids, ∃ n : ℕ, durVal tr.tree i = n) → ∃ n : ℕ, (ids.map (durVal tr.tree)).sum = n := by
    intro ids
    induction ids with
    | nil => intro _; exact ⟨0, by simp⟩
    | cons i ids ih =>
      intro hi
      obtain ⟨n, hn⟩ := hi i (by simp)
      obtain ⟨m, hm⟩ := ih fun j hj => hi j (by simp [hj])
      exact ⟨n + m, by rw [List.map_cons, List.sum_cons, hn, hm]; push_cast; rfl⟩
  obtain ⟨N, hN⟩ := hnat roots (by
    intro i hi
    obtain ⟨n, hn⟩ := hn i hi
    exact ⟨n, by rw [← fl_durVal, hn]; rfl⟩)
  have hle' : (roots.map (durVal tr.tree)).sum ≤ 2 ^ 53 := by
    rw [show (roots.map (durVal tr.tree)).sum = Tree.total (Tree.duration ((tr.tree.mapTD F64.val F64.fl).mapDur Tree.Fl.val)) roots from ?_]
    · exact hle
    · simp only [Tree.total]
      congr 1
      refine List.map_congr_left fun i _ => ?_
      rw [← fl_durVal, Tree.duration, FloatBreakdown.stat_map]
      cases statOf (tr.tree.mapTD F64.val F64.fl) i <;> rfl
  have e : totalOf tr.tree roots = (roots.map (durVal tr.tree)).sum := h1
  have hN1 : 1 ≤ N := by
    rcases Nat.eq_zero_or_pos N with rfl | h
    · exact absurd (by rw [e, hN]; simp) hpos
    · exact h
  have hS1 : 1 ≤ totalOf tr.tree roots := by rw [e, hN]; exact_mod_cast hN1
  refine ⟨e, hS1, ?_⟩
  have a1 : (2 : ℚ) ^ (-1000 : ℤ) ≤ 2 ^ (0 : ℤ) := zpow_le_zpow_right₀ (by norm_num) (by norm_num)
  have a2 : (2 : ℚ) ^ (53 : ℤ) ≤ 2 ^ (1000 : ℤ) := zpow_le_zpow_right₀ (by norm_num) (by norm_num)
  rw [zpow_zero] at a1
  exact ⟨a1.trans hS1, le_trans (by rw [e]; exact_mod_cast hle') a2⟩

/-- An activity does not last longer than the trace. -/
theorem dur_le_total (h : load cc tmin F64.ofInt j = some (.ok tr)) (hw : WholeMicroseconds j) {roots : List Nat}
    (hr : rootActivities tr.tree = some roots) {i : Nat} (hi : i ∈ allActivities tr.tree) :
    selfVal tr.tree i ≤ durVal tr.tree i ∧ durVal tr.tree i ≤ totalOf tr.tree roots := by
  obtain ⟨roots', hr', h1, h2⟩ := c87_total h hw
  rw [hr] at hr'
  cases hr'
  obtain ⟨cs, l, -, h3, -, -, h4⟩ := c87_self h hw i hi
  obtain ⟨hn, hm⟩ := inside_mem h hw hi h3
  have hs : ∀ k ∈ allActivities tr.tree, 0 ≤ selfVal tr.tree k := fun k hk => self_nonneg h hw hk
  constructor
  · rw [h4, List.map_cons, List.sum_cons]
    have : 0 ≤ (l.map (selfVal tr.tree)).sum := by
      refine List.sum_nonneg fun x hx => ?_
      obtain ⟨k, hk, rfl⟩ := List.mem_map.1 hx
      exact hs k (hm k (by simp [hk]))
    linarith
  · rw [totalOf, h1, h2, h4]
    have hall : (allActivities tr.tree).Nodup := by simp only [allActivities]; exact List.nodup_range
    rw [← List.sum_toFinset _ hn, ← List.sum_toFinset _ hall]
    refine Finset.sum_le_sum_of_subset_of_nonneg (fun k hk => ?_) fun k hk _ => hs k (by simpa using hk)
    exact List.mem_toFinset.2 (hm k (List.mem_toFinset.1 hk))

/-- Nothing hot hides below something cold: the activities reached through hot activities only are the hot ones. -/
theorem chain_iff (h : load cc tmin F64.ofInt j = some (.ok tr)) (hw : WholeMicroseconds j) {roots : List Nat}
    (hr : rootActivities tr.tree = some roots) (hpos : totalOf tr.tree roots ≠ 0) (threshold : Fl F64)
    (M : Metrics) (hot : List Nat → List Nat) (name : Nat → Text) (arg : Nat → Arg) (trailer more : Nat → Text) (k : Nat) :
    ∀ r i, r ∈ allActivities tr.tree →
    (HotChain (treeProf M tr.tree hot name arg trailer more)
      (fun i => (hierMetric tr.tree roots i).ge threshold) r k i ↔
      Below tr.tree r k i ∧ (k = 0 ∨ (hierMetric tr.tree roots i).ge threshold = true)) := by
  obtain ⟨-, h1, -⟩ := total_sane h hw hr hpos
  have hmono : ∀ a b, 0 ≤ durVal tr.tree a → durVal tr.tree a ≤ durVal tr.tree b →
      (hierMetric tr.tree roots a).ge threshold = true → (hierMetric tr.tree roots b).ge threshold = true := by
    intro a b h0 hab hg
    cases threshold with
    | nan => simp [hierMetric, Fl.ge] at hg
    | num y =>
      simp only [hierMetric, Fl.ge, decide_eq_true_eq, F64.le_iff] at hg ⊢
      exact hg.trans (Share.c86_order (by linarith) h0 hab).1
  have hbelow : ∀ k r i, r ∈ allActivities tr.tree → Below tr.tree r k i →
      i ∈ allActivities tr.tree ∧ durVal tr.tree i ≤ durVal tr.tree r := by
    intro k
    induction k with
    | zero => intro r i hr hb; cases hb; exact ⟨hr, le_refl _⟩
    | succ k ih =>
      intro r i hr hb
      cases hb with
      | step hc hb =>
        obtain ⟨h2, h3⟩ := ih _ _ (child_mem h hw hr hc) hb
        exact ⟨h2, h3.trans (child_le h hw hr hc)⟩
  have hch : ∀ r c, c ∈ (treeProf M tr.tree hot name arg trailer more).children r ↔ IsChild tr.tree r c := by
    intro r c
    simp only [treeProf, IsChild]
    cases directChildren tr.tree r <;> simp
  induction k with
  | zero =>
    intro r i _
    constructor
    · intro hc; cases hc; exact ⟨.refl r, .inl rfl⟩
    · rintro ⟨hb, -⟩; cases hb; exact .refl r
  | succ k ih =>
    intro r i hmem
    constructor
    · intro hc
      cases hc with
      | step hc hh hrest =>
        have hc' := (hch _ _).1 hc
        obtain ⟨hb, hor⟩ := (ih _ _ (child_mem h hw hmem hc')).1 hrest
        refine ⟨.step hc' hb, .inr ?_⟩
        rcases hor with rfl | hor
        · cases hb; exact hh
        · exact hor
    · rintro ⟨hb, hor⟩
      rcases hor with h0 | hor
      · omega
      · cases hb with
        | step hc hb =>
          have hc' := child_mem h hw hmem hc
          obtain ⟨hi, hle⟩ := hbelow _ _ _ hc' hb
          exact .step ((hch _ _).2 hc) (hmono _ _ (dur_nonneg h hw hi) hle hor) ((ih _ _ hc').2 ⟨hb, .inr hor⟩)

/-- **C88.** The hierarchical report below any activity shows exactly the activities inside it whose share of the total
reaches the threshold, as long as columns are left (two per level): none of them is hidden below an activity that is not
shown. -/
theorem c88_hierarchical (h : load cc tmin F64.ofInt j = some (.ok tr)) (hw : WholeMicroseconds j) {roots : List Nat}
    (hr : rootActivities tr.tree = some roots) (hpos : totalOf tr.tree roots ≠ 0) (threshold : Fl F64)
    (M : Metrics) (hot : List Nat → List Nat)
    (hhot : ∀ l, HottestOut l (hierMetric tr.tree roots) threshold (.ok (hot l)))
    (name : Nat → Text) (arg : Nat → Arg) (trailer more : Nat → Text)
    (hwf : ∀ i, (arg i).WF) (hname : ∀ i, 1 ≤ M.width (name i)) (htr : ∀ i, M.width (trailer i) < 65536)
    (cols : Nat) (h1 : 1 ≤ cols) (h2 : cols < 65536) (root : Nat) (hroot : root ∈ allActivities tr.tree) :
    ∃ p, hierTree M (treeProf M tr.tree hot name arg trailer more) cols root = some p ∧
      ∀ k i, (∃ text kids, SubTree p k (.node (.act i) text kids)) ↔
        Below tr.tree root k i ∧ (k = 0 ∨ (hierMetric tr.tree roots i).ge threshold = true ∧ 2 * k < cols) := by
  obtain ⟨p, hp, hs, -⟩ := hierarchical_profile M tr.tree (hierMetric tr.tree roots) threshold hot hhot name arg trailer more
    hwf hname htr cols h1 h2 root
  refine ⟨p, hp, fun k i => ?_⟩
  rw [hs, hotPath_iff M tr.tree hot name arg trailer more, chain_iff h hw hr hpos threshold M hot name arg trailer more k root i hroot]
  tauto

/-- **C88.** With the threshold of the options (in percent), an activity is shown in the hierarchical report if its true
percentage is more than the option by 2^-44, and not if it is less by 2^-44; likewise its self-duration and the flat report. -/
theorem c88_option (h : load cc tmin F64.ofInt j = some (.ok tr)) (hw : WholeMicroseconds j) {roots : List Nat}
    (hr : rootActivities tr.tree = some roots) (hpos : totalOf tr.tree roots ≠ 0) {option : ℚ} (ho : 0 ≤ option)
    (ho' : option ≤ 100) {i : Nat} (hi : i ∈ allActivities tr.tree) :
    let T := (roots.map (durVal tr.tree)).sum
    let threshold : Fl F64 := .num ⟨Share.thresholdOf option⟩
    (option + 1 / 2 ^ 44 ≤ 100 * (durVal tr.tree i / T) → (hierMetric tr.tree roots i).ge threshold = true) ∧
    (100 * (durVal tr.tree i / T) ≤ option - 1 / 2 ^ 44 → (hierMetric tr.tree roots i).ge threshold = false) ∧
    (option + 1 / 2 ^ 44 ≤ 100 * (selfVal tr.tree i / T) → (flatMetric tr.tree roots i).ge threshold = true) ∧
    (100 * (selfVal tr.tree i / T) ≤ option - 1 / 2 ^ 44 → (flatMetric tr.tree roots i).ge threshold = false) := by
  obtain ⟨e, -, hS⟩ := total_sane h hw hr hpos
  obtain ⟨h1, h2⟩ := dur_le_total h hw hr hi
  intro T threshold
  have a1 := Share.c86_threshold hS (dur_nonneg h hw hi) h2 ho ho'
  have a2 := Share.c86_threshold hS (self_nonneg h hw hi) (h1.trans h2) ho ho'
  rw [e] at a1 a2
  simp only [threshold, hierMetric, flatMetric, Fl.ge, decide_eq_true_eq, decide_eq_false_iff_not, F64.le_iff, not_le, e]
  exact ⟨a1.1, a1.2, a2.1, a2.2⟩

/-- **C88.** The flat report lists exactly the activities whose self-duration's share reaches the threshold, each once; it
never lists an activity without those that have more self-duration. -/
theorem c88_flat (h : load cc tmin F64.ofInt j = some (.ok tr)) (hw : WholeMicroseconds j) {roots : List Nat}
    (hr : rootActivities tr.tree = some roots) (hpos : totalOf tr.tree roots ≠ 0) (threshold : Fl F64) (o : Out (List Nat))
    (ho : HottestOut (allActivities tr.tree) (flatMetric tr.tree roots) threshold o) :
    ∃ out, o = .ok out ∧ out.Nodup ∧
      (∀ i, i ∈ out ↔ i ∈ allActivities tr.tree ∧ (flatMetric tr.tree roots i).ge threshold = true) ∧
      ∀ i k, i ∈ out → k ∈ allActivities tr.tree → selfVal tr.tree i ≤ selfVal tr.tree k → k ∈ out := by
  obtain ⟨-, h1, -⟩ := total_sane h hw hr hpos
  obtain ⟨out, rfl, hp, -, -⟩ := hottest_spec _ _ _ _ ho
  have hiff : ∀ i, i ∈ out ↔ i ∈ allActivities tr.tree ∧ (flatMetric tr.tree roots i).ge threshold = true := by
    intro i; rw [hp.mem_iff, List.mem_filter]
  refine ⟨out, rfl, hp.nodup_iff.2 ((by simp only [allActivities]; exact List.nodup_range : (allActivities tr.tree).Nodup).filter _),
    hiff, fun i k hi hk hle => ?_⟩
  rw [hiff] at hi ⊢
  refine ⟨hk, ?_⟩
  have hg := hi.2
  cases threshold with
  | nan => simp [flatMetric, Fl.ge] at hg
  | num y =>
    simp only [flatMetric, Fl.ge, decide_eq_true_eq, F64.le_iff] at hg ⊢
    exact hg.trans (Share.c86_order (by linarith) (self_nonneg h hw hi.1) hle).1

end

/-! ### Example -/

/-- The trace of C87's example, with a threshold of 30%: the source file (5 µs of 13) is shown below the frontend. -/
example : ∃ (tr : ClangTrace F64) (p : PTree), rootActivities tr.tree = some [2, 1] ∧
    (∃ text kids, SubTree p 1 (.node (.act 0) text kids)) ∧
    (∃ out, 0 ∈ out ∧ HottestOut (allActivities tr.tree) (flatMetric tr.tree [2, 1]) (.num ⟨Share.thresholdOf 30⟩) (.ok out)) := by
  obtain ⟨j, tr, ht, hw, hl, hr, hs, hc, hd, hself, hall⟩ := exLoads
  have ht : totalOf tr.tree [2, 1] = 13 := by
    obtain ⟨roots, h1, h2, -⟩ := c87_total hl hw
    rw [hr] at h1
    cases h1
    rw [totalOf, h2, hs]
  have hpos : totalOf tr.tree [2, 1] ≠ 0 := by rw [ht]; norm_num
  have hot := c88_option hl hw hr hpos (option := 30) (by norm_num) (by norm_num) (i := 0) (by rw [hall]; simp)
  simp only [hs, hd, hself] at hot
  have hex : ∀ l, ∃ out, HottestOut l (hierMetric tr.tree [2, 1]) (.num ⟨Share.thresholdOf 30⟩) (.ok out) := by
    intro l
    obtain ⟨o, ho⟩ := hottest_exists l (hierMetric tr.tree [2, 1]) (.num ⟨Share.thresholdOf 30⟩)
    obtain ⟨out, rfl, -⟩ := hottest_spec _ _ _ _ ho
    exact ⟨out, ho⟩
  obtain ⟨p, -, hp⟩ := c88_hierarchical hl hw hr hpos (.num ⟨Share.thresholdOf 30⟩) .unit (fun l => (hex l).choose)
    (fun l => (hex l).choose_spec) (fun _ => lit "x") (fun _ => .nothing) (fun _ => []) (fun _ => [])
    (fun _ => trivial) (by intro _; decide) (by intro _; decide) 80 (by norm_num) (by norm_num) 1 (by rw [hall]; simp)
  obtain ⟨o, ho⟩ := hottest_exists (allActivities tr.tree) (flatMetric tr.tree [2, 1]) (.num ⟨Share.thresholdOf 30⟩)
  obtain ⟨out, rfl, -, hm, -⟩ := c88_flat hl hw hr hpos _ o ho
  refine ⟨tr, p, hr, (hp 1 0).2 ⟨.step ⟨[0], hc, by simp⟩ (.refl 0), .inr ⟨hot.1 (by norm_num), by norm_num⟩⟩,
    out, (hm 0).2 ⟨by rw [hall]; simp, hot.2.2.1 (by norm_num)⟩, ho⟩

end Verif.Analysis.HotTree
