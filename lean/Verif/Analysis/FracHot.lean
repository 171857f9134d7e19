/-
C93: which activities the reports show, for times that are any non-negative binary64 numbers. The duration that the program
has for a part can exceed that of the whole by a rounding error, so an activity that reaches the threshold may be hidden
below one that does not, but only within the rounding error of the threshold.
-/
import Verif.Analysis.FracDoc
import Verif.Analysis.HotTree

set_option autoImplicit false
set_option linter.unusedVariables false
set_option linter.unusedSimpArgs false
set_option linter.unusedSectionVars false

namespace Verif.Analysis.HotTree

open Verif.Tree (F64 Stat ATree statOf selfDuration directChildren allChildren rootActivities allActivities IsChild Timed)
open Verif.Trace Verif.Trace.Ctf Verif.Analysis.WholeTrace Verif.Display

section
variable {α : Type} {tmin : F64} {xs : List (Stat F64 F64 α)} {t : ATree F64 F64 α} {k : ℤ}

/-- What is below an activity starts no earlier and ends no later. -/
theorem below_within (h : Tree.load tmin xs = .ok t) {n : Nat} : ∀ {r i : Nat} {a : Stat F64 F64 α}, xs[r]? = some a →
    Below t r n i → ∃ b, xs[i]? = some b ∧ a.start.val ≤ b.start.val ∧ b.stop.val ≤ a.stop.val := by
  induction n with
  | zero => intro r i a ha hb; cases hb; exact ⟨a, ha, le_refl _, le_refl _⟩
  | succ n ih =>
    intro r i a ha hb
    cases hb with
    | step hc hb =>
      obtain ⟨p, c, h1, h2, h3, h4⟩ := Tree.c03_nested h hc
      rw [(Tree.c01_contents h).2] at h1 h2
      rw [ha] at h1
      cases h1
      obtain ⟨b, h5, h6, h7⟩ := ih h2 hb
      rw [F64.le_iff] at h3 h4
      exact ⟨b, h5, h3.trans h6, h7.trans h4⟩

/-- A part lasts hardly longer than the whole. -/
theorem below_dur (hk : -1022 < k) (hx : ∀ a ∈ xs, Timed a) (hb : ∀ a ∈ xs, a.stop.val < 2 ^ k) (h : Tree.load tmin xs = .ok t)
    {r n i : Nat} (hr : r < xs.length) (hb' : Below t r n i) : i < xs.length ∧ durVal t i ≤ durVal t r + 2 ^ (k - 53) := by
  obtain ⟨b, h1, h2, h3⟩ := below_within h (List.getElem?_eq_getElem hr) hb'
  obtain ⟨e1, -, -⟩ := Tree.stop_err hk (hx _ (List.getElem_mem hr)) (hb _ (List.getElem_mem hr))
  obtain ⟨e2, -, -⟩ := Tree.stop_err hk (hx _ (List.mem_of_getElem? h1)) (hb _ (List.mem_of_getElem? h1))
  refine ⟨(List.getElem?_eq_some_iff.1 h1).1, ?_⟩
  have d1 : durVal t i = b.dur.val := by simp only [durVal, (Tree.c01_contents h).2, h1]; rfl
  have d2 : durVal t r = xs[r].dur.val := by simp only [durVal, (Tree.c01_contents h).2, List.getElem?_eq_getElem hr]; rfl
  rw [d1, d2]
  have e1' := abs_le.1 e1
  have e2' := abs_le.1 e2
  linarith [e1'.1, e1'.2, e2'.1, e2'.2]

/-- Every activity is inside a root. -/
theorem below_root (h : Tree.load tmin xs = .ok t) {roots : List Nat} (hr : rootActivities t = some roots) :
    ∀ m i, xs.length - i ≤ m → i < xs.length → ∃ r n, r ∈ roots ∧ r < xs.length ∧ Below t r n i := by
  have snoc : ∀ {n r p i : Nat}, Below t r n p → IsChild t p i → Below t r (n + 1) i := by
    intro n
    induction n with
    | zero => intro r p i hb hc; cases hb; exact .step hc (.refl _)
    | succ n ih => intro r p i hb hc; cases hb with | step h1 h2 => exact .step h1 (ih h2 hc)
  intro m
  induction m with
  | zero => intro i h1 h2; omega
  | succ m ih =>
    intro i h1 h2
    obtain ⟨roots', hr', h3⟩ := Tree.c01_root_xor_child h h2
    rw [hr] at hr'
    cases hr'
    rcases h3 with ⟨h3, -⟩ | ⟨-, p, h3, -⟩
    · exact ⟨i, 0, h3, h2, .refl i⟩
    · have hp : p < xs.length := by
        obtain ⟨ps, cs, h4, -⟩ := Tree.c03_nested h h3
        rw [(Tree.c01_contents h).2] at h4
        exact (List.getElem?_eq_some_iff.1 h4).1
      have hlt : i < p := by
        obtain ⟨l, h4, -, h5⟩ := Tree.c02_allChildren_descendants h hp
        exact Tree.allChildren_lt h4 i ((h5 i).2 (.single h3))
      obtain ⟨r, n, h4, h5, h6⟩ := ih p (by omega) hp
      exact ⟨r, n + 1, h4, h5, snoc h6 h3⟩

theorem durVal_nonneg (hx : ∀ a ∈ xs, Timed a) (h : Tree.load tmin xs = .ok t) (i : Nat) : 0 ≤ durVal t i := by
  have := roots_nonneg hx h [i]
  simpa using this

/-- No activity lasts much longer than all roots together. -/
theorem dur_le_roots (hk : -1022 < k) (hx : ∀ a ∈ xs, Timed a) (hb : ∀ a ∈ xs, a.stop.val < 2 ^ k) (h : Tree.load tmin xs = .ok t)
    {roots : List Nat} (hr : rootActivities t = some roots) {i : Nat} (hi : i < xs.length) :
    durVal t i ≤ (roots.map (durVal t)).sum + 2 ^ (k - 53) := by
  obtain ⟨r, n, h1, h2, h3⟩ := below_root h hr _ i le_rfl hi
  have h4 := (below_dur hk hx hb h h2 h3).2
  have h5 : durVal t r ≤ (roots.map (durVal t)).sum := by
    refine List.single_le_sum (fun x hx' => ?_) _ (List.mem_map_of_mem h1)
    obtain ⟨c, -, rfl⟩ := List.mem_map.1 hx'
    exact durVal_nonneg hx h c
  linarith

end

/-! ### Arithmetic -/

theorem share_near {S d : ℚ} (h : Share.Sane S) (hd : |d| ≤ 2 * S) : |Share.share S d - d / S| ≤ 1 / 2 ^ (50 : ℕ) := by
  have hS := h.pos
  have hq : |d / S| ≤ 2 := by rw [abs_div, abs_of_pos hS, div_le_iff₀ hS]; exact hd
  have h1 : |d * Share.durationNorm S - d / S| ≤ 2 / 2 ^ (53 : ℕ) := by
    have e : d * Share.durationNorm S - d / S = d * (Binary64.rnd (1 / S) - 1 / S) := by
      rw [Share.durationNorm]; ring
    rw [e, abs_mul]
    have := Share.norm_err h (le_refl (1 : ℚ))
    have h2 : |d| * |Binary64.rnd (1 / S) - 1 / S| ≤ (2 * S) * (1 / S / 2 ^ (53 : ℕ)) :=
      mul_le_mul hd this (abs_nonneg _) (by positivity)
    refine h2.trans (le_of_eq ?_)
    field_simp
  have hq' := abs_le.1 hq
  have h1' := abs_le.1 h1
  have h2 : |Share.share S d - d * Share.durationNorm S| ≤ 1 / 2 ^ (52 : ℕ) := by
    have := Tree.rnd_err_abs (x := d * Share.durationNorm S) (k := 2) (by
      rw [abs_lt]; norm_num at h1' ⊢
      constructor <;> linarith) (by norm_num)
    refine this.trans (by norm_num)
  have h2' := abs_le.1 h2
  norm_num at h1' h2' ⊢
  rw [abs_le]; constructor <;> linarith [h1'.1, h1'.2, h2'.1, h2'.2]

theorem sane_of {T T' : ℚ} (hlong : 2 ^ (-900 : ℤ) ≤ T ∧ T ≤ 2 ^ (900 : ℤ)) (a1 : T ≤ 2 * T') (a2 : T' ≤ 2 * T) : Share.Sane T' := by
  have p1 : (2 : ℚ) * 2 ^ (-1000 : ℤ) ≤ 2 ^ (-900 : ℤ) := by
    rw [← zpow_one_add₀ (by norm_num)]; exact zpow_le_zpow_right₀ (by norm_num) (by norm_num)
  have p2 : (2 : ℚ) * 2 ^ (900 : ℤ) ≤ 2 ^ (1000 : ℤ) := by
    rw [← zpow_one_add₀ (by norm_num)]; exact zpow_le_zpow_right₀ (by norm_num) (by norm_num)
  obtain ⟨l1, l2⟩ := hlong
  generalize (2 : ℚ) ^ (-900 : ℤ) = c1 at *
  generalize (2 : ℚ) ^ (900 : ℤ) = c2 at *
  rw [Share.Sane]
  generalize (2 : ℚ) ^ (-1000 : ℤ) = c3 at *
  generalize (2 : ℚ) ^ (1000 : ℤ) = c4 at *
  constructor <;> linarith

/-- The comparison of a nearly exact time with the threshold option, for a nearly exact total. -/
theorem near_threshold {T T' d x δ option : ℚ} (hlong : 2 ^ (-900 : ℤ) ≤ T ∧ T ≤ 2 ^ (900 : ℤ)) (hδ0 : 0 ≤ δ) (hδ : 1024 * δ ≤ T)
    (h1 : |T' - T| ≤ δ) (h2 : |d - x| ≤ 3 * δ) (h3 : |x| ≤ T + δ) (ho : 0 ≤ option) (ho' : option ≤ 100) :
    (option + 1 / 2 ^ 43 + 500 * δ / T ≤ 100 * (x / T) → Share.thresholdOf option ≤ Share.share T' d) ∧
    (Share.thresholdOf option ≤ Share.share T' d → option - 1 / 2 ^ 43 - 500 * δ / T ≤ 100 * (x / T)) := by
  have hT : 0 < T := lt_of_lt_of_le (Binary64.pow_pos2 _) hlong.1
  obtain ⟨a1, a2, a3, a4⟩ := ratio_near hT hδ0 hδ h1 h2 h3
  have hsane := sane_of hlong a1 a2
  have h4 := abs_le.1 (share_near hsane a3)
  have h5 := abs_le.1 (Binary64.rnd_err_below (x := option / 100) (by positivity) (k := 1) (by norm_num; linarith) (by norm_num))
  rw [show Binary64.rnd (option / 100) = Share.thresholdOf option from rfl] at h5
  have h6 := abs_le.1 a4
  have e5 : 500 * δ / T = 100 * (5 * δ / T) := by ring
  rw [e5]
  generalize 5 * δ / T = u at *
  generalize d / T' = v at *
  generalize x / T = w at *
  norm_num at h4 h5 ⊢
  constructor
  · intro h; linarith [h4.1, h4.2, h5.1, h5.2, h6.1, h6.2]
  · intro h; linarith [h4.1, h4.2, h5.1, h5.2, h6.1, h6.2]

/-! ### Reports -/

section
variable {cc : CharClass} {tmin : F64} {j : Json F64} {tr : ClangTrace F64} {k : ℤ}

/-- What is long enough to reach the threshold with something to spare is shown by the hierarchical report. -/
theorem hot_path (hk : -1022 < k) {xs : List (Stat F64 F64 Activity)} {t : ATree F64 F64 Activity}
    (hx : ∀ a ∈ xs, Timed a) (hb : ∀ a ∈ xs, a.stop.val < 2 ^ k) (h : Tree.load tmin xs = .ok t) {hot : Nat → Bool} {B : ℚ}
    (hhot : ∀ c, c < xs.length → B ≤ durVal t c → hot c = true) {n : Nat} : ∀ {r i : Nat}, r < xs.length → Below t r n i →
    B + 2 ^ (k - 53) ≤ durVal t i → HotPath t hot r n i := by
  induction n with
  | zero => intro r i _ hb' _; cases hb'; exact .refl r
  | succ n ih =>
    intro r i hr hb' hd
    cases hb' with
    | @step r c n i hc hb' =>
      have hc' : c < xs.length := by
        obtain ⟨ps, cs, -, h4, -⟩ := Tree.c03_nested h hc
        rw [(Tree.c01_contents h).2] at h4
        exact (List.getElem?_eq_some_iff.1 h4).1
      have := (below_dur hk hx hb h hc' hb').2
      exact .step hc (hhot c hc' (by linarith)) (ih hc' hb' hd)

theorem path_below {t : ATree F64 F64 Activity} {hot : Nat → Bool} {n : Nat} : ∀ {r i : Nat}, HotPath t hot r n i →
    Below t r n i ∧ (n = 0 ∨ hot i = true) := by
  induction n with
  | zero => intro r i hp; cases hp; exact ⟨.refl r, .inl rfl⟩
  | succ n ih =>
    intro r i hp
    cases hp with
    | step hc hh hp =>
      obtain ⟨h1, h2⟩ := ih hp
      refine ⟨.step hc h1, .inr ?_⟩
      rcases h2 with rfl | h2
      · cases hp; exact hh
      · exact h2

/-- **C93**, hierarchical report with a threshold in percent. It shows only activities inside `root` whose computed share reaches
the threshold, and so whose true percentage is not less than the option by more than `2^-43` and 500 times the rounding error of
the sums; and as long as columns are left it shows every activity inside `root` whose true percentage exceeds the option by that
much, however deep. -/
theorem c93_hierarchical (hk : -1022 < k) (h : load cc tmin F64.ofInt j = some (.ok tr)) (hw : TimesBefore k j)
    (hlen : (allActivities tr.tree).length ≤ 2 ^ 50) {roots : List Nat} (hr : rootActivities tr.tree = some roots)
    (hlong : 2 ^ (-900 : ℤ) ≤ (roots.map (durVal tr.tree)).sum ∧ (roots.map (durVal tr.tree)).sum ≤ 2 ^ (900 : ℤ))
    (hmany : 1024 * ((allActivities tr.tree).length * 2 ^ (k - 53)) ≤ (roots.map (durVal tr.tree)).sum)
    {option : ℚ} (ho : 0 ≤ option) (ho' : option ≤ 100)
    (M : Metrics) (hot : List Nat → List Nat)
    (hhot : ∀ l, HottestOut l (hierMetric tr.tree roots) (.num ⟨Share.thresholdOf option⟩) (.ok (hot l)))
    (name : Nat → Text) (arg : Nat → Arg) (trailer more : Nat → Text)
    (hwf : ∀ i, (arg i).WF) (hname : ∀ i, 1 ≤ M.width (name i)) (htr : ∀ i, M.width (trailer i) < 65536)
    (cols : Nat) (h1 : 1 ≤ cols) (h2 : cols < 65536) (root : Nat) (hroot : root ∈ allActivities tr.tree) :
    let T := (roots.map (durVal tr.tree)).sum
    let margin := 1 / 2 ^ 43 + 500 * ((allActivities tr.tree).length * 2 ^ (k - 53)) / T
    ∃ p, hierTree M (treeProf M tr.tree hot name arg trailer more) cols root = some p ∧
      (∀ n i, (∃ text kids, SubTree p n (.node (.act i) text kids)) →
        Below tr.tree root n i ∧ (n = 0 ∨ 2 * n < cols ∧
          (hierMetric tr.tree roots i).ge (.num ⟨Share.thresholdOf option⟩) = true ∧ option - margin ≤ 100 * (durVal tr.tree i / T))) ∧
      ∀ n i, Below tr.tree root n i → (n = 0 ∨ 2 * n < cols ∧ option + margin ≤ 100 * (durVal tr.tree i / T)) →
        ∃ text kids, SubTree p n (.node (.act i) text kids) := by
  obtain ⟨stats, hl, hx, hb, hall⟩ := times_stats hk h hw
  have hn : (allActivities tr.tree).length = stats.length := by rw [hall, List.length_range]
  rw [hn] at hlen hmany ⊢
  rw [hall, List.mem_range] at hroot
  intro T margin
  have hε := Binary64.pow_pos2 (k - 53)
  have hN : (1 : ℚ) ≤ stats.length := by exact_mod_cast (by omega : 1 ≤ stats.length)
  have hεδ : (2 : ℚ) ^ (k - 53) ≤ stats.length * 2 ^ (k - 53) := by
    have := mul_le_mul_of_nonneg_right hN hε.le
    linarith
  have htot : |totalOf tr.tree roots - T| ≤ stats.length * 2 ^ (k - 53) := by
    obtain ⟨o, hbo⟩ := breakdown_exists (FloatBreakdown.addR Binary64.rnd) (.num 0) (programActs (fun a : Activity => a.name) tr.tree)
    obtain ⟨out, roots', -, hr', -, h3⟩ := c93_breakdown hk hx hb hl hlen _ o hbo
    rw [hr] at hr'
    cases hr'
    exact h3
  have hT : 0 < T := lt_of_lt_of_le (Binary64.pow_pos2 _) hlong.1
  have hT' : 0 < totalOf tr.tree roots := by
    have := abs_le.1 htot
    have hδ0 : (0 : ℚ) ≤ stats.length * 2 ^ (k - 53) := by positivity
    change 1024 * _ ≤ T at hmany
    linarith [this.1]
  have hdur : ∀ i, i < stats.length → |durVal tr.tree i| ≤ T + stats.length * 2 ^ (k - 53) := by
    intro i hi
    rw [abs_of_nonneg (durVal_nonneg hx hl i)]
    have := dur_le_roots hk hx hb hl hr hi
    change _ ≤ T + _ at this
    linarith
  have hge : ∀ c, (hierMetric tr.tree roots c).ge (.num ⟨Share.thresholdOf option⟩) = true ↔
      Share.thresholdOf option ≤ Share.share (totalOf tr.tree roots) (durVal tr.tree c) := by
    intro c
    simp only [hierMetric, Fl.ge, decide_eq_true_eq, F64.le_iff]
  obtain ⟨p, hp, hs, -⟩ := hierarchical_profile M tr.tree (hierMetric tr.tree roots) (.num ⟨Share.thresholdOf option⟩) hot hhot
    name arg trailer more hwf hname htr cols h1 h2 root
  refine ⟨p, hp, fun n i hsh => ?_, fun n i hbel hc => ?_⟩
  · obtain ⟨hpath, hcol⟩ := (hs n i).1 hsh
    obtain ⟨h3, h4⟩ := path_below hpath
    refine ⟨h3, ?_⟩
    rcases hcol with h0 | hcol
    · exact .inl h0
    · rcases h4 with h0 | h4
      · exact .inl h0
      · refine .inr ⟨hcol, h4, ?_⟩
        have hi := (below_dur hk hx hb hl hroot h3).1
        have := (near_threshold (d := durVal tr.tree i) hlong (by positivity) hmany htot (by simp; positivity) (hdur i hi) ho ho').2
          ((hge i).1 h4)
        simp only [margin]
        linarith
  · rw [hs]
    refine ⟨?_, hc.imp id (·.1)⟩
    rcases hc with rfl | ⟨-, hc⟩
    · cases hbel; exact .refl _
    · have hi := (below_dur hk hx hb hl hroot hbel).1
      have hm0 : 0 ≤ 500 * (stats.length * (2 : ℚ) ^ (k - 53)) / T := by positivity
      have hbig : (2 : ℚ) ^ (k - 53) ≤ durVal tr.tree i := by
        have e1 : 500 * (stats.length * (2 : ℚ) ^ (k - 53)) / T ≤ 100 * (durVal tr.tree i / T) := by
          simp only [margin] at hc
          have : (0 : ℚ) ≤ 1 / 2 ^ 43 := by norm_num
          linarith
        rw [← mul_div_assoc, div_le_div_iff_of_pos_right hT] at e1
        linarith
      refine hot_path hk hx hb hl (B := durVal tr.tree i - 2 ^ (k - 53)) (fun c _ hcd => (hge c).2 ?_) hroot hbel (by linarith)
      refine le_trans ?_ (Share.c86_order hT' (by linarith) hcd).1
      refine (near_threshold (x := durVal tr.tree i) hlong (by positivity) hmany htot ?_ (hdur i hi) ho ho').1 ?_
      · rw [show durVal tr.tree i - 2 ^ (k - 53) - durVal tr.tree i = -(2 ^ (k - 53)) by ring, abs_neg, abs_of_pos hε]
        linarith
      · simp only [margin] at hc
        linarith

/-- **C93**, flat report with a threshold in percent: each activity at most once, exactly those whose computed share reaches the
threshold, and the decision is the one of exact arithmetic up to the margin. -/
theorem c93_flat (hk : -1022 < k) (h : load cc tmin F64.ofInt j = some (.ok tr)) (hw : TimesBefore k j)
    (hlen : (allActivities tr.tree).length ≤ 2 ^ 50) {roots : List Nat} (hr : rootActivities tr.tree = some roots)
    (hlong : 2 ^ (-900 : ℤ) ≤ (roots.map (durVal tr.tree)).sum ∧ (roots.map (durVal tr.tree)).sum ≤ 2 ^ (900 : ℤ))
    (hmany : 1024 * ((allActivities tr.tree).length * 2 ^ (k - 53)) ≤ (roots.map (durVal tr.tree)).sum)
    {option : ℚ} (ho : 0 ≤ option) (ho' : option ≤ 100) (o : Out (List Nat))
    (hout : HottestOut (allActivities tr.tree) (flatMetric tr.tree roots) (.num ⟨Share.thresholdOf option⟩) o) :
    let T := (roots.map (durVal tr.tree)).sum
    let margin := 1 / 2 ^ 43 + 500 * ((allActivities tr.tree).length * 2 ^ (k - 53)) / T
    ∃ out, o = .ok out ∧ out.Nodup ∧
      (∀ i, i ∈ out ↔ i ∈ allActivities tr.tree ∧ (flatMetric tr.tree roots i).ge (.num ⟨Share.thresholdOf option⟩) = true) ∧
      (∀ i ∈ out, option - margin ≤ 100 * (exactSelf tr.tree i / T)) ∧
      ∀ i ∈ allActivities tr.tree, option + margin ≤ 100 * (exactSelf tr.tree i / T) → i ∈ out := by
  obtain ⟨stats, hl, hx, hb, hall⟩ := times_stats hk h hw
  have hn : (allActivities tr.tree).length = stats.length := by rw [hall, List.length_range]
  rw [hn] at hlen hmany ⊢
  intro T margin
  have hε := Binary64.pow_pos2 (k - 53)
  have htot : |totalOf tr.tree roots - T| ≤ stats.length * 2 ^ (k - 53) := by
    obtain ⟨o, hbo⟩ := breakdown_exists (FloatBreakdown.addR Binary64.rnd) (.num 0) (programActs (fun a : Activity => a.name) tr.tree)
    obtain ⟨out, roots', -, hr', -, h3⟩ := c93_breakdown hk hx hb hl hlen _ o hbo
    rw [hr] at hr'
    cases hr'
    exact h3
  have hself : ∀ i ∈ allActivities tr.tree, |selfVal tr.tree i - exactSelf tr.tree i| ≤ 3 * (stats.length * 2 ^ (k - 53)) ∧
      |exactSelf tr.tree i| ≤ T + stats.length * 2 ^ (k - 53) := by
    intro i hi
    have hsub : [i].Sublist (List.range stats.length) := by
      rw [List.singleton_sublist, ← hall]; exact hi
    obtain ⟨h1, -, h2⟩ := sums hk hx hb hl hlen hsub
    have h2 := h2 roots hr
    simp only [List.map_cons, List.map_nil, List.sum_cons, List.sum_nil, add_zero] at h1 h2
    have : (0 : ℚ) ≤ stats.length * 2 ^ (k - 53) := by positivity
    exact ⟨by linarith, h2⟩
  have hge : ∀ c, (flatMetric tr.tree roots c).ge (.num ⟨Share.thresholdOf option⟩) = true ↔
      Share.thresholdOf option ≤ Share.share (totalOf tr.tree roots) (selfVal tr.tree c) := by
    intro c
    simp only [flatMetric, Fl.ge, decide_eq_true_eq, F64.le_iff]
  obtain ⟨out, rfl, hp, -, -⟩ := hottest_spec _ _ _ _ hout
  have hiff : ∀ i, i ∈ out ↔ i ∈ allActivities tr.tree ∧ (flatMetric tr.tree roots i).ge (.num ⟨Share.thresholdOf option⟩) = true := by
    intro i; rw [hp.mem_iff, List.mem_filter]
  have hnear := fun i (hi : i ∈ allActivities tr.tree) =>
    near_threshold hlong (by positivity) hmany htot (hself i hi).1 (hself i hi).2 ho ho'
  refine ⟨out, rfl, hp.nodup_iff.2 ((by rw [hall]; exact List.nodup_range : (allActivities tr.tree).Nodup).filter _),
    hiff, fun i hi => ?_, fun i hi hm => ?_⟩
  · obtain ⟨h1, h2⟩ := (hiff i).1 hi
    have := (hnear i h1).2 ((hge i).1 h2)
    simp only [margin]
    linarith
  · refine (hiff i).2 ⟨hi, (hge i).2 ((hnear i hi).1 ?_)⟩
    simp only [margin] at hm
    linarith

end

/-! ### The margin is needed -/

def hiddenEvents : List (Json F64) :=
  [fracEvent (.nat 2) (.nat 1) "Inner", fracEvent (.nat 2) (.float ⟨1 - 1 / 2 ^ 53⟩) "Middle", fracEvent (.nat 2) (.nat 2) "Outer",
    .obj [("cat", .str ""), ("pid", .num (.nat 7)), ("tid", .num (.nat 7)), ("ts", .num (.nat 0)), ("ph", .str "M"),
      ("name", .str "process_name"), ("args", .obj [("name", .str "clang")])]]

/-- An activity of half the time, inside one that is shorter by a rounding error. -/
def hiddenDoc : Json F64 := .obj [("traceEvents", .arr hiddenEvents)]

theorem hiddenDoc_times : TimesBefore 3 hiddenDoc := by
  intro l js o e hj ho hx
  simp only [hiddenDoc, Json.obj.injEq] at e
  subst e
  have hj' : js = hiddenEvents := by simpa [occ] using hj
  subst hj'
  have r1 : Binary64.Rep (1 - 1 / 2 ^ 53) := ⟨2 ^ 53 - 1, -53, by norm_num, by norm_num, by norm_num⟩
  simp only [hiddenEvents, List.mem_cons, List.not_mem_nil, or_false, fracEvent, Json.obj.injEq] at ho
  rcases ho with rfl | rfl | rfl | rfl
  · exact ⟨_, _, (2 : ℕ), (1 : ℕ), by simp [occ], by simp [occ], .nat 2 (by norm_num), .nat 1 (by norm_num), by norm_num⟩
  · exact ⟨_, _, (2 : ℕ), _, by simp [occ], by simp [occ], .nat 2 (by norm_num), .float ⟨1 - 1 / 2 ^ 53⟩ (by norm_num) r1, by norm_num⟩
  · exact ⟨_, _, (2 : ℕ), (2 : ℕ), by simp [occ], by simp [occ], .nat 2 (by norm_num), .nat 2 (by norm_num), by norm_num⟩
  · simp [occ] at hx

theorem hiddenDoc_loads : ∃ tr, load WholeTrace.exCc ⟨-1⟩ F64.ofInt hiddenDoc = some (.ok tr) ∧ allActivities tr.tree = [0, 1, 2] ∧
    rootActivities tr.tree = some [2] ∧ directChildren tr.tree 2 = some [1] ∧ directChildren tr.tree 1 = some [0] ∧
    directChildren tr.tree 0 = some [] ∧
    durVal tr.tree 0 = 1 ∧ durVal tr.tree 1 = 1 - 1 / 2 ^ 53 ∧ durVal tr.tree 2 = 2 := by
  have h : (match load WholeTrace.exCc ⟨-1⟩ F64.ofInt hiddenDoc with
      | some (.ok tr) => decide (allActivities tr.tree = [0, 1, 2]) && decide (rootActivities tr.tree = some [2]) &&
          decide (directChildren tr.tree 2 = some [1]) && decide (directChildren tr.tree 1 = some [0]) &&
          decide (directChildren tr.tree 0 = some []) &&
          decide (durVal tr.tree 0 = 1) && decide (durVal tr.tree 1 = 1 - 1 / 2 ^ 53) && decide (durVal tr.tree 2 = 2)
      | _ => false) = true := by decide +kernel
  split at h
  · next tr ht =>
    simp only [Bool.and_eq_true, decide_eq_true_eq] at h
    obtain ⟨⟨⟨⟨⟨⟨⟨h1, h2⟩, h3⟩, h4⟩, h5⟩, h6⟩, h7⟩, h8⟩ := h
    exact ⟨tr, ht, h1, h2, h3, h4, h5, h6, h7, h8⟩
  · simp at h

/-- **C93**: the margin is needed. With a threshold of 50%, the activity "Inner" takes exactly half of the time, its computed share
is exactly the threshold, and there are columns for it; yet the hierarchical report does not show it, because it is inside an activity
whose computed duration is shorter than its own. -/
theorem c93_hidden : ∃ tr, load WholeTrace.exCc ⟨-1⟩ F64.ofInt hiddenDoc = some (.ok tr) ∧ rootActivities tr.tree = some [2] ∧
    Below tr.tree 2 2 0 ∧ (hierMetric tr.tree [2] 0).ge (.num ⟨Share.thresholdOf 50⟩) = true ∧
    100 * (durVal tr.tree 0 / ([2].map (durVal tr.tree)).sum) = 50 ∧
    ∀ (M : Metrics) (hot : List Nat → List Nat) (name : Nat → Text) (arg : Nat → Arg) (trailer more : Nat → Text),
      (∀ l, HottestOut l (hierMetric tr.tree [2]) (.num ⟨Share.thresholdOf 50⟩) (.ok (hot l))) →
      (∀ i, (arg i).WF) → (∀ i, 1 ≤ M.width (name i)) → (∀ i, M.width (trailer i) < 65536) →
      ∃ p, hierTree M (treeProf M tr.tree hot name arg trailer more) 80 2 = some p ∧
        ∀ n text kids, ¬ SubTree p n (.node (.act 0) text kids) := by
  obtain ⟨tr, hl, hall, hr, c2, c1, c0, d0, d1, d2⟩ := hiddenDoc_loads
  have htot : totalOf tr.tree [2] = 2 := by
    simp only [totalOf, List.map_cons, List.map_nil, d2]
    decide +kernel
  have g0 : (hierMetric tr.tree [2] 0).ge (.num ⟨Share.thresholdOf 50⟩) = true := by
    simp only [hierMetric, htot, d0]
    decide +kernel
  have g1 : (hierMetric tr.tree [2] 1).ge (.num ⟨Share.thresholdOf 50⟩) = false := by
    simp only [hierMetric, htot, d1]
    decide +kernel
  refine ⟨tr, hl, hr, .step ⟨_, c2, by simp⟩ (.step ⟨_, c1, by simp⟩ (.refl 0)), g0, ?_, ?_⟩
  · simp only [List.map_cons, List.map_nil, List.sum_cons, List.sum_nil, d0, d2]; norm_num
  · intro M hot name arg trailer more hhot hwf hname htr
    obtain ⟨p, hp, hs, -⟩ := hierarchical_profile M tr.tree (hierMetric tr.tree [2]) (.num ⟨Share.thresholdOf 50⟩) hot hhot
      name arg trailer more hwf hname htr 80 (by norm_num) (by norm_num) 2
    refine ⟨p, hp, fun n text kids hsh => ?_⟩
    obtain ⟨hpath, -⟩ := (hs n 0).1 ⟨text, kids, hsh⟩
    cases hpath with
    | step hc hh _ =>
      obtain ⟨cs, e, hm⟩ := hc
      rw [c2] at e
      cases e
      simp only [List.mem_singleton] at hm
      subst hm
      rw [g1] at hh
      simp at hh

/-! ### Example -/

/-- With a threshold of 40%, all three activities of that trace are shown. -/
example : ∃ (tr : ClangTrace F64) (p : PTree), load WholeTrace.exCc ⟨-1⟩ F64.ofInt hiddenDoc = some (.ok tr) ∧
    (∃ text kids, SubTree p 2 (.node (.act 0) text kids)) ∧
    ∃ out, 1 ∉ out ∧ 0 ∈ out ∧ HottestOut (allActivities tr.tree) (flatMetric tr.tree [2]) (.num ⟨Share.thresholdOf 40⟩) (.ok out) := by
  obtain ⟨tr, hl, hall, hr, c2, c1, c0, d0, d1, d2⟩ := hiddenDoc_loads
  have hsum : (([2] : List Nat).map (durVal tr.tree)).sum = 2 := by simp [d2]
  have hlen : (allActivities tr.tree).length = 3 := by rw [hall]; rfl
  have b1 : (2 : ℚ) ^ (-900 : ℤ) ≤ 2 ^ (0 : ℤ) := zpow_le_zpow_right₀ (by norm_num) (by norm_num)
  have b2 : (2 : ℚ) ^ (1 : ℤ) ≤ 2 ^ (900 : ℤ) := zpow_le_zpow_right₀ (by norm_num) (by norm_num)
  have hlong : (2 : ℚ) ^ (-900 : ℤ) ≤ (([2] : List Nat).map (durVal tr.tree)).sum ∧ (([2] : List Nat).map (durVal tr.tree)).sum ≤ 2 ^ (900 : ℤ) := by
    rw [hsum]
    rw [zpow_zero] at b1
    rw [zpow_one] at b2
    exact ⟨b1.trans (by norm_num), b2⟩
  have hmany : 1024 * ((allActivities tr.tree).length * (2 : ℚ) ^ ((3 : ℤ) - 53)) ≤ (([2] : List Nat).map (durVal tr.tree)).sum := by
    rw [hsum, hlen]; norm_num
  have hex : ∀ l, ∃ out, HottestOut l (hierMetric tr.tree [2]) (.num ⟨Share.thresholdOf 40⟩) (.ok out) := by
    intro l
    obtain ⟨o, ho⟩ := hottest_exists l (hierMetric tr.tree [2]) (.num ⟨Share.thresholdOf 40⟩)
    obtain ⟨out, rfl, -⟩ := hottest_spec _ _ _ _ ho
    exact ⟨out, ho⟩
  obtain ⟨p, -, -, hp⟩ := c93_hierarchical (k := 3) (by norm_num) hl hiddenDoc_times (by rw [hlen]; norm_num) hr hlong hmany
    (option := 40) (by norm_num) (by norm_num) .unit (fun l => (hex l).choose) (fun l => (hex l).choose_spec)
    (fun _ => lit "x") (fun _ => .nothing) (fun _ => []) (fun _ => []) (fun _ => trivial) (by intro _; decide) (by intro _; decide)
    80 (by norm_num) (by norm_num) 2 (by rw [hall]; simp)
  obtain ⟨o, ho⟩ := hottest_exists (allActivities tr.tree) (flatMetric tr.tree [2]) (.num ⟨Share.thresholdOf 40⟩)
  obtain ⟨out, rfl, -, -, hm1, hm2⟩ := c93_flat (k := 3) (by norm_num) hl hiddenDoc_times (by rw [hlen]; norm_num) hr hlong hmany
    (option := 40) (by norm_num) (by norm_num) o ho
  have s0 : exactSelf tr.tree 0 = 1 := by rw [exactSelf, c0, d0]; simp
  have s1 : exactSelf tr.tree 1 = -(1 / 2 ^ 53) := by rw [exactSelf, c1, d1]; simp [d0]
  refine ⟨tr, p, hl, hp 2 0 (.step ⟨_, c2, by simp⟩ (.step ⟨_, c1, by simp⟩ (.refl 0))) (.inr ⟨by norm_num, ?_⟩), out, ?_,
    hm2 0 (by rw [hall]; simp) ?_, ho⟩
  · rw [hsum, hlen, d0]; norm_num
  · intro h2
    have := hm1 1 h2
    rw [hsum, hlen, s1] at this
    norm_num at this
  · rw [hsum, hlen, s0]; norm_num

end Verif.Analysis.HotTree
