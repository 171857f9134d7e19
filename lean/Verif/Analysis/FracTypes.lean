/-
C93: the profile by activity type that the non-interactive report prints, for times that are any non-negative binary64 numbers.
Computed self-durations may be negative by a rounding error, so the order of shares is needed for numbers of any sign.
-/
import Verif.Analysis.FracHot

set_option autoImplicit false
set_option linter.unusedVariables false
set_option linter.unusedSimpArgs false
set_option linter.unusedSectionVars false

namespace Verif.Binary64

theorem rne_neg (y : ℚ) : rne (-y) = -rne y := by
  have h1 : (⌊y⌋ : ℚ) ≤ y := Int.floor_le _
  have h2 : y < ⌊y⌋ + 1 := Int.lt_floor_add_one _
  rcases h1.eq_or_lt with e | h3
  · rw [← e, ← Int.cast_neg, rne_int, rne_int]
  · have e : ⌊-y⌋ = -⌊y⌋ - 1 := by
      rw [Int.floor_eq_iff]; push_cast; constructor <;> linarith
    unfold rne
    rw [e]
    generalize ⌊y⌋ = n at *
    push_cast
    by_cases c1 : y - n < 1 / 2
    · have : ¬ (-y - (-(n : ℚ) - 1) < 1 / 2) := by linarith
      rw [if_neg this, if_pos (by linarith), if_pos c1]; ring
    · by_cases c2 : 1 / 2 < y - n
      · rw [if_pos (by linarith), if_neg c1, if_pos c2]; ring
      · rw [if_neg (by linarith), if_neg (by linarith), if_neg c1, if_neg c2]
        by_cases c3 : n % 2 = 0
        · rw [if_neg (by omega), if_pos c3]; ring
        · rw [if_pos (by omega), if_neg c3]; ring

theorem rnd_neg (x : ℚ) : rnd (-x) = -rnd x := by
  have e : expo (-x) = expo x := by rw [expo, expo, abs_neg]
  rw [rnd, rnd, e, neg_div, rne_neg]
  push_cast
  ring

/-- Rounding keeps the order of numbers of any sign. -/
theorem rnd_mono_all {x y : ℚ} (h : x ≤ y) : rnd x ≤ rnd y := by
  rcases le_total 0 x with hx | hx
  · exact rnd_mono hx h
  · rcases le_total 0 y with hy | hy
    · exact (Tree.rnd_nonpos hx).trans (rnd_nonneg hy)
    · have := rnd_mono (x := -y) (y := -x) (by linarith) (by linarith)
      rw [rnd_neg, rnd_neg] at this
      linarith

end Verif.Binary64

namespace Verif.Analysis.HotTree

open Verif.Tree (F64 Stat ATree statOf selfDuration directChildren allChildren rootActivities allActivities IsChild Timed)
open Verif.Trace Verif.Trace.Ctf Verif.Analysis.WholeTrace Verif.Display

/-- **C93.** Rounding never swaps two durations, even if they are negative: a longer one has no smaller share and no smaller
percentage, as computed and as printed, in both interfaces. -/
theorem c93_order {total d d' : ℚ} (h : 0 < total) (hdd : d ≤ d') :
    Share.share total d ≤ Share.share total d' ∧ Share.percent total d ≤ Share.percent total d' ∧
    Share.hundredths (Share.percent total d) ≤ Share.hundredths (Share.percent total d') ∧
    Share.percentTui total d ≤ Share.percentTui total d' ∧
    Share.hundredths (Share.percentTui total d) ≤ Share.hundredths (Share.percentTui total d') := by
  have h1 : 0 ≤ Share.durationNorm total := Binary64.rnd_nonneg (by positivity)
  have h4 : 0 ≤ Share.percentNorm total := Binary64.rnd_nonneg (by positivity)
  have h2 : Share.share total d ≤ Share.share total d' := Binary64.rnd_mono_all (mul_le_mul_of_nonneg_right hdd h1)
  have h3 : Share.percent total d ≤ Share.percent total d' := Binary64.rnd_mono_all (mul_le_mul_of_nonneg_right h2 (by norm_num))
  have h5 : Share.percentTui total d ≤ Share.percentTui total d' := Binary64.rnd_mono_all (mul_le_mul_of_nonneg_right hdd h4)
  exact ⟨h2, h3, Binary64.rne_mono (mul_le_mul_of_nonneg_right h3 (by norm_num)), h5,
    Binary64.rne_mono (mul_le_mul_of_nonneg_right h5 (by norm_num))⟩

/-- A negative time has no larger share than nothing. -/
example : Share.share 2 (-(1 / 2 ^ 53)) ≤ Share.share 2 0 ∧
    Share.hundredths (Share.percent 2 (-(1 / 2 ^ 53))) ≤ Share.hundredths (Share.percent 2 0) :=
  have h := c93_order (total := 2) (d := -(1 / 2 ^ 53)) (d' := 0) (by norm_num) (by norm_num)
  ⟨h.1, h.2.2.1⟩

/-- The loop that prints the types, for times of any sign. -/
theorem type_lines {ν : Type} {total : ℚ} (h : 0 < total) (threshold : ℚ) (l : List (ν × ℚ)) (hs : l.Pairwise fun a b => b.2 ≤ a.2) :
    ∃ m, Share.typeProfileF total threshold l =
      (l.filter fun e => threshold ≤ Share.share total e.2).map (fun e => .entry e.1 e.2) ++ (if m = 0 then [] else [.others m]) ∧
      (l.filter fun e => threshold ≤ Share.share total e.2).length + m = l.length := by
  induction l with
  | nil => exact ⟨0, by simp [Share.typeProfileF]⟩
  | cons e l ih =>
    obtain ⟨name, d⟩ := e
    simp only [List.pairwise_cons] at hs
    obtain ⟨m, ih1, ih2⟩ := ih hs.2
    by_cases hc : Share.share total d < threshold
    · have h1 : (l.filter fun e => threshold ≤ Share.share total e.2) = [] := by
        rw [List.filter_eq_nil_iff]
        intro x hx
        have := lt_of_le_of_lt (c93_order h (hs.1 x hx)).1 hc
        simpa using this
      refine ⟨l.length + 1, ?_, ?_⟩
      · simp [Share.typeProfileF, hc, not_le.2 hc, h1]
      · simp [not_le.2 hc, h1]
    · refine ⟨m, ?_, ?_⟩
      · simp only [Share.typeProfileF]
        rw [if_neg hc, ih1]
        simp [not_lt.1 hc]
      · simp only [List.filter_cons, not_lt.1 hc, decide_true, if_true, List.length_cons]
        omega

section
variable {ν : Type} [DecidableEq ν] {cc : CharClass} {tmin : F64} {j : Json F64} {tr : ClangTrace F64} {k : ℤ}

/-- **C93**, profile by type with a threshold in percent. Each type of the trace is either printed or counted, once, longest first
(by the computed times); printed types are those whose computed share reaches the threshold, and that decision is the one of exact
arithmetic up to the margin. -/
theorem c93_types (hk : -1022 < k) (h : load cc tmin F64.ofInt j = some (.ok tr)) (hw : TimesBefore k j)
    (hlen : (allActivities tr.tree).length ≤ 2 ^ 50) {roots : List Nat} (hr : rootActivities tr.tree = some roots)
    (hlong : 2 ^ (-900 : ℤ) ≤ (roots.map (durVal tr.tree)).sum ∧ (roots.map (durVal tr.tree)).sum ≤ 2 ^ (900 : ℤ))
    (hmany : 1024 * ((allActivities tr.tree).length * 2 ^ (k - 53)) ≤ (roots.map (durVal tr.tree)).sum)
    {option : ℚ} (ho : 0 ≤ option) (ho' : option ≤ 100) (name : Activity → ν) (o : Out (List (ν × Fl ℚ)))
    (hout : BreakdownOut (FloatBreakdown.addR Binary64.rnd) (.num 0) (programActs name tr.tree) o) :
    let T := (roots.map (durVal tr.tree)).sum
    let margin := 1 / 2 ^ 43 + 500 * ((allActivities tr.tree).length * 2 ^ (k - 53)) / T
    let exact := fun n => ((ofType name tr.tree n).map (exactSelf tr.tree)).sum
    ∃ (types shown : List (ν × ℚ)) (m : Nat), o = .ok (types.map fun e => (e.1, .num e.2)) ∧
      (types.map (·.1)).Nodup ∧ (∀ n, n ∈ types.map (·.1) ↔ ofType name tr.tree n ≠ []) ∧ types.Pairwise (fun a b => b.2 ≤ a.2) ∧
      Share.typeProfileF (totalOf tr.tree roots) (Share.thresholdOf option) types =
        shown.map (fun e => .entry e.1 e.2) ++ (if m = 0 then [] else [.others m]) ∧
      shown.Sublist types ∧ shown.length + m = types.length ∧
      (∀ e ∈ types, e ∈ shown ↔ Share.thresholdOf option ≤ Share.share (totalOf tr.tree roots) e.2) ∧
      (∀ e ∈ shown, option - margin ≤ 100 * (exact e.1 / T)) ∧
      ∀ e ∈ types, option + margin ≤ 100 * (exact e.1 / T) → e ∈ shown := by
  obtain ⟨stats, hl, hx, hb, hall⟩ := times_stats hk h hw
  have hn : (allActivities tr.tree).length = stats.length := by rw [hall, List.length_range]
  rw [hn] at hlen hmany ⊢
  intro T margin exact
  have hε := Binary64.pow_pos2 (k - 53)
  have hs : ∀ i ∈ allActivities tr.tree, (statOf tr.tree i).isSome ∧ (selfDuration tr.tree i).isSome := by
    intro i hi
    rw [hall, List.mem_range] at hi
    obtain ⟨s, d, h1, h2, -⟩ := Tree.c93_self_le_duration hx hl hi
    rw [h1, h2]; simp
  obtain ⟨out, roots', rfl, hr', h1, htot⟩ := c93_breakdown hk hx hb hl hlen name o hout
  rw [hr] at hr'
  cases hr'
  obtain ⟨out', e, h2, h3, -, h4⟩ := breakdown_spec _ _ _ (fun n _ => by rw [type_total name _ hs]; exact nofun) _ hout
  cases e
  have hnum : ∃ types : List (ν × ℚ), out = types.map fun e => (e.1, .num e.2) := by
    clear h2 h3 h4 hout
    induction out with
    | nil => exact ⟨[], rfl⟩
    | cons e out ih =>
      obtain ⟨types, rfl⟩ := ih fun e he => h1 e (by simp [he])
      obtain ⟨d, hd, -⟩ := h1 e (by simp)
      exact ⟨(e.1, d) :: types, by rw [List.map_cons, ← hd]⟩
  obtain ⟨types, rfl⟩ := hnum
  have hsorted : types.Pairwise fun a b => b.2 ≤ a.2 := by
    rw [List.pairwise_map] at h4
    exact h4.imp fun {a b} hab => by simpa [Fl.ge] using hab
  have hT : 0 < T := lt_of_lt_of_le (Binary64.pow_pos2 _) hlong.1
  have hT' : 0 < totalOf tr.tree roots := by
    have := (abs_le.1 htot).1
    have hδ0 : (0 : ℚ) ≤ stats.length * 2 ^ (k - 53) := by positivity
    change 1024 * _ ≤ T at hmany
    change _ ≤ totalOf tr.tree roots - T at this
    linarith
  have hnear : ∀ e ∈ types, _ := fun e he => near_threshold (T := T) (T' := totalOf tr.tree roots) (d := e.2) (x := exact e.1)
    hlong (by positivity) hmany htot (by
      obtain ⟨d, hd, h5⟩ := h1 (e.1, .num e.2) (List.mem_map.2 ⟨e, he, rfl⟩)
      cases hd
      rw [← mul_assoc]
      exact h5) ((sums hk hx hb hl hlen (by rw [← hall]; exact List.filter_sublist)).2.2 roots hr) ho ho'
  obtain ⟨m, h5, h6⟩ := type_lines hT' (Share.thresholdOf option) types hsorted
  refine ⟨types, _, m, rfl, ?_, fun n => ?_, hsorted, h5, List.filter_sublist, h6, fun e he => ?_, fun e he => ?_, fun e he hm => ?_⟩
  · simpa [Function.comp_def] using h2
  · have : (types.map fun e => ((e.1, Fl.num e.2) : ν × Fl ℚ)).map (·.1) = types.map (·.1) := by simp [Function.comp_def]
    rw [← this, h3]
    simp only [programActs, treeActs, List.map_map, List.mem_map, List.mem_filterMap, Function.comp]
    constructor
    · rintro ⟨a, ⟨i, hi, he⟩, rfl⟩ hnil
      obtain ⟨h7, h8⟩ := hs i hi
      obtain ⟨s, h7⟩ := Option.isSome_iff_exists.1 h7
      obtain ⟨d, h8⟩ := Option.isSome_iff_exists.1 h8
      rw [h7, h8] at he
      cases he
      have : i ∈ ofType name tr.tree (name s.act) := by
        rw [ofType, List.mem_filter]; exact ⟨hi, by simp [h7]⟩
      rw [hnil] at this
      cases this
    · intro hne
      obtain ⟨i, hi⟩ := List.exists_mem_of_ne_nil _ hne
      rw [ofType, List.mem_filter] at hi
      obtain ⟨h7, h8⟩ := hs i hi.1
      obtain ⟨s, h7⟩ := Option.isSome_iff_exists.1 h7
      obtain ⟨d, h8⟩ := Option.isSome_iff_exists.1 h8
      have h9 := hi.2
      rw [h7] at h9
      refine ⟨(name s.act, d), ⟨i, hi.1, by rw [h7, h8]⟩, by simpa using h9⟩
  · simp [he]
  · obtain ⟨h7, h8⟩ := List.mem_filter.1 he
    have := (hnear e h7).2 (by simpa using h8)
    simp only [margin]
    linarith
  · refine List.mem_filter.2 ⟨he, ?_⟩
    have := (hnear e he).1 (by simp only [margin] at hm; linarith)
    simpa using this

end

/-! ### Example -/

theorem hiddenDoc_types : ∃ tr, load WholeTrace.exCc ⟨-1⟩ F64.ofInt hiddenDoc = some (.ok tr) ∧
    ofType (fun a => a.name) tr.tree "Inner" = [0] ∧ ofType (fun a => a.name) tr.tree "Middle" = [1] := by
  have h : (match load WholeTrace.exCc ⟨-1⟩ F64.ofInt hiddenDoc with
      | some (.ok tr) => decide (ofType (fun a => a.name) tr.tree "Inner" = [0]) && decide (ofType (fun a => a.name) tr.tree "Middle" = [1])
      | _ => false) = true := by decide +kernel
  split at h
  · next tr ht =>
    simp only [Bool.and_eq_true, decide_eq_true_eq] at h
    exact ⟨tr, ht, h⟩
  · simp at h

/-- In the trace of `c93_hidden`, with a threshold of 40%, the type of half of the time is printed, and the one of negative time is
not. -/
example : ∃ (tr : ClangTrace F64) (types shown : List (String × ℚ)) (m : Nat), load WholeTrace.exCc ⟨-1⟩ F64.ofInt hiddenDoc = some (.ok tr) ∧
    BreakdownOut (FloatBreakdown.addR Binary64.rnd) (.num 0) (programActs (fun a : Activity => a.name) tr.tree)
      (.ok (types.map fun e => (e.1, .num e.2))) ∧
    Share.typeProfileF (totalOf tr.tree [2]) (Share.thresholdOf 40) types = shown.map (fun e => .entry e.1 e.2) ++ [.others m] ∧
    "Inner" ∈ shown.map (·.1) ∧ "Middle" ∉ shown.map (·.1) := by
  obtain ⟨tr, hl, hall, hr, c2, c1, c0, d0, d1, d2⟩ := hiddenDoc_loads
  obtain ⟨tr', hl', t0, t1⟩ := hiddenDoc_types
  rw [hl] at hl'
  cases hl'
  have hsum : (([2] : List Nat).map (durVal tr.tree)).sum = 2 := by simp [d2]
  have hlen : (allActivities tr.tree).length = 3 := by rw [hall]; rfl
  have b1 : (2 : ℚ) ^ (-900 : ℤ) ≤ 2 ^ (0 : ℤ) := zpow_le_zpow_right₀ (by norm_num) (by norm_num)
  have b2 : (2 : ℚ) ^ (1 : ℤ) ≤ 2 ^ (900 : ℤ) := zpow_le_zpow_right₀ (by norm_num) (by norm_num)
  have hlong : (2 : ℚ) ^ (-900 : ℤ) ≤ (([2] : List Nat).map (durVal tr.tree)).sum ∧ (([2] : List Nat).map (durVal tr.tree)).sum ≤ 2 ^ (900 : ℤ) := by
    rw [hsum]
    rw [zpow_zero] at b1
    rw [zpow_one] at b2
    exact ⟨b1.trans (by norm_num), b2⟩
  have hmany : 1024 * ((allActivities tr.tree).length * (2 : ℚ) ^ ((3 : ℤ) - 53)) ≤ (([2] : List Nat).map (durVal tr.tree)).sum := by
    rw [hsum, hlen]; norm_num
  obtain ⟨o, ho⟩ := breakdown_exists (FloatBreakdown.addR Binary64.rnd) (.num 0) (programActs (fun a : Activity => a.name) tr.tree)
  obtain ⟨types, shown, m, rfl, -, hm, -, hp, hsub, hcount, -, h1, h2⟩ := c93_types (k := 3) (by norm_num) hl hiddenDoc_times (by rw [hlen]; norm_num) hr
    hlong hmany (option := 40) (by norm_num) (by norm_num) (fun a => a.name) o ho
  have s0 : exactSelf tr.tree 0 = 1 := by rw [exactSelf, c0, d0]; simp
  have s1 : exactSelf tr.tree 1 = -(1 / 2 ^ 53) := by rw [exactSelf, c1, d1]; simp [d0]
  have hin : "Inner" ∈ shown.map (·.1) := by
    obtain ⟨e, he, hn⟩ := List.mem_map.1 ((hm "Inner").2 (by rw [t0]; simp))
    refine List.mem_map.2 ⟨e, h2 e he ?_, hn⟩
    rw [hn]; beta_reduce; rw [t0, hsum, hlen]; simp only [List.map_cons, List.map_nil, List.sum_cons, List.sum_nil, s0]; norm_num
  have hout : "Middle" ∉ shown.map (·.1) := by
    intro hmem
    obtain ⟨e, he, hn⟩ := List.mem_map.1 hmem
    have := h1 e he
    rw [hn] at this
    beta_reduce at this
    rw [t1, hsum, hlen] at this
    simp only [List.map_cons, List.map_nil, List.sum_cons, List.sum_nil, s1] at this
    norm_num at this
  have hm0 : m ≠ 0 := by
    rintro rfl
    have := hsub.eq_of_length (by omega)
    rw [this] at hout
    exact hout ((hm "Middle").2 (by rw [t1]; simp))
  rw [if_neg hm0] at hp
  exact ⟨tr, types, shown, m, hl, ho, hp, hin, hout⟩

end Verif.Analysis.HotTree
