/-
C86: percentages and thresholds in floating-point arithmetic (src/trace.rs, src/ui/stdio.rs,
src/ui/tui/trace).
-/
import Verif.Tree.Binary64
import Verif.Analysis.Report

set_option autoImplicit false
set_option linter.unusedVariables false
set_option linter.unusedSimpArgs false
set_option linter.unusedTactic false

namespace Verif.Analysis.Share

open Verif.Binary64 Verif.Analysis

/-! ### The code; `total` is the duration of the roots as the program adds it up. -/

/-- src/trace.rs 8-11: `duration_norm`, `1.0 / root_duration`. -/
def durationNorm (total : ℚ) : ℚ := rnd (1 / total)

/-- src/ui/stdio.rs 79, 104, 207: `duration * duration_norm`. -/
def share (total d : ℚ) : ℚ := rnd (d * durationNorm total)

/-- src/ui/stdio.rs 314: `duration * duration_norm * 100.0`. -/
def percent (total d : ℚ) : ℚ := rnd (share total d * 100)

/-- `{:.2}` of a float, in hundredths (src/ui/stdio.rs 315, src/ui/tui/trace/display.rs 696). -/
def hundredths (p : ℚ) : ℤ := rne (p * 100)

/-- src/ui/tui/trace/mod.rs 11-13: `percent_norm`, `100.0 / total_duration`. -/
def percentNorm (total : ℚ) : ℚ := rnd (100 / total)

/-- src/ui/tui/trace/display.rs 696: `data * norm`. -/
def percentTui (total d : ℚ) : ℚ := rnd (d * percentNorm total)

/-- src/ui/stdio.rs 55 and 65: `args.self_threshold as Duration / 100.0`, `args.hierarchical_threshold as Duration / 100.0`
(an `f32` is an `f64`). -/
def thresholdOf (option : ℚ) : ℚ := rnd (option / 100)

/-- The loop of `print_activity_type_profile` (src/ui/stdio.rs 78-93). -/
def typeProfileF {ν : Type} (total threshold : ℚ) : List (ν × ℚ) → List (TypeLine ν ℚ)
  | [] => []
  | (name, d) :: rest =>
    if share total d < threshold then [.others (rest.length + 1)]
    else .entry name d :: typeProfileF total threshold rest

/-! ### Proofs -/

/-- Totals for which nothing overflows or underflows: from 10^-301 to 10^301 µs. -/
def Sane (total : ℚ) : Prop := 2 ^ (-1000 : ℤ) ≤ total ∧ total ≤ 2 ^ (1000 : ℤ)

theorem Sane.pos {S : ℚ} (h : Sane S) : 0 < S := lt_of_lt_of_le (pow_pos2 _) h.1

/-- Relative error of `k / total`, for `k` from 1. -/
theorem norm_err {S : ℚ} (h : Sane S) {k : ℚ} (hk : 1 ≤ k) :
    |rnd (k / S) - k / S| ≤ k / S / 2 ^ (53 : ℕ) := by
  apply rnd_rel
  have h1 : (2 : ℚ) ^ (-1022 : ℤ) ≤ 2 ^ (-1000 : ℤ) := zpow_le_zpow_right₀ (by norm_num) (by norm_num)
  refine h1.trans ?_
  rw [le_div_iff₀ h.pos]
  have h2 : (2 : ℚ) ^ (-1000 : ℤ) * S ≤ 2 ^ (-1000 : ℤ) * 2 ^ (1000 : ℤ) :=
    mul_le_mul_of_nonneg_left h.2 (pow_pos2 _).le
  have h3 : (2 : ℚ) ^ (-1000 : ℤ) * 2 ^ (1000 : ℤ) = 1 := by rw [← zpow_add₀ (by norm_num)]; norm_num
  generalize (2 : ℚ) ^ (-1000 : ℤ) = a at *
  generalize (2 : ℚ) ^ (1000 : ℤ) = b at *
  linarith

theorem prod_err {S d : ℚ} (h : Sane S) (hd : 0 ≤ d) (hS : d ≤ S) {k : ℚ} (hk : 1 ≤ k) :
    0 ≤ d * rnd (k / S) ∧ |d * rnd (k / S) - k * (d / S)| ≤ k / 2 ^ (53 : ℕ) := by
  have hS0 := h.pos
  refine ⟨mul_nonneg hd (rnd_nonneg (by positivity)), ?_⟩
  have e : d * rnd (k / S) - k * (d / S) = d * (rnd (k / S) - k / S) := by ring
  rw [e, abs_mul, abs_of_nonneg hd]
  refine le_trans (mul_le_mul_of_nonneg_left (norm_err h hk) hd) ?_
  have h1 : d / S ≤ 1 := (div_le_one hS0).2 hS
  have e2 : d * (k / S / 2 ^ (53 : ℕ)) = d / S * (k / 2 ^ (53 : ℕ)) := by ring
  rw [e2]
  have : 0 ≤ k / 2 ^ (53 : ℕ) := by positivity
  nlinarith

/-- The share is accurate, and never above the whole. -/
theorem share_err {S d : ℚ} (h : Sane S) (hd : 0 ≤ d) (hS : d ≤ S) :
    0 ≤ share S d ∧ share S d ≤ 1 ∧ |share S d - d / S| ≤ 1 / 2 ^ (52 : ℕ) := by
  obtain ⟨h0, h1⟩ := prod_err h hd hS (le_refl 1)
  rw [one_mul] at h1
  have hle : d / S ≤ 1 := (div_le_one h.pos).2 hS
  have hb : d * rnd (1 / S) ≤ 1 + 1 / 2 ^ (53 : ℕ) := by linarith [(abs_le.1 h1).2]
  refine ⟨rnd_nonneg h0, ?_, ?_⟩
  · have := rnd_mono h0 hb
    have e : rnd (1 + 1 / 2 ^ (53 : ℕ)) = 1 := by decide +kernel
    rw [e] at this
    exact this
  · have h2 := rnd_err_below h0 (k := 1) (by norm_num at hb ⊢; linarith) (by norm_num)
    have e : share S d - d / S = (share S d - d * rnd (1 / S)) + (d * rnd (1 / S) - d / S) := by ring
    rw [e]
    refine le_trans (abs_add_le _ _) (le_trans (add_le_add h2 h1) ?_)
    norm_num

/-- Two decimals of a percentage computed with a small error. -/
theorem printed {p q ε : ℚ} (hp : 0 ≤ p) (he : |p - q| ≤ ε) (hq : q ≤ 100) (hε : ε < 1 / 200) :
    0 ≤ hundredths p ∧ hundredths p ≤ 10000 ∧ |(hundredths p : ℚ) / 100 - q| ≤ 1 / 200 + ε := by
  have he' := abs_le.1 he
  have hr := abs_le.1 (rne_err (p * 100))
  have h2 : (hundredths p : ℚ) < 10000 + 1 := by
    show (rne (p * 100) : ℚ) < _
    linarith [hr.2, he'.2]
  have h2 : hundredths p < 10000 + 1 := by exact_mod_cast h2
  refine ⟨le_trans (Int.floor_nonneg.2 (by positivity)) (rne_ge _), by omega, ?_⟩
  rw [abs_le]
  show -(1 / 200 + ε) ≤ (rne (p * 100) : ℚ) / 100 - q ∧ (rne (p * 100) : ℚ) / 100 - q ≤ 1 / 200 + ε
  constructor <;> linarith [hr.1, hr.2, he'.1, he'.2]

/-- **C86.** The percentage printed by the non-interactive report for a duration within the total lies between 0.00 and
100.00 and is within half a hundredth (and a rounding error of `2^-44`) of the true percentage. -/
theorem c86_percent {total d : ℚ} (h : Sane total) (hd : 0 ≤ d) (hS : d ≤ total) :
    0 ≤ hundredths (percent total d) ∧ hundredths (percent total d) ≤ 10000 ∧
    |(hundredths (percent total d) : ℚ) / 100 - 100 * (d / total)| ≤ 1 / 200 + 1 / 2 ^ 44 := by
  obtain ⟨h0, h1, h2⟩ := share_err h hd hS
  have hle : d / total ≤ 1 := (div_le_one h.pos).2 hS
  have hp0 : 0 ≤ share total d * 100 := by positivity
  have h3 := rnd_err_below hp0 (k := 7) (by norm_num; linarith) (by norm_num)
  apply printed (rnd_nonneg hp0) _ (by linarith) (by norm_num)
  show |rnd (share total d * 100) - 100 * (d / total)| ≤ _
  have e : rnd (share total d * 100) - 100 * (d / total) =
    (rnd (share total d * 100) - share total d * 100) + 100 * (share total d - d / total) := by ring
  rw [e]
  refine le_trans (abs_add_le _ _) ?_
  rw [abs_mul, abs_of_nonneg (by norm_num : (0 : ℚ) ≤ 100)]
  refine le_trans (add_le_add h3 (mul_le_mul_of_nonneg_left h2 (by norm_num))) ?_
  norm_num

/-- **C86.** The same for the percentages of the interactive interface. -/
theorem c86_percent_tui {total d : ℚ} (h : Sane total) (hd : 0 ≤ d) (hS : d ≤ total) :
    0 ≤ hundredths (percentTui total d) ∧ hundredths (percentTui total d) ≤ 10000 ∧
    |(hundredths (percentTui total d) : ℚ) / 100 - 100 * (d / total)| ≤ 1 / 200 + 1 / 2 ^ 44 := by
  obtain ⟨h0, h1⟩ := prod_err h hd hS (k := 100) (by norm_num)
  have hle : d / total ≤ 1 := (div_le_one h.pos).2 hS
  have hb : d * rnd (100 / total) < 2 ^ (7 : ℤ) := by
    have := (abs_le.1 h1).2
    norm_num at this ⊢; linarith
  have h3 := rnd_err_below h0 (k := 7) hb (by norm_num)
  apply printed (rnd_nonneg h0) _ (by linarith) (by norm_num)
  show |rnd (d * rnd (100 / total)) - 100 * (d / total)| ≤ _
  have e : rnd (d * rnd (100 / total)) - 100 * (d / total) =
    (rnd (d * rnd (100 / total)) - d * rnd (100 / total)) + (d * rnd (100 / total) - 100 * (d / total)) := by ring
  rw [e]
  refine le_trans (abs_add_le _ _) (le_trans (add_le_add h3 h1) ?_)
  norm_num

theorem share_mono {total d d' : ℚ} (h : 0 < total) (hd : 0 ≤ d) (hdd : d ≤ d') : share total d ≤ share total d' := by
  have h1 : 0 ≤ durationNorm total := rnd_nonneg (by positivity)
  exact rnd_mono (mul_nonneg hd h1) (mul_le_mul_of_nonneg_right hdd h1)

/-- **C86.** Rounding never swaps two durations: a longer one has no smaller share and no smaller percentage, as computed
and as printed, in both interfaces. -/
theorem c86_order {total d d' : ℚ} (h : 0 < total) (hd : 0 ≤ d) (hdd : d ≤ d') :
    share total d ≤ share total d' ∧ percent total d ≤ percent total d' ∧
    hundredths (percent total d) ≤ hundredths (percent total d') ∧
    percentTui total d ≤ percentTui total d' ∧
    hundredths (percentTui total d) ≤ hundredths (percentTui total d') := by
  have h1 : 0 ≤ durationNorm total := rnd_nonneg (by positivity)
  have h2 := share_mono h hd hdd
  have h3 : percent total d ≤ percent total d' :=
    rnd_mono (mul_nonneg (rnd_nonneg (mul_nonneg hd h1)) (by norm_num)) (mul_le_mul_of_nonneg_right h2 (by norm_num))
  have h4 : 0 ≤ percentNorm total := rnd_nonneg (by positivity)
  have h5 : percentTui total d ≤ percentTui total d' :=
    rnd_mono (mul_nonneg hd h4) (mul_le_mul_of_nonneg_right hdd h4)
  exact ⟨h2, h3, rne_mono (mul_le_mul_of_nonneg_right h3 (by norm_num)), h5,
    rne_mono (mul_le_mul_of_nonneg_right h5 (by norm_num))⟩

/-- **C86.** So the profile by type, which stops at the first type whose computed share is below the threshold, still
prints exactly the types whose computed share is at least the threshold, and the number of the others. -/
theorem c86_type_profile {ν : Type} {total : ℚ} (h : 0 < total) (threshold : ℚ) (l : List (ν × ℚ))
    (h0 : ∀ e ∈ l, 0 ≤ e.2) (hs : l.Pairwise fun a b => b.2 ≤ a.2) :
    typeProfileF total threshold l =
      (l.filter fun e => threshold ≤ share total e.2).map (fun e => .entry e.1 e.2) ++
      (if (l.filter fun e => share total e.2 < threshold) = [] then []
       else [.others (l.filter fun e => share total e.2 < threshold).length]) := by
  induction l with
  | nil => simp [typeProfileF]
  | cons e l ih =>
    obtain ⟨name, d⟩ := e
    simp only [List.pairwise_cons] at hs
    have h0' : ∀ e ∈ l, 0 ≤ e.2 := fun e he => h0 e (by simp [he])
    simp only [typeProfileF]
    by_cases hc : share total d < threshold
    · have hall : ∀ x ∈ l, share total x.2 < threshold := fun x hx =>
        lt_of_le_of_lt (share_mono h (h0' x hx) (hs.1 x hx)) hc
      have h1 : (l.filter fun e => threshold ≤ share total e.2) = [] := by
        rw [List.filter_eq_nil_iff]
        intro x hx
        simpa using hall x hx
      have h2 : (l.filter fun e => share total e.2 < threshold) = l := by
        rw [List.filter_eq_self]
        intro x hx
        simpa using hall x hx
      have h3 : ¬ threshold ≤ share total d := not_le.2 hc
      simp [hc, h3, h1, h2]
    · have h3 : threshold ≤ share total d := not_lt.1 hc
      rw [if_neg hc, ih h0' hs.2]
      simp only [List.filter_cons, hc, h3, decide_true, decide_false, if_true, Bool.false_eq_true,
        if_false, List.map_cons, List.cons_append]

/-- **C86.** The comparison with the threshold option (a percentage) decides rightly, except within `2^-44` of it. -/
theorem c86_threshold {total d option : ℚ} (h : Sane total) (hd : 0 ≤ d) (hS : d ≤ total) (ho : 0 ≤ option)
    (ho' : option ≤ 100) :
    (option + 1 / 2 ^ 44 ≤ 100 * (d / total) → thresholdOf option ≤ share total d) ∧
    (100 * (d / total) ≤ option - 1 / 2 ^ 44 → share total d < thresholdOf option) := by
  obtain ⟨-, -, h2⟩ := share_err h hd hS
  have h3 := rnd_err_below (x := option / 100) (by positivity) (k := 1) (by norm_num; linarith) (by norm_num)
  have h2' := abs_le.1 h2
  have h3' := abs_le.1 h3
  have e : thresholdOf option = rnd (option / 100) := rfl
  rw [e]
  norm_num at h2' h3' ⊢
  constructor
  · intro h4; linarith [h2'.1, h3'.2]
  · intro h4; linarith [h2'.2, h3'.1]

/-- **C86.** The margin is needed: of a total of 49 µs, the whole is computed to be less than 1, and with a threshold of
100 % the type that takes all the time is not printed. -/
theorem c86_whole_below_one :
    share 49 49 < 1 ∧ typeProfileF (ν := String) 49 (thresholdOf 100) [("Source", 49)] = [.others 1] := by
  decide +kernel

/-! Concrete cases. -/

theorem sane_49 : Sane 49 := by
  have h1 : (2 : ℚ) ^ (-1000 : ℤ) ≤ 2 ^ (0 : ℤ) := zpow_le_zpow_right₀ (by norm_num) (by norm_num)
  have h2 : (2 : ℚ) ^ (6 : ℤ) ≤ 2 ^ (1000 : ℤ) := zpow_le_zpow_right₀ (by norm_num) (by norm_num)
  norm_num at h1 h2
  constructor
  · refine le_trans h1 (by norm_num)
  · refine le_trans (by norm_num) h2

example : hundredths (percent 49 7) = 1429 ∧ hundredths (percentTui 49 49) = 10000 := by decide +kernel
example : 0 ≤ hundredths (percent 49 7) ∧ hundredths (percent 49 7) ≤ 10000 ∧
    |(hundredths (percent 49 7) : ℚ) / 100 - 100 * (7 / 49)| ≤ 1 / 200 + 1 / 2 ^ 44 :=
  c86_percent sane_49 (by norm_num) (by norm_num)
example : |(hundredths (percentTui 49 7) : ℚ) / 100 - 100 * (7 / 49)| ≤ 1 / 200 + 1 / 2 ^ 44 :=
  (c86_percent_tui sane_49 (by norm_num) (by norm_num)).2.2
example : share 49 7 ≤ share 49 8 := (c86_order (by norm_num) (by norm_num) (by norm_num)).1
example : typeProfileF 49 (thresholdOf 20) [("a", 25), ("b", 20), ("c", 3), ("d", 1)] =
    [.entry "a" 25, .entry "b" 20, .others 2] := by
  rw [c86_type_profile (by norm_num) _ _ (by decide +kernel) (by decide +kernel)]
  decide +kernel
example : thresholdOf 14 ≤ share 49 7 ∧ share 49 6 < thresholdOf 14 :=
  ⟨(c86_threshold sane_49 (by norm_num) (by norm_num) (by norm_num) (by norm_num)).1 (by norm_num),
   (c86_threshold sane_49 (by norm_num) (by norm_num) (by norm_num) (by norm_num)).2 (by norm_num)⟩

end Verif.Analysis.Share
