/-
Floating-point numbers: IEEE 754 binary64 (`f64`), as rationals with the rounding of each operation.
Used by `Display/DurationFloat` (C33), `Analysis/Share` (C86) and for the activity tree (C05).
-/
import Verif.Tree.Float
import Mathlib.Algebra.Order.Round
import Mathlib.Data.Rat.Floor
import Mathlib.Data.Int.Log
import Mathlib.Tactic.Linarith
import Mathlib.Tactic.NormNum
import Mathlib.Tactic.Ring
import Mathlib.Tactic.FieldSimp
import Mathlib.Tactic.Positivity

set_option autoImplicit false
set_option linter.unusedVariables false
set_option linter.unusedSimpArgs false
set_option linter.unusedTactic false

namespace Verif.Binary64

/-! ### binary64 -/

/-- Round to the nearest integer, ties to even. -/
def rne (y : ℚ) : ℤ :=
  if y - ⌊y⌋ < 1 / 2 then ⌊y⌋
  else if 1 / 2 < y - ⌊y⌋ then ⌊y⌋ + 1
  else if ⌊y⌋ % 2 = 0 then ⌊y⌋ else ⌊y⌋ + 1

/-- Exponent of the last significant bit of the binary64 numbers around `x`: 53 significant bits,
and nothing finer than `2^-1074`. -/
def expo (x : ℚ) : ℤ := max (Int.log 2 |x| - 52) (-1074)

/-- IEEE 754 rounding of an exact result to binary64 (round to nearest, ties to even), for results
that do not overflow. -/
def rnd (x : ℚ) : ℚ := rne (x / 2 ^ expo x) * 2 ^ expo x

/-- The finite binary64 numbers (overflow ignored: everything below stays under `2^1023`). -/
def Rep (x : ℚ) : Prop := ∃ m e : ℤ, |m| < 2 ^ 53 ∧ -1074 ≤ e ∧ x = m * 2 ^ e

theorem rne_err (y : ℚ) : |(rne y : ℚ) - y| ≤ 1 / 2 := by
  have h1 : (⌊y⌋ : ℚ) ≤ y := Int.floor_le _
  have h2 : y < ⌊y⌋ + 1 := Int.lt_floor_add_one _
  unfold rne
  rw [abs_le]
  split_ifs <;> push_cast <;> constructor <;> linarith

theorem rne_ge (y : ℚ) : ⌊y⌋ ≤ rne y := by
  unfold rne; split_ifs <;> omega

theorem rne_int (z : ℤ) : rne (z : ℚ) = z := by
  simp [rne]

theorem pow_pos2 (e : ℤ) : (0 : ℚ) < 2 ^ e := zpow_pos (by norm_num) e

theorem expo_ge (x : ℚ) : -1074 ≤ expo x := le_max_right _ _

/-- `2^(expo x)` is more than `|x| / 2^53`. -/
theorem expo_fine {x : ℚ} (hx : 0 < x) : x < 2 ^ (53 : ℕ) * 2 ^ expo x := by
  have h := Int.lt_zpow_succ_log_self (b := 2) (by norm_num) |x|
  rw [abs_of_pos hx] at h
  have h2 : Int.log 2 x + 1 ≤ 53 + expo x := by
    have : Int.log 2 |x| - 52 ≤ expo x := le_max_left _ _
    rw [abs_of_pos hx] at this
    omega
  calc x < ((2 : ℕ) : ℚ) ^ (Int.log 2 x + 1) := h
    _ ≤ 2 ^ (53 + expo x) := by
      push_cast; exact zpow_le_zpow_right₀ (by norm_num) h2
    _ = _ := by rw [zpow_add₀ (by norm_num)]; norm_cast

/-- And no more than `|x| / 2^52`, unless it is the smallest. -/
theorem expo_coarse {x : ℚ} (hx : 0 < x) : 2 ^ (52 : ℕ) * 2 ^ expo x ≤ x ∨ expo x = -1074 := by
  rcases max_choice (Int.log 2 |x| - 52) (-1074) with h | h
  · left
    have h1 := Int.zpow_log_le_self (b := 2) (by norm_num) hx
    have : expo x = Int.log 2 x - 52 := by rw [expo, h, abs_of_pos hx]
    rw [this, zpow_sub₀ (by norm_num)]
    push_cast at h1
    calc _ = (2 : ℚ) ^ Int.log 2 x := by field_simp
      _ ≤ x := h1
  · exact .inr h

theorem expo_lt {x : ℚ} (hx : 0 < x) {k : ℤ} (h : x < 2 ^ k) (hk : -1022 < k) : expo x ≤ k - 53 := by
  have h1 := Int.zpow_log_le_self (b := 2) (by norm_num) hx
  push_cast at h1
  have : Int.log 2 x < k := (zpow_lt_zpow_iff_right₀ (by norm_num : (1 : ℚ) < 2)).1 (lt_of_le_of_lt h1 h)
  rw [expo, abs_of_pos hx]
  omega

theorem rnd_zero : rnd 0 = 0 := by simp [rnd, rne]

theorem rep_zero : Rep 0 := ⟨0, 0, by norm_num, by norm_num, by simp⟩

/-- A binary64 number is a multiple of its own last place. -/
theorem rep_mult {x : ℚ} (hx : 0 < x) (h : Rep x) :
    ∃ m : ℤ, 0 ≤ m ∧ m < 2 ^ 53 ∧ x = m * 2 ^ expo x := by
  obtain ⟨m, e, hm, he, rfl⟩ := h
  have hm0 : 0 < m := by
    by_contra hcon
    have : (m : ℚ) ≤ 0 := by exact_mod_cast not_lt.1 hcon
    have := mul_nonpos_of_nonpos_of_nonneg this (pow_pos2 e).le
    linarith
  rw [abs_of_pos hm0] at hm
  have hlt : (m : ℚ) * 2 ^ e < 2 ^ (53 + e) := by
    rw [zpow_add₀ (by norm_num)]
    apply mul_lt_mul_of_pos_right _ (pow_pos2 e)
    exact_mod_cast hm
  have hE : expo ((m : ℚ) * 2 ^ e) ≤ e := by
    have h1 := Int.zpow_log_le_self (b := 2) (by norm_num) hx
    push_cast at h1
    have : Int.log 2 ((m : ℚ) * 2 ^ e) < 53 + e :=
      (zpow_lt_zpow_iff_right₀ (by norm_num : (1 : ℚ) < 2)).1 (lt_of_le_of_lt h1 hlt)
    rw [expo, abs_of_pos hx]
    omega
  have hfine := expo_fine hx
  generalize hEE : expo ((m : ℚ) * 2 ^ e) = E at *
  obtain ⟨n, hn⟩ := Int.eq_ofNat_of_zero_le (sub_nonneg.2 hE)
  have key : (m : ℚ) * 2 ^ e = ((m * 2 ^ n : ℤ) : ℚ) * 2 ^ E := by
    have : e = n + E := by omega
    rw [this, zpow_add₀ (by norm_num)]
    push_cast; rw [zpow_natCast]; ring
  refine ⟨m * 2 ^ n, by positivity, ?_, key⟩
  rw [key] at hfine
  have := lt_of_mul_lt_mul_right hfine (pow_pos2 E).le
  exact_mod_cast this

/-- Multiples of the last place of a larger binary64 number are binary64 numbers. -/
theorem rep_of_mult {x y : ℚ} (hx : 0 < x) (h : Rep x) (hy : 0 ≤ y) (hyx : y ≤ x) {z : ℤ}
    (hz : y = z * 2 ^ expo x) : Rep y := by
  obtain ⟨m, hm0, hm, hxm⟩ := rep_mult hx h
  refine ⟨z, expo x, ?_, expo_ge x, hz⟩
  have p := pow_pos2 (expo x)
  have h1 : (z : ℚ) ≤ m := by
    have : (z : ℚ) * 2 ^ expo x ≤ m * 2 ^ expo x := by rw [← hz, ← hxm]; exact hyx
    exact le_of_mul_le_mul_right this p
  have h2 : (0 : ℚ) ≤ z := by
    rw [hz] at hy
    exact nonneg_of_mul_nonneg_left hy p
  have h1 : z ≤ m := by exact_mod_cast h1
  have h2 : 0 ≤ z := by exact_mod_cast h2
  rw [abs_of_nonneg h2]; omega

/-- Rounding changes no binary64 number. -/
theorem rnd_rep {x : ℚ} (hx : 0 ≤ x) (h : Rep x) : rnd x = x := by
  rcases hx.eq_or_lt with rfl | hx
  · exact rnd_zero
  obtain ⟨m, -, -, hm⟩ := rep_mult hx h
  have p := (pow_pos2 (expo x)).ne'
  have : x / 2 ^ expo x = m := by rw [div_eq_iff p]; exact hm
  rw [rnd, this, rne_int]; exact hm.symm

theorem rnd_err (x : ℚ) : |rnd x - x| ≤ 2 ^ expo x / 2 := by
  have p := pow_pos2 (expo x)
  have h := rne_err (x / 2 ^ expo x)
  have : rnd x - x = (rne (x / 2 ^ expo x) - x / 2 ^ expo x) * 2 ^ expo x := by
    rw [rnd, sub_mul, div_mul_cancel₀ _ p.ne']
  rw [this, abs_mul, abs_of_pos p]
  calc _ ≤ 1 / 2 * 2 ^ expo x := mul_le_mul_of_nonneg_right h p.le
    _ = _ := by ring

/-- Absolute rounding error below `2^k`. -/
theorem rnd_err_below {x : ℚ} (hx : 0 ≤ x) {k : ℤ} (h : x < 2 ^ k) (hk : -1022 < k) :
    |rnd x - x| ≤ 2 ^ (k - 54) := by
  rcases hx.eq_or_lt with rfl | hx
  · rw [rnd_zero, sub_zero, abs_zero]; exact (pow_pos2 _).le
  refine le_trans (rnd_err x) ?_
  have h1 : (2 : ℚ) ^ expo x ≤ 2 ^ (k - 53) := zpow_le_zpow_right₀ (by norm_num) (expo_lt hx h hk)
  have h2 : (2 : ℚ) ^ (k - 53) = 2 ^ (k - 54) * 2 := by
    rw [show k - 53 = (k - 54) + 1 by ring, zpow_add_one₀ (by norm_num)]
  linarith

theorem rnd_nonneg {x : ℚ} (hx : 0 ≤ x) : 0 ≤ rnd x := by
  have p := pow_pos2 (expo x)
  have : (0 : ℤ) ≤ rne (x / 2 ^ expo x) :=
    le_trans (Int.floor_nonneg.2 (div_nonneg hx p.le)) (rne_ge _)
  exact mul_nonneg (by exact_mod_cast this) p.le

/-- Rounding a quotient never reaches a bound that the dividend does not reach. -/
theorem rnd_div_lt {d u t : ℚ} (hd : 0 ≤ d) (hr : Rep d) (hu : 1 ≤ u) (hu' : u ≤ 2 ^ (40 : ℕ)) (ht : 1 ≤ t)
    (hdt : d < t) {z : ℤ} (hz : t = z * 2 ^ expo d) : rnd (d / u) < t / u := by
  have hu0 : 0 < u := by linarith
  rcases hd.eq_or_lt with rfl | hd
  · rw [zero_div, rnd_zero]; positivity
  have hx : 0 < d / u := div_pos hd hu0
  obtain ⟨m, -, -, hm⟩ := rep_mult hd hr
  have p := pow_pos2 (expo d)
  -- `d` is at least one last place below `t`
  have hgap : d + 2 ^ expo d ≤ t := by
    have h1 : (m : ℚ) * 2 ^ expo d < z * 2 ^ expo d := by rw [← hm, ← hz]; exact hdt
    have h2 : m + 1 ≤ z := by
      have := lt_of_mul_lt_mul_right h1 p.le
      exact_mod_cast this
    have h3 : ((m : ℚ) + 1) * 2 ^ expo d ≤ z * 2 ^ expo d :=
      mul_le_mul_of_nonneg_right (by exact_mod_cast h2) p.le
    rw [← hz, add_mul, ← hm] at h3
    linarith
  have herr := (abs_le.1 (rnd_err (d / u))).2
  rw [lt_div_iff₀ hu0]
  rcases expo_coarse hx with h | h
  · have h1 := expo_fine hd
    have h2 : 2 ^ (52 : ℕ) * 2 ^ expo (d / u) * u ≤ d := by
      have := mul_le_mul_of_nonneg_right h hu0.le
      rwa [div_mul_cancel₀ _ hu0.ne'] at this
    have h3 : rnd (d / u) * u ≤ (d / u + 2 ^ expo (d / u) / 2) * u :=
      mul_le_mul_of_nonneg_right (by linarith) hu0.le
    rw [add_mul, div_mul_cancel₀ _ hu0.ne'] at h3
    generalize (2 : ℚ) ^ expo (d / u) = a at *
    generalize (2 : ℚ) ^ expo d = b at *
    have : a * u ≤ d / 2 ^ (52 : ℕ) := by rw [le_div_iff₀ (by positivity)]; linarith
    have : d / 2 ^ (52 : ℕ) < 2 * b := by rw [div_lt_iff₀ (by positivity)]; linarith
    linarith
  · -- so small that the bound is far away
    rw [h] at herr
    have hf := expo_fine hx
    rw [h] at hf
    have hs : rnd (d / u) < 2 ^ (-60 : ℤ) := by
      have h1 : (2 : ℚ) ^ (53 : ℕ) * 2 ^ (-1074 : ℤ) = 2 ^ (-1021 : ℤ) := by
        rw [← zpow_natCast, ← zpow_add₀ (by norm_num)]; norm_num
      have h2 : (2 : ℚ) ^ (-1021 : ℤ) ≤ 2 ^ (-61 : ℤ) := zpow_le_zpow_right₀ (by norm_num) (by norm_num)
      have h3 : (2 : ℚ) ^ (-1074 : ℤ) / 2 ≤ 2 ^ (-61 : ℤ) := by
        have : (2 : ℚ) ^ (-1074 : ℤ) ≤ 2 ^ (-61 : ℤ) := zpow_le_zpow_right₀ (by norm_num) (by norm_num)
        have := pow_pos2 (-1074)
        generalize (2 : ℚ) ^ (-1074 : ℤ) = a at *
        generalize (2 : ℚ) ^ (-61 : ℤ) = b at *
        linarith
      have h4 : (2 : ℚ) ^ (-60 : ℤ) = 2 ^ (-61 : ℤ) + 2 ^ (-61 : ℤ) := by norm_num
      rw [h1] at hf
      generalize (2 : ℚ) ^ (-1074 : ℤ) = a at *
      generalize (2 : ℚ) ^ (-61 : ℤ) = b at *
      generalize (2 : ℚ) ^ (-1021 : ℤ) = c at *
      generalize (2 : ℚ) ^ (-60 : ℤ) = e at *
      linarith
    have hn := rnd_nonneg hx.le
    have : rnd (d / u) * u ≤ 2 ^ (-60 : ℤ) * 2 ^ (40 : ℕ) :=
      mul_le_mul hs.le hu' hu0.le (pow_pos2 _).le
    have : (2 : ℚ) ^ (-60 : ℤ) * 2 ^ (40 : ℕ) < 1 := by norm_num
    linarith

/-- Rounding a quotient keeps its integer part. -/
theorem floor_rnd_div {d u : ℚ} (hd : 0 ≤ d) (hr : Rep d) (hu : 1 ≤ u) (hu' : u ≤ 2 ^ (40 : ℕ))
    {w : ℤ} {t : ℕ} (hw : u = w * 2 ^ t) (he : expo d ≤ t) (hq : d / u < 2 ^ (53 : ℕ)) :
    ∃ n : ℕ, ⌊rnd (d / u)⌋ = n ∧ (n : ℚ) * u ≤ d ∧ d < (n + 1) * u ∧
      rnd (n * u) = n * u ∧ rnd (d - n * u) = d - n * u ∧ Rep (d - n * u) ∧ rnd ((n : ℚ) + 1) = n + 1 := by
  have hu0 : 0 < u := by linarith
  rcases hd.eq_or_lt with rfl | hd
  · refine ⟨0, by simp [rnd_zero], by simp, by simpa using hu0, by simp [rnd_zero], by simp [rnd_zero],
      by simpa using rep_zero, ?_⟩
    simp only [Nat.cast_zero, zero_add]
    exact rnd_rep (by norm_num) ⟨1, 0, by norm_num, by norm_num, by norm_num⟩
  have hx : 0 < d / u := div_pos hd hu0
  have h0 : (0 : ℤ) ≤ ⌊d / u⌋ := Int.floor_nonneg.2 hx.le
  obtain ⟨n, hn⟩ := Int.eq_ofNat_of_zero_le h0
  have hle : (n : ℚ) ≤ d / u := by
    have := Int.floor_le (d / u); rw [hn] at this; exact_mod_cast this
  have hlt : d / u < n + 1 := by
    have := Int.lt_floor_add_one (d / u); rw [hn] at this; exact_mod_cast this
  have hle' : (n : ℚ) * u ≤ d := (le_div_iff₀ hu0).1 hle
  have hlt' : d < (n + 1) * u := (div_lt_iff₀ hu0).1 hlt
  -- multiples of `u` are multiples of the last place of `d`
  obtain ⟨j, hj⟩ := Int.eq_ofNat_of_zero_le (sub_nonneg.2 he)
  have hmul : ∀ k : ℕ, (k : ℚ) * u = ((k * (w * 2 ^ j) : ℤ) : ℚ) * 2 ^ expo d := by
    intro k
    have : (2 : ℚ) ^ t = 2 ^ j * 2 ^ expo d := by
      rw [← zpow_natCast, ← zpow_natCast, ← zpow_add₀ (by norm_num)]
      congr 1; omega
    rw [hw, this]; push_cast; ring
  obtain ⟨m, hm0, hm, hdm⟩ := rep_mult hd hr
  have hrem : Rep (d - n * u) := by
    refine rep_of_mult hd hr (by linarith) ?_ (z := m - n * (w * 2 ^ j)) ?_
    · have : (0 : ℚ) ≤ n * u := by positivity
      linarith
    · rw [hmul n]; push_cast
      have := hdm
      generalize (2 : ℚ) ^ expo d = b at *
      rw [sub_mul, ← this]
  have hn53 : n < 2 ^ 53 := by
    have : (n : ℚ) < 2 ^ 53 := lt_of_le_of_lt hle hq
    exact_mod_cast this
  refine ⟨n, ?_, hle', hlt', ?_, ?_, hrem, ?_⟩
  · -- the rounded quotient is between `n` and `n + 1`
    rw [Int.floor_eq_iff]
    constructor
    · have he0 : expo (d / u) ≤ 0 := by
        have := expo_lt hx (k := 53) (by exact_mod_cast hq) (by norm_num)
        linarith
      obtain ⟨i, hi⟩ := Int.eq_ofNat_of_zero_le (neg_nonneg.2 he0)
      have hz : (n : ℚ) = ((n * 2 ^ i : ℕ) : ℤ) * 2 ^ expo (d / u) := by
        have : expo (d / u) = -(i : ℤ) := by omega
        rw [this, zpow_neg, zpow_natCast]; push_cast; field_simp
      have p := pow_pos2 (expo (d / u))
      rw [rnd]
      have : ((n * 2 ^ i : ℕ) : ℤ) ≤ rne (d / u / 2 ^ expo (d / u)) := by
        refine le_trans (Int.le_floor.2 ?_) (rne_ge _)
        rw [le_div_iff₀ p, ← hz]; exact hle
      calc ((n : ℤ) : ℚ) = n := by push_cast; rfl
        _ = _ := hz
        _ ≤ _ := mul_le_mul_of_nonneg_right (by exact_mod_cast this) p.le
    · have := rnd_div_lt hd.le hr hu hu' (t := (n + 1) * u) (by nlinarith [Nat.cast_nonneg (α := ℚ) n]) hlt'
        (z := (n + 1 : ℕ) * (w * 2 ^ j)) (by have := hmul (n + 1); push_cast at this ⊢; exact this)
      rw [mul_div_cancel_right₀ _ hu0.ne'] at this
      push_cast; exact this
  · exact rnd_rep (by positivity) (rep_of_mult hd hr (by positivity) hle' (hmul n))
  · exact rnd_rep (by linarith) hrem
  · refine rnd_rep (by positivity) ?_
    by_cases hc : n + 1 < 2 ^ 53
    · exact ⟨n + 1, 0, by rw [abs_of_nonneg (by positivity)]; exact_mod_cast hc, by norm_num, by push_cast; simp⟩
    · have : n + 1 = 2 ^ 53 := by omega
      refine ⟨1, 53, by norm_num, by norm_num, ?_⟩
      have : ((n + 1 : ℕ) : ℚ) = 2 ^ 53 := by rw [this]; push_cast; rfl
      push_cast at this; rw [this]; norm_num

/-! ### Order -/

theorem rne_mono {x y : ℚ} (h : x ≤ y) : rne x ≤ rne y := by
  by_contra hcon
  have h1 := (abs_le.1 (rne_err x)).2
  have h2 := (abs_le.1 (rne_err y)).1
  have h3 : ((rne y + 1 : ℤ) : ℚ) ≤ rne x := by exact_mod_cast (by omega : rne y + 1 ≤ rne x)
  push_cast at h3
  have : x = y := by linarith
  rw [this] at hcon
  exact hcon (le_refl _)

theorem rnd_le_mult {x : ℚ} {z : ℤ} (h : x ≤ z * 2 ^ expo x) : rnd x ≤ z * 2 ^ expo x := by
  have p := pow_pos2 (expo x)
  have : rne (x / 2 ^ expo x) ≤ z := by
    have := rne_mono (show x / 2 ^ expo x ≤ (z : ℚ) by rw [div_le_iff₀ p]; exact h)
    rwa [rne_int] at this
  exact mul_le_mul_of_nonneg_right (by exact_mod_cast this) p.le

theorem rnd_ge_mult {x : ℚ} {z : ℤ} (h : z * 2 ^ expo x ≤ x) : z * 2 ^ expo x ≤ rnd x := by
  have p := pow_pos2 (expo x)
  have : z ≤ rne (x / 2 ^ expo x) := by
    have := rne_mono (show (z : ℚ) ≤ x / 2 ^ expo x by rw [le_div_iff₀ p]; exact h)
    rwa [rne_int] at this
  exact mul_le_mul_of_nonneg_right (by exact_mod_cast this) p.le

/-- Rounding keeps the order. -/
theorem rnd_mono {x y : ℚ} (hx : 0 ≤ x) (h : x ≤ y) : rnd x ≤ rnd y := by
  rcases hx.eq_or_lt with rfl | hx
  · rw [rnd_zero]; exact rnd_nonneg h
  have hy : 0 < y := lt_of_lt_of_le hx h
  have hE : expo x ≤ expo y := by
    have := Int.log_mono_right (b := 2) hx h
    rw [expo, expo, abs_of_pos hx, abs_of_pos hy]
    omega
  rcases hE.eq_or_lt with e | e
  · have p := pow_pos2 (expo y)
    rw [rnd, rnd, e]
    apply mul_le_mul_of_nonneg_right _ p.le
    exact_mod_cast rne_mono (div_le_div_of_nonneg_right h p.le)
  · -- a power of two lies between
    have hy2 : 2 ^ (52 : ℕ) * 2 ^ expo y ≤ y := by
      rcases expo_coarse hy with h' | h'
      · exact h'
      · have := expo_ge x; omega
    have hx2 : x ≤ 2 ^ (52 : ℕ) * 2 ^ expo y := by
      refine le_trans (expo_fine hx).le ?_
      obtain ⟨j, hj⟩ := Int.eq_ofNat_of_zero_le (by omega : 0 ≤ expo y - 1 - expo x)
      have : (2 : ℚ) ^ expo y = 2 * (2 ^ j * 2 ^ expo x) := by
        rw [show expo y = 1 + (j + expo x) by omega, zpow_add₀ (by norm_num), zpow_add₀ (by norm_num),
          zpow_natCast, zpow_one]
      rw [this]
      have h1 : (1 : ℚ) ≤ 2 ^ j := one_le_pow₀ (by norm_num)
      have p := pow_pos2 (expo x)
      nlinarith [mul_le_mul_of_nonneg_right h1 p.le]
    obtain ⟨j, hj⟩ := Int.eq_ofNat_of_zero_le (by omega : 0 ≤ expo y - expo x)
    have hz : (2 : ℚ) ^ (52 : ℕ) * 2 ^ expo y = ((2 ^ 52 * 2 ^ j : ℤ) : ℚ) * 2 ^ expo x := by
      rw [show expo y = j + expo x by omega, zpow_add₀ (by norm_num), zpow_natCast]; push_cast; ring
    refine le_trans (b := 2 ^ (52 : ℕ) * 2 ^ expo y) ?_ ?_
    · rw [hz] at hx2 ⊢; exact rnd_le_mult hx2
    · have := rnd_ge_mult (x := y) (z := 2 ^ 52) (by push_cast; exact hy2)
      push_cast at this; exact this

/-- Relative error of rounding, for numbers that are not too small. -/
theorem rnd_rel {x : ℚ} (h : 2 ^ (-1022 : ℤ) ≤ x) : |rnd x - x| ≤ x / 2 ^ (53 : ℕ) := by
  have hx : 0 < x := lt_of_lt_of_le (pow_pos2 _) h
  refine le_trans (rnd_err x) ?_
  have hc : 2 ^ (52 : ℕ) * 2 ^ expo x ≤ x := by
    rcases expo_coarse hx with h' | h'
    · exact h'
    · rw [h']
      refine le_trans (le_of_eq ?_) h
      rw [← zpow_natCast, ← zpow_add₀ (by norm_num)]; norm_num
  rw [le_div_iff₀ (by positivity)]
  generalize (2 : ℚ) ^ expo x = a at *
  norm_num at *
  linarith

/-- The rounding of `f64` leaves whole numbers up to 2^53 alone, as C05 requires. -/
theorem rnd_roundsWell : Verif.Tree.RoundsWell rnd := by
  intro z hl hu
  have hrep : ∀ n : ℤ, 0 ≤ n → n ≤ 2 ^ 53 → Rep (n : ℚ) := by
    intro n h0 h
    by_cases hc : n < 2 ^ 53
    · exact ⟨n, 0, by rw [abs_of_nonneg h0]; exact hc, by norm_num, by simp⟩
    · have : n = 2 ^ 53 := by omega
      exact ⟨1, 53, by norm_num, by norm_num, by rw [this]; norm_num⟩
  rcases le_total 0 z with h0 | h0
  · exact rnd_rep (by exact_mod_cast h0) (hrep z h0 hu)
  · rcases h0.eq_or_lt with rfl | h0
    · exact_mod_cast rnd_zero
    have hpos : (0 : ℚ) < ((-z : ℤ) : ℚ) := by exact_mod_cast (by omega : 0 < -z)
    obtain ⟨m, -, -, hm⟩ := rep_mult hpos (hrep (-z) (by omega) (by omega))
    have he : expo ((-z : ℤ) : ℚ) = expo (z : ℚ) := by
      rw [expo, expo]; push_cast; rw [abs_neg]
    rw [he] at hm
    push_cast at hm
    have p := (pow_pos2 (expo (z : ℚ))).ne'
    have : (z : ℚ) / 2 ^ expo (z : ℚ) = ((-m : ℤ) : ℚ) := by
      rw [div_eq_iff p]; push_cast; linarith
    rw [rnd, this, rne_int]; push_cast; linarith

/-- **C05**, with the rounding of the program: `Tree.c05_float_exact` for binary64. -/
theorem c05_binary64 {α : Type} (tmin : ℚ) (xs : List (Tree.Stat ℚ (Tree.Fl rnd) α)) (t : Tree.ATree ℚ (Tree.Fl rnd) α)
    (hx : ∀ a ∈ xs, Tree.WholeTimes rnd a) (h : Tree.load tmin xs = .ok t) :
    Tree.load tmin (xs.map (Tree.Stat.mapDur Tree.Fl.val)) = .ok (t.mapDur Tree.Fl.val) :=
  Tree.c05_float_exact rnd_roundsWell tmin xs t hx h

/-- A concrete case: four activities, two of them inside another. -/
def bXs : List (Tree.Stat ℚ (Tree.Fl rnd) String) :=
  [⟨"parse", 2, 5, ⟨3⟩⟩, ⟨"codegen", 5, 9, ⟨4⟩⟩, ⟨"frontend", 1, 10, ⟨9⟩⟩, ⟨"backend", 11, 12, ⟨1⟩⟩]

theorem bXs_whole : ∀ a ∈ bXs, Tree.WholeTimes rnd a := by
  intro a ha
  simp only [bXs, List.mem_cons, List.not_mem_nil, or_false] at ha
  rcases ha with rfl | rfl | rfl | rfl
  · exact ⟨2, 3, by norm_num, by norm_num, by norm_num, by decide +kernel⟩
  · exact ⟨5, 4, by norm_num, by norm_num, by norm_num, by decide +kernel⟩
  · exact ⟨1, 9, by norm_num, by norm_num, by norm_num, by decide +kernel⟩
  · exact ⟨11, 1, by norm_num, by norm_num, by norm_num, by decide +kernel⟩

theorem bXs_load : ∃ t, Tree.load 0 bXs = .ok t := ⟨_, by with_unfolding_all rfl⟩

example : ∃ t, Tree.load 0 (bXs.map (Tree.Stat.mapDur Tree.Fl.val)) = .ok t := by
  obtain ⟨t, h⟩ := bXs_load
  exact ⟨_, c05_binary64 0 bXs t bXs_whole h⟩

end Verif.Binary64
