/-
C94, continued: numbers below 1e-280 and above 1e310 (see Analysis/DecimalTimes for the model): no time below 1e280 is refused, very
small ones are read as very small ones, and those from 1e310 on are refused.
-/
import Verif.Analysis.DecimalTimes

set_option autoImplicit false
set_option linter.unusedVariables false
set_option linter.unusedSimpArgs false
set_option exponentiation.threshold 3000
set_option maxRecDepth 8000

namespace Verif.Trace.Ctf.Text.Decimal

open Verif.Tree (F64)

theorem withExp_cases {e : List Char} (he : IsExp e) (sg : List Char) (s : Nat) (start : Int) :
    (|expValue e| < 2 ^ 31 ∧ withExp sg s start e = fromParts sg s (saturate (start + expValue e))) ∨
    ((s = 0 ∨ expValue e ≤ -2 ^ 31) ∧ withExp sg s start e = some ⟨0⟩) ∨
    ((2 ^ 31 ≤ expValue e ∧ s ≠ 0) ∧ withExp sg s start e = none) ∨
    (expValue e = 0 ∧ withExp sg s start e = fromParts sg s start) := by
  cases he with
  | none => right; right; right; exact ⟨rfl, rfl⟩
  | exp c sg' d ds hc hs h =>
    rcases hs with rfl | rfl | rfl
    · have hd : isDigit d = true := digits_all.1 h d (by simp)
      have ne : d ≠ '+' ∧ d ≠ '-' := by constructor <;> (rintro rfl; exact absurd hd (by decide))
      have hx : expValue (c :: ([] ++ d :: ds)) = numeral (d :: ds) := by
        simp only [List.nil_append, expValue]
        split <;> simp_all
      have hsg : expSign ([] ++ d :: ds) = ([], d :: ds) := by simp [expSign, ne]
      rw [hx]
      simp only [withExp, hsg, natOf_eq]
      by_cases hb : 2 ^ 31 ≤ numeral (d :: ds)
      · rw [if_pos hb]
        by_cases h0 : s = 0
        · right; left; exact ⟨.inl h0, by rw [if_neg (by simp [h0])]⟩
        · right; right; left; exact ⟨⟨by exact_mod_cast hb, h0⟩, by rw [if_pos ⟨h0, by simp⟩]⟩
      · left; rw [if_neg hb, if_neg (by simp)]
        exact ⟨by rw [abs_lt]; constructor <;> omega, rfl⟩
    · have hx : expValue (c :: (['+'] ++ d :: ds)) = numeral (d :: ds) := rfl
      have hsg : expSign (['+'] ++ d :: ds) = (['+'], d :: ds) := rfl
      rw [hx]
      simp only [withExp, hsg, natOf_eq]
      by_cases hb : 2 ^ 31 ≤ numeral (d :: ds)
      · rw [if_pos hb]
        by_cases h0 : s = 0
        · right; left; exact ⟨.inl h0, by rw [if_neg (by simp [h0])]⟩
        · right; right; left; exact ⟨⟨by exact_mod_cast hb, h0⟩, by rw [if_pos ⟨h0, by simp⟩]⟩
      · left; rw [if_neg hb, if_neg (by simp)]
        exact ⟨by rw [abs_lt]; constructor <;> omega, rfl⟩
    · have hx : expValue (c :: (['-'] ++ d :: ds)) = -numeral (d :: ds) := rfl
      have hsg : expSign (['-'] ++ d :: ds) = (['-'], d :: ds) := rfl
      rw [hx]
      simp only [withExp, hsg, natOf_eq]
      by_cases hb : 2 ^ 31 ≤ numeral (d :: ds)
      · rw [if_pos hb, if_neg (by simp)]
        right; left; exact ⟨.inr (by omega), rfl⟩
      · left; rw [if_neg hb, if_pos trivial]
        exact ⟨by rw [abs_lt]; constructor <;> omega, by rw [sub_eq_add_neg]⟩

def tiny : ℚ := 2 ^ (-900 : ℤ)

theorem tiny_pos : 0 < tiny := zpow_pos (by norm_num) _

theorem rnd_tiny : Binary64.rnd tiny = tiny :=
  Binary64.rnd_rep tiny_pos.le ⟨1, -900, by norm_num, by norm_num, by simp [tiny]⟩

theorem tiny_bounds : 8 * (10 : ℚ) ^ (-280 : ℤ) ≤ tiny ∧ 2 ^ 66 * (10 ^ 308)⁻¹ ≤ tiny ∧ tiny ≤ 1 := by
  have e : tiny = ((2 : ℚ) ^ 900)⁻¹ := by
    unfold tiny
    rw [show (-900 : ℤ) = -((900 : ℕ) : ℤ) by norm_num, zpow_neg, zpow_natCast]
  have e' : (10 : ℚ) ^ (-280 : ℤ) = (10 ^ 280)⁻¹ := by
    rw [show (-280 : ℤ) = -((280 : ℕ) : ℤ) by norm_num, zpow_neg, zpow_natCast]
  rw [e, e']
  refine ⟨?_, ?_, by norm_num⟩
  · norm_num
  · norm_num

theorem pow10_bounds (k : ℕ) : (10 : ℚ) ^ k / 2 ≤ pow10 k ∧ 1 ≤ pow10 k := by
  have hk : (1 : ℚ) ≤ 10 ^ k := one_le_pow₀ (by norm_num)
  obtain ⟨q, hq, hq'⟩ := rnd_factor (le_trans one_normal hk)
  have b := near_bounds hq' (by norm_num)
  constructor
  · unfold pow10; rw [hq]; nlinarith [b.1]
  · unfold pow10
    have : Binary64.rnd 1 = 1 := Binary64.rnd_rep (by norm_num) ⟨1, 0, by norm_num, by norm_num, by norm_num⟩
    rw [← this]; exact Binary64.rnd_mono_all hk

theorem scale_zero (z : ℤ) : scale 0 z = some 0 := by
  rw [scale]
  simp [Binary64.rnd_zero]

/-- Divisions make small numbers of small numbers. -/
theorem scale_tiny (n : ℕ) : ∀ (z : ℤ) (f : ℚ), z.natAbs = n → z < 0 → 0 ≤ f → f ≤ 2 ^ 65 →
    (z.natAbs ≤ 308 → f / pow10 z.natAbs ≤ tiny) → ∃ y, scale f z = some y ∧ 0 ≤ y ∧ y ≤ tiny := by
  induction n using Nat.strong_induction_on with
  | _ n ih =>
    intro z f hn hz hf hb hs
    rw [scale]
    by_cases h : z.natAbs ≤ 308
    · rw [if_pos h, if_neg (by omega)]
      have hp := (pow10_bounds z.natAbs).2
      refine ⟨_, rfl, Binary64.rnd_nonneg (div_nonneg hf (by linarith)), ?_⟩
      rw [← rnd_tiny]
      exact Binary64.rnd_mono_all (hs h)
    · rw [if_neg h]
      by_cases h0 : f = 0
      · rw [if_pos h0]; exact ⟨_, rfl, by rw [h0], by rw [h0]; exact tiny_pos.le⟩
      · rw [if_neg h0, if_neg (by omega)]
        have hp := pow10_bounds 308
        have hp0 : (0 : ℚ) < pow10 308 := by linarith [hp.2]
        have d1 : f / pow10 308 ≤ tiny := by
          refine le_trans ?_ tiny_bounds.2.1
          rw [div_le_iff₀ hp0]
          have hT : (0 : ℚ) < 10 ^ 308 := pow_pos (by norm_num) _
          have e : (2 : ℚ) ^ 66 * (10 ^ 308)⁻¹ * (10 ^ 308 / 2) = 2 ^ 65 := by
            generalize (10 : ℚ) ^ 308 = T at *
            field_simp
          have := mul_le_mul_of_nonneg_left hp.1 (show (0 : ℚ) ≤ 2 ^ 66 * (10 ^ 308)⁻¹ from mul_nonneg (by norm_num) (inv_nonneg.2 hT.le))
          rw [e] at this
          exact le_trans hb this
        have r1 : Binary64.rnd (f / pow10 308) ≤ tiny := by
          rw [← rnd_tiny]; exact Binary64.rnd_mono_all d1
        have r0 := Binary64.rnd_nonneg (div_nonneg hf hp0.le)
        refine ih (z + 308).natAbs (by omega) (z + 308) _ rfl (by omega) r0 ?_ ?_
        · exact le_trans r1 (le_trans tiny_bounds.2.2 (by norm_num))
        · intro _
          exact le_trans (div_le_self r0 (pow10_bounds _).2) r1

theorem dec_tiny {sg i f e : List Char} (hs : sg = [] ∨ sg = ['-']) (hi : IsInt i) (hf : IsFrac f) (he : IsExp e)
    (hlen : i.length + f.length < 2 ^ 30) (hu : |value sg i f e| < 10 ^ (-280 : ℤ)) :
    ∃ x : F64, dec (sg ++ i ++ f ++ e) = some x ∧ |x.val| ≤ tiny := by
  rw [number_text hs hi hf he, ofText]
  obtain ⟨h1, h2, -⟩ := significand (int_digits hi) (frac_digits hf)
  obtain ⟨-, i2, -⟩ := acc_spec (int_digits hi) 0 (by norm_num)
  obtain ⟨-, f2, -⟩ := acc_spec (frac_digits hf) (acc 0 i).1 (acc_spec (int_digits hi) 0 (by norm_num)).1
  have hfl : f.tail.length ≤ f.length := by rw [List.length_tail]; omega
  have hx0 : |((acc 0 i).2.2 - (acc (acc 0 i).1 f.tail).2.1 : ℤ)| < 2 ^ 30 := by rw [abs_lt]; constructor <;> omega
  generalize ((acc 0 i).2.2 - (acc (acc 0 i).1 f.tail).2.1 : ℤ) = x0 at *
  generalize (acc (acc 0 i).1 f.tail).1 = s at *
  have habs : |value sg i f e| = numeral (i ++ f.tail) * 10 ^ (expValue e - f.tail.length) := by
    have h0 : (0 : ℚ) ≤ numeral (i ++ f.tail) * 10 ^ (expValue e - f.tail.length) :=
      mul_nonneg (Nat.cast_nonneg _) (zpow_pos (by norm_num) _).le
    rw [value_sign _ _ _ _ hs, abs_mul, abs_of_nonneg h0]
    by_cases h : sg = [] <;> simp [h]
  have h2' : abs ((s : ℚ) * 10 ^ (x0 + expValue e) - |value sg i f e|) ≤ |value sg i f e| / 2 ^ 60 := by
    have hp : (0 : ℚ) < 10 ^ expValue e := zpow_pos (by norm_num) _
    have hV : |value sg i f e| = numeral (i ++ f.tail) * 10 ^ (-(f.tail.length : ℤ)) * 10 ^ expValue e := by
      rw [habs, mul_assoc, ← zpow_add₀ (by norm_num)]; congr 2; ring
    rw [hV, zpow_add₀ (by norm_num), ← mul_assoc, ← sub_mul, abs_mul, abs_of_pos hp, mul_div_right_comm]
    exact mul_le_mul_of_nonneg_right h2 hp.le
  have hV0 := abs_nonneg (value sg i f e)
  generalize |value sg i f e| = V at *
  rw [abs_le] at h2'
  have w2 : (s : ℚ) * 10 ^ (x0 + expValue e) ≤ 2 * 10 ^ (-280 : ℤ) := by
    have : V / 2 ^ 60 ≤ V := div_le_self hV0 (by norm_num)
    linarith
  have tb := tiny_bounds
  have w3 : 4 * ((s : ℚ) * 10 ^ (x0 + expValue e)) ≤ tiny := by linarith [tb.1]
  rw [abs_lt] at hx0
  have neg : s ≠ 0 → x0 + expValue e < 0 := by
    intro h0
    by_contra hc
    have hs1 : (1 : ℚ) ≤ s := by exact_mod_cast Nat.one_le_iff_ne_zero.2 h0
    have a : (1 : ℚ) ≤ 10 ^ (x0 + expValue e) := one_le_zpow₀ (by norm_num) (by omega)
    have b : (1 : ℚ) ≤ s * 10 ^ (x0 + expValue e) := one_le_mul_of_one_le_of_one_le hs1 a
    linarith [tb.2.2]
  have parts : ∀ z : ℤ, (s ≠ 0 → z < 0 ∧ (z.natAbs ≤ 308 → z = x0 + expValue e)) → ∃ x : F64, fromParts sg s z = some x ∧ |x.val| ≤ tiny := by
    intro z hz
    have : ∃ y, scale (Binary64.rnd s) z = some y ∧ 0 ≤ y ∧ y ≤ tiny := by
      by_cases h0 : s = 0
      · subst h0
        refine ⟨0, ?_, le_refl _, tiny_pos.le⟩
        rw [Nat.cast_zero, Binary64.rnd_zero]; exact scale_zero z
      · obtain ⟨z0, z1⟩ := hz h0
        have hs1 : (1 : ℚ) ≤ s := by exact_mod_cast Nat.one_le_iff_ne_zero.2 h0
        obtain ⟨r, hr, hr'⟩ := rnd_factor (le_trans one_normal hs1)
        have b := near_bounds hr' (by norm_num)
        have fb : Binary64.rnd (s : ℚ) ≤ 2 * s := by rw [hr]; nlinarith [b.2]
        have sb : (s : ℚ) ≤ 2 ^ 64 := by exact_mod_cast h1.le
        refine scale_tiny _ z _ rfl z0 (Binary64.rnd_nonneg (by linarith)) (le_trans fb (le_trans (mul_le_mul_of_nonneg_left sb (by norm_num)) (by norm_num))) ?_
        intro hk
        have zx := z1 hk
        have hp := pow10_bounds z.natAbs
        have hT : (0 : ℚ) < 10 ^ z.natAbs := pow_pos (by norm_num) _
        have e1 : (10 : ℚ) ^ (x0 + expValue e) = (10 ^ z.natAbs)⁻¹ := by
          rw [← zx, ← zpow_natCast, ← zpow_neg]; congr 1; omega
        rw [e1] at w3
        rw [div_le_iff₀ (by linarith [hp.2])]
        have t1 := mul_le_mul_of_nonneg_right w3 (show (0 : ℚ) ≤ 10 ^ z.natAbs / 2 by linarith)
        have t2 := mul_le_mul_of_nonneg_left hp.1 tiny_pos.le
        have t3 : 4 * ((s : ℚ) * (10 ^ z.natAbs)⁻¹) * (10 ^ z.natAbs / 2) = 2 * s := by field_simp; norm_num
        rw [t3] at t1
        linarith
    obtain ⟨y, hy, y0, y1⟩ := this
    rw [fromParts, hy]
    refine ⟨_, rfl, ?_⟩
    have : |y| ≤ tiny := by rw [abs_of_nonneg y0]; exact y1
    split
    · exact this
    · rw [abs_neg]; exact this
  rcases withExp_cases he sg s x0 with ⟨c1, c2⟩ | ⟨c1, c2⟩ | ⟨c1, c2⟩ | ⟨c1, c2⟩
  · rw [c2]
    rw [abs_lt] at c1
    refine parts _ fun h0 => ?_
    have := neg h0
    unfold saturate
    constructor <;> omega
  · rw [c2]; exact ⟨_, rfl, by simpa using tiny_pos.le⟩
  · exact absurd (neg c1.2) (by omega)
  · rw [c2]
    refine parts _ fun h0 => ?_
    have := neg h0
    constructor <;> omega

/-- No time up to 1e280 is refused for its number, and all are read with a relative error of at most 2^-50, apart from an absolute
error of 2^-899. -/
theorem c94_all {sg i f e : List Char} (hs : sg = [] ∨ sg = ['-']) (hi : IsInt i) (hf : IsFrac f) (he : IsExp e)
    (hlen : i.length + f.length < 2 ^ 30) (hu : |value sg i f e| ≤ 10 ^ (280 : ℤ)) :
    ∃ x : F64, (parse dec (sg ++ i ++ f ++ e)).bind (readF64 F64.ofInt) = some x ∧
      |x.val - value sg i f e| ≤ |value sg i f e| / 2 ^ 50 + 2 ^ (-899 : ℤ) := by
  by_cases hl : 10 ^ (-280 : ℤ) ≤ |value sg i f e|
  · obtain ⟨x, h, h'⟩ := c94_error hs hi hf he hlen hl hu
    exact ⟨x, h, le_trans h' (le_add_of_nonneg_right (zpow_pos (by norm_num) _).le)⟩
  · have hl' := not_le.1 hl
    obtain ⟨x, hx, hx'⟩ := dec_tiny hs hi hf he hlen hl'
    have e2 : (2 : ℚ) ^ (-899 : ℤ) = tiny * 2 := by
      unfold tiny; rw [show (-899 : ℤ) = -900 + 1 by norm_num, zpow_add₀ (by norm_num), zpow_one]
    have hV : |value sg i f e| ≤ tiny := by
      have := tiny_bounds.1
      have : (0 : ℚ) < 10 ^ (-280 : ℤ) := zpow_pos (by norm_num) _
      generalize (10 : ℚ) ^ (-280 : ℤ) = T at *
      linarith
    have hV0 : 0 ≤ |value sg i f e| / 2 ^ 50 := div_nonneg (abs_nonneg _) (by norm_num)
    have key : ∀ y : ℚ, |y| ≤ tiny → |y - value sg i f e| ≤ |value sg i f e| / 2 ^ 50 + 2 ^ (-899 : ℤ) := by
      intro y hy
      have := abs_sub y (value sg i f e)
      rw [e2]; linarith
    rcases field hs hi hf he hx with h | h
    · exact ⟨x, h, key _ hx'⟩
    · refine ⟨_, h, key _ ?_⟩
      have a := Binary64.rnd_mono_all (neg_le_of_abs_le hV)
      have b := Binary64.rnd_mono_all (le_of_abs_le hV)
      rw [Binary64.rnd_neg, rnd_tiny] at a
      rw [rnd_tiny] at b
      rw [abs_le]; exact ⟨a, b⟩

theorem big_bounds : (2 : ℚ) ^ (1024 : ℤ) * 8 ≤ 10 ^ (310 : ℤ) ∧ (2 : ℚ) ^ 65 * 10 ^ (289 : ℤ) ≤ 10 ^ (310 : ℤ) := by
  rw [show (1024 : ℤ) = (1024 : ℕ) by norm_num, show (310 : ℤ) = (310 : ℕ) by norm_num, show (289 : ℤ) = (289 : ℕ) by norm_num,
    zpow_natCast, zpow_natCast, zpow_natCast]
  constructor <;> norm_num

theorem dec_huge {sg i f e : List Char} (hs : sg = [] ∨ sg = ['-']) (hi : IsInt i) (hf : IsFrac f) (he : IsExp e)
    (hlen : i.length + f.length < 2 ^ 30) (hl : 10 ^ (310 : ℤ) ≤ |value sg i f e|) : dec (sg ++ i ++ f ++ e) = none := by
  rw [number_text hs hi hf he, ofText]
  obtain ⟨h1, h2, -⟩ := significand (int_digits hi) (frac_digits hf)
  obtain ⟨-, i2, -⟩ := acc_spec (int_digits hi) 0 (by norm_num)
  obtain ⟨-, f2, -⟩ := acc_spec (frac_digits hf) (acc 0 i).1 (acc_spec (int_digits hi) 0 (by norm_num)).1
  have hfl : f.tail.length ≤ f.length := by rw [List.length_tail]; omega
  have hx0 : |((acc 0 i).2.2 - (acc (acc 0 i).1 f.tail).2.1 : ℤ)| < 2 ^ 30 := by rw [abs_lt]; constructor <;> omega
  generalize ((acc 0 i).2.2 - (acc (acc 0 i).1 f.tail).2.1 : ℤ) = x0 at *
  generalize (acc (acc 0 i).1 f.tail).1 = s at *
  have habs : |value sg i f e| = numeral (i ++ f.tail) * 10 ^ (expValue e - f.tail.length) := by
    have h0 : (0 : ℚ) ≤ numeral (i ++ f.tail) * 10 ^ (expValue e - f.tail.length) :=
      mul_nonneg (Nat.cast_nonneg _) (zpow_pos (by norm_num) _).le
    rw [value_sign _ _ _ _ hs, abs_mul, abs_of_nonneg h0]
    by_cases h : sg = [] <;> simp [h]
  have h2' : abs ((s : ℚ) * 10 ^ (x0 + expValue e) - |value sg i f e|) ≤ |value sg i f e| / 2 ^ 60 := by
    have hp : (0 : ℚ) < 10 ^ expValue e := zpow_pos (by norm_num) _
    have hV : |value sg i f e| = numeral (i ++ f.tail) * 10 ^ (-(f.tail.length : ℤ)) * 10 ^ expValue e := by
      rw [habs, mul_assoc, ← zpow_add₀ (by norm_num)]; congr 2; ring
    rw [hV, zpow_add₀ (by norm_num), ← mul_assoc, ← sub_mul, abs_mul, abs_of_pos hp, mul_div_right_comm]
    exact mul_le_mul_of_nonneg_right h2 hp.le
  have hV0 := abs_nonneg (value sg i f e)
  generalize |value sg i f e| = V at *
  rw [abs_le] at h2'
  have w1 : V ≤ 2 * (s * 10 ^ (x0 + expValue e)) := by
    have : V / 2 ^ 60 ≤ V / 2 := div_le_div_of_nonneg_left hV0 (by norm_num) (by norm_num)
    linarith
  have w2 := le_trans hl w1
  obtain ⟨b1, b2⟩ := big_bounds
  have hT : (0 : ℚ) < 10 ^ (310 : ℤ) := zpow_pos (by norm_num) _
  rw [abs_lt] at hx0
  have s0 : s ≠ 0 := by
    rintro rfl
    rw [Nat.cast_zero, zero_mul, mul_zero] at w2
    linarith
  have hs1 : (1 : ℚ) ≤ s := by exact_mod_cast Nat.one_le_iff_ne_zero.2 s0
  have hx : 290 ≤ x0 + expValue e := by
    by_contra hc
    have a : (10 : ℚ) ^ (x0 + expValue e) ≤ 10 ^ (289 : ℤ) := zpow_le_zpow_right₀ (by norm_num) (by omega)
    have sb : (s : ℚ) < 2 ^ 64 := by exact_mod_cast h1
    have h289 : (0 : ℚ) < 10 ^ (289 : ℤ) := zpow_pos (by norm_num) _
    have m : (s : ℚ) * 10 ^ (x0 + expValue e) ≤ s * 10 ^ (289 : ℤ) := mul_le_mul_of_nonneg_left a (by linarith)
    have m' : (s : ℚ) * 10 ^ (289 : ℤ) < 2 ^ 64 * 10 ^ (289 : ℤ) := mul_lt_mul_of_pos_right sb h289
    rw [show (2 : ℚ) ^ 65 * 10 ^ (289 : ℤ) = 2 * (2 ^ 64 * 10 ^ (289 : ℤ)) by ring] at b2
    linarith
  obtain ⟨r, hr, hr'⟩ := rnd_factor (le_trans one_normal hs1)
  have b := near_bounds hr' (by norm_num)
  have fb : (s : ℚ) / 2 ≤ Binary64.rnd (s : ℚ) := by rw [hr]; nlinarith [b.1]
  have parts : ∀ z : ℤ, 290 ≤ z → (z.natAbs ≤ 308 → z = x0 + expValue e) → fromParts sg s z = none := by
    intro z z0 z1
    suffices h : scale (Binary64.rnd s) z = none by rw [fromParts, h]; rfl
    rw [scale]
    by_cases hk : z.natAbs ≤ 308
    · rw [if_pos hk, if_pos (by omega), if_neg]
      rw [not_lt]
      have zx := z1 hk
      have hp := pow10_bounds z.natAbs
      have e1 : (10 : ℚ) ^ (x0 + expValue e) = 10 ^ z.natAbs := by
        rw [← zx, ← zpow_natCast]; congr 1; omega
      rw [e1] at w2
      have hP : (0 : ℚ) < 10 ^ z.natAbs := pow_pos (by norm_num) _
      have m : (s : ℚ) / 2 * (10 ^ z.natAbs / 2) ≤ Binary64.rnd (s : ℚ) * pow10 z.natAbs :=
        mul_le_mul fb hp.1 (by linarith) (by linarith)
      have big : (2 : ℚ) ^ (1024 : ℤ) ≤ Binary64.rnd (s : ℚ) * pow10 z.natAbs := by
        refine le_trans ?_ m
        rw [show (s : ℚ) / 2 * (10 ^ z.natAbs / 2) = 2 * (s * 10 ^ z.natAbs) / 8 by ring, le_div_iff₀ (by norm_num)]
        exact le_trans b1 w2
      have rep : Binary64.rnd ((2 : ℚ) ^ (1024 : ℤ)) = 2 ^ (1024 : ℤ) :=
        Binary64.rnd_rep (zpow_pos (by norm_num) _).le ⟨1, 1024, by norm_num, by norm_num, by rw [Int.cast_one, one_mul]⟩
      have := Binary64.rnd_mono_all big
      rw [rep] at this
      refine le_trans (le_of_eq ?_) this
      rw [show (1024 : ℤ) = (1024 : ℕ) by norm_num, zpow_natCast]
    · rw [if_neg hk, if_neg (by linarith), if_pos (by omega)]
  rcases withExp_cases he sg s x0 with ⟨c1, c2⟩ | ⟨c1, c2⟩ | ⟨c1, c2⟩ | ⟨c1, c2⟩
  · rw [c2]
    rw [abs_lt] at c1
    apply parts <;> (unfold saturate; omega)
  · rcases c1 with c1 | c1
    · exact absurd c1 s0
    · omega
  · exact c2
  · rw [c2]
    apply parts <;> omega

/-- A number of 1e310 or more is refused: the trace file is not read. -/
theorem c94_refused {sg i f e : List Char} (hs : sg = [] ∨ sg = ['-']) (hi : IsInt i) (hf : IsFrac f) (he : IsExp e)
    (hlen : i.length + f.length < 2 ^ 30) (hl : 10 ^ (310 : ℤ) ≤ |value sg i f e|) : parse dec (sg ++ i ++ f ++ e) = none := by
  have hd := dec_huge hs hi hf he hlen hl
  have hnum : number dec (sg ++ i ++ f ++ e) = none := by
    have h := number_parts dec hs hi hf he [] (by intro c s h; simp at h)
    rw [List.append_nil] at h
    have big : f = [] → e = [] → 2 ^ 64 ≤ numeral i := by
      rintro rfl rfl
      have e1 : |value sg i [] []| = numeral i := by
        rw [value_sign _ _ _ _ hs, abs_mul]
        by_cases h : sg = [] <;> simp [h, expValue]
      rw [e1] at hl
      have : (2 : ℚ) ^ 64 ≤ 10 ^ (310 : ℤ) := by
        rw [show (310 : ℤ) = (310 : ℕ) by norm_num, zpow_natCast]; norm_num
      exact_mod_cast le_trans this hl
    rw [h, toNum, if_neg, if_neg, hd]
    · rfl
    · rintro ⟨h1, h2, -, -, h3⟩
      have := big h1 h2
      rw [natOf_eq] at h3; omega
    · rintro ⟨h1, h2, -, h3⟩
      have := big h1 h2
      rw [natOf_eq] at h3; omega
  obtain ⟨c, r, ht, hc⟩ : ∃ c r, sg ++ i ++ f ++ e = c :: r ∧ (c = '-' ∨ ('0' ≤ c ∧ c ≤ '9')) := by
    rcases hs with rfl | rfl
    · have hdig := int_digits hi
      cases hi with
      | zero => exact ⟨'0', _, rfl, .inr (hdig _ (by simp))⟩
      | pos c ds hc h => exact ⟨c, _, rfl, .inr (hdig _ (by simp))⟩
    · exact ⟨'-', _, rfl, .inl rfl⟩
  have ne : c ≠ 'n' ∧ c ≠ 't' ∧ c ≠ 'f' ∧ c ≠ '"' ∧ c ≠ '[' ∧ c ≠ '{' ∧ isBlank c = false := by
    rcases hc with rfl | ⟨h1, h2⟩
    · decide
    · have n1 : (48 : ℕ) ≤ c.toNat := h1
      have n2 : c.toNat ≤ 57 := h2
      refine ⟨?_, ?_, ?_, ?_, ?_, ?_, ?_⟩
      · rintro rfl; revert n2; decide
      · rintro rfl; revert n2; decide
      · rintro rfl; revert n2; decide
      · rintro rfl; revert n1; decide
      · rintro rfl; revert n2; decide
      · rintro rfl; revert n2; decide
      · rw [← Bool.not_eq_true, isBlank_iff]
        rintro (rfl | rfl | rfl | rfl) <;> revert n1 <;> decide
  rw [ht] at hnum ⊢
  have hskip : skip (c :: r) = c :: r := by simp [skip, List.dropWhile, ne.2.2.2.2.2.2]
  obtain ⟨m1, m2, m3, m4, m5, m6, -⟩ := ne
  unfold parse
  rw [hskip]
  unfold Text.value
  rw [if_neg m1, if_neg m2, if_neg m3, if_neg m4, if_neg m5, if_neg m6, hnum]
  rfl

/-- `c94_refused`: `-0.001e400` -/
example : parse dec (['-'] ++ ['0'] ++ ".001".toList ++ "e400".toList) = none := by
  have hf : IsFrac ".001".toList := .point _ _ (by unfold Digits; decide)
  have he : IsExp "e400".toList := .exp 'e' [] '4' "00".toList (.inl rfl) (.inl rfl) (by unfold Digits; decide)
  refine c94_refused (.inr rfl) .zero hf he (by decide) ?_
  have e1 : numeral (['0'] ++ ".001".toList.tail) = 1 := by decide
  have e2 : expValue "e400".toList - (".001".toList.tail.length : ℤ) = 397 := by decide +kernel
  rw [value_sign _ _ _ _ (.inr rfl), e1, e2, if_neg (by simp)]
  have hp : (0 : ℚ) < 10 ^ (397 : ℤ) := zpow_pos (by norm_num) _
  rw [abs_mul, Nat.cast_one, one_mul, abs_of_pos hp, abs_neg, abs_one, one_mul]
  exact zpow_le_zpow_right₀ (show (1 : ℚ) ≤ 10 by norm_num) (show (310 : ℤ) ≤ 397 by norm_num)

/-- `c94_all`: a fraction with an exponent far too small is a small time. -/
example : ∃ x : F64, (parse dec "-12.5e-99999999999".toList).bind (readF64 F64.ofInt) = some x ∧ |x.val| ≤ tiny := by
  refine ⟨⟨0⟩, ?_, by simpa using tiny_pos.le⟩
  have hi : IsInt ['1', '2'] := .pos _ _ (by decide) (by unfold Digits; decide)
  have hf : IsFrac ['.', '5'] := .point _ _ (by unfold Digits; decide)
  have he : IsExp "e-99999999999".toList := .exp 'e' ['-'] '9' "9999999999".toList (.inl rfl) (.inr (.inr rfl)) (by unfold Digits; decide)
  have hx : dec (['-'] ++ ['1', '2'] ++ ['.', '5'] ++ "e-99999999999".toList) = some ⟨0⟩ := by
    rw [number_text (.inr rfl) hi hf he, ofText]
    rw [show acc 0 ['1', '2'] = (12, 2, 0) by decide +kernel]
    rfl
  have hv : (parse dec (['-'] ++ ['1', '2'] ++ ['.', '5'] ++ "e-99999999999".toList)) = some (.num (.float ⟨0⟩)) := by
    rw [c79_reads]
    exact ⟨[], _, [], by intro c hc; simp at hc, .num _ _ _ (.float _ _ _ _ _ (.inr rfl) hi hf he (.inl (by simp)) hx),
      by intro c hc; simp at hc, by simp⟩
  show (parse dec (['-'] ++ ['1', '2'] ++ ['.', '5'] ++ "e-99999999999".toList)).bind (readF64 F64.ofInt) = _
  rw [hv]; rfl

example : ∃ x : F64, (parse dec (['-'] ++ ['1', '2'] ++ ['.', '5'] ++ "e-99999999999".toList)).bind (readF64 F64.ofInt) = some x ∧
    |x.val - value ['-'] ['1', '2'] ['.', '5'] "e-99999999999".toList| ≤
      |value ['-'] ['1', '2'] ['.', '5'] "e-99999999999".toList| / 2 ^ 50 + 2 ^ (-899 : ℤ) := by
  have hi : IsInt ['1', '2'] := .pos _ _ (by decide) (by unfold Digits; decide)
  have hf : IsFrac ['.', '5'] := .point _ _ (by unfold Digits; decide)
  have he : IsExp "e-99999999999".toList := .exp 'e' ['-'] '9' "9999999999".toList (.inl rfl) (.inr (.inr rfl)) (by unfold Digits; decide)
  refine c94_all (.inr rfl) hi hf he (by decide) ?_
  have e1 : numeral (['1', '2'] ++ ['.', '5'].tail) = 125 := by decide
  have e2 : expValue "e-99999999999".toList - (['.', '5'].tail.length : ℤ) ≤ 0 := by decide +kernel
  have p := zpow_le_one_of_nonpos₀ (show (1 : ℚ) ≤ 10 by norm_num) e2
  have p0 : (0 : ℚ) < 10 ^ (expValue "e-99999999999".toList - (['.', '5'].tail.length : ℤ)) := zpow_pos (by norm_num) _
  rw [value_sign _ _ _ _ (.inr rfl), e1, abs_mul, abs_of_pos (mul_pos (by norm_num) p0)]
  generalize (10 : ℚ) ^ (expValue "e-99999999999".toList - (['.', '5'].tail.length : ℤ)) = t at *
  have h280 : (1000 : ℚ) ≤ 10 ^ (280 : ℤ) := by
    rw [show (280 : ℤ) = (280 : ℕ) by norm_num, zpow_natCast]; norm_num
  rw [if_neg (by simp)]
  norm_num at h280 ⊢
  linarith

/-- A whole number of microseconds below 2^53 is read exactly, however it is written. -/
theorem c94_whole {sg i f e : List Char} (hs : sg = [] ∨ sg = ['-']) (hi : IsInt i) (hf : IsFrac f) (he : IsExp e)
    (hlen : f.length < 2 ^ 30) (hN : numeral (i ++ f.tail) < 2 ^ 53) (hx : |expValue e - f.tail.length| ≤ 22) {z : ℤ}
    (hz : |z| < 2 ^ 53) (hv : value sg i f e = z) :
    ∃ x : F64, (parse dec (sg ++ i ++ f ++ e)).bind (readF64 F64.ofInt) = some x ∧ x.val = z := by
  refine ⟨_, c94_exact hs hi hf he hlen hN hx, ?_⟩
  show Binary64.rnd (value sg i f e) = z
  rw [hv]
  rcases abs_cases z with ⟨a, b⟩ | ⟨a, b⟩
  · exact Binary64.rnd_rep (by exact_mod_cast b) ⟨z, 0, hz, by norm_num, by simp⟩
  · have h := Binary64.rnd_rep (x := ((-z : ℤ) : ℚ)) (by exact_mod_cast (by omega : (0 : ℤ) ≤ -z))
      ⟨-z, 0, by rw [abs_neg]; exact hz, by norm_num, by simp⟩
    push_cast at h
    rw [Binary64.rnd_neg] at h
    exact neg_injective h

/-- `c94_whole`: `15.00e2` is 1500. -/
example : ∃ x : F64, (parse dec ([] ++ ['1', '5'] ++ ".00".toList ++ "e2".toList)).bind (readF64 F64.ofInt) = some x ∧ x.val = (1500 : ℤ) := by
  have hi : IsInt ['1', '5'] := .pos _ _ (by decide) (by unfold Digits; decide)
  have hf : IsFrac ".00".toList := .point _ _ (by unfold Digits; decide)
  have he : IsExp "e2".toList := .exp 'e' [] '2' [] (.inl rfl) (.inl rfl) (by unfold Digits; decide)
  refine c94_whole (.inl rfl) hi hf he (by decide) (by decide) (by decide) (by norm_num) ?_
  have e1 : numeral (['1', '5'] ++ ".00".toList.tail) = 1500 := by decide
  have e2 : expValue "e2".toList - (".00".toList.tail.length : ℤ) = 0 := by decide +kernel
  rw [value_sign _ _ _ _ (.inl rfl), e1, e2]
  norm_num

end Verif.Trace.Ctf.Text.Decimal
