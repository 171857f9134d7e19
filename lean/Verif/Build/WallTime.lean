/-
C30: wall-clock times of a build profile (cmakeperf/src/output.rs:52-111).

Floating point: a non-negative finite `f32` is represented by its value in units of `2^-149` (the smallest positive
`f32`), a natural number; `rne A B` is IEEE 754 round-to-nearest-even of the rational `A / B` (same unit) to 24
significant bits, with the subnormal grid at the bottom. Overflow to infinity does not occur for the operations modelled
here (all results are at most about `2^64`). A `Duration` is its number of nanoseconds.
-/
import Mathlib.Tactic.Ring
import Mathlib.Tactic.NormNum
import Mathlib.Data.Nat.Log
import Mathlib.Tactic.Linarith

set_option autoImplicit false
set_option linter.unusedVariables false
set_option linter.unusedSimpArgs false

namespace Verif.Build

/-- `f32` values. `fin neg n` is `± n * 2^-149`. -/
inductive F32 where
  | nan
  | inf (neg : Bool)
  | fin (neg : Bool) (n : Nat)
  deriving DecidableEq

/-- The value 1 in units of `2^-149`. -/
def ONE : Nat := 2 ^ 149

/-- How many low bits a number of size `n` loses. -/
def lost (n : Nat) : Nat := Nat.log2 n - 23

/-- Round to nearest, ties to even, of `A / B` (in units of `2^-149`). -/
def rne (A B : Nat) : Nat :=
  let s := lost (A / B)
  let q := A / (B * 2 ^ s)
  let r := A % (B * 2 ^ s)
  (q + (if 2 * r > B * 2 ^ s ∨ (2 * r = B * 2 ^ s ∧ q % 2 = 1) then 1 else 0)) * 2 ^ s

/-- Largest `u64`. -/
def U64MAX : Nat := 2 ^ 64 - 1

/-- Largest `Duration`, in nanoseconds. -/
def DMAX : Nat := U64MAX * 1000000000 + 999999999

/-- output.rs:104: `u64::MAX as f32 + 0.999_999_999` -/
def threshold : Nat := rne (rne (U64MAX * ONE) 1 + rne (999999999 * ONE) 1000000000) 1

/-- output.rs:96-110 `wall_time()`, on the stored `wall_time_secs`. `Ok` durations in nanoseconds. -/
def wallTime (stored : Option F32) : Option (Except F32 Nat) :=
  match stored with
  | none => none
  | some (.nan) => some (.error .nan)
  | some (.inf neg) => some (.error (.inf neg))
  | some (.fin neg n) =>
    -- `secs_f32 < 0.0` (false for -0.0)
    if neg = true ∧ n ≠ 0 then some (.error (.fin neg n))
    else if n > threshold then some (.error (.fin neg n))
    else
      -- `secs_f32 as u64` truncates and saturates; `fract()` is exact; the product is rounded, then truncated
      let secs := min (n / ONE) U64MAX
      let nanos := min (rne (n % ONE * 1000000000) 1 / ONE) U64MAX
      some (.ok (min (secs * 1000000000 + nanos) DMAX))

/-- `Duration::as_secs_f32`: `(secs as f32) + (nanos as f32) / (NANOS_PER_SEC as f32)` -/
def asSecsF32 (d : Nat) : F32 :=
  .fin false (rne (rne (d / 1000000000 * ONE) 1 + rne (rne (d % 1000000000 * ONE) 1) 1000000000) 1)

/-- output.rs:70-80 `UnitProfile::new` -/
def storedTime (d : Option Nat) : Option F32 := d.map asSecsF32

/-! ## Rounding lemmas -/

theorem rne_error (A B : Nat) (hB : 0 < B) :
    2 * (rne A B * B) ≤ 2 * A + B * 2 ^ lost (A / B) ∧ 2 * A ≤ 2 * (rne A B * B) + B * 2 ^ lost (A / B) := by
  unfold rne
  simp only
  generalize hs : 2 ^ lost (A / B) = P
  have hP : 0 < P := by rw [← hs]; positivity
  have hd := Nat.div_add_mod A (B * P)
  have hm := Nat.mod_lt A (Nat.mul_pos hB hP)
  generalize A / (B * P) = q at hd ⊢
  generalize A % (B * P) = r at hd hm ⊢
  have e1 : (q + 1) * P * B = B * P * q + B * P := by ring
  have e0 : (q + 0) * P * B = B * P * q := by ring
  split
  · rename_i h
    rw [e1]
    constructor <;> omega
  · rename_i h
    rw [e0]
    have : 2 * r ≤ B * P := by
      by_contra hc; exact h (Or.inl (by omega))
    constructor <;> omega

theorem lost_le (n k : Nat) (h : n < 2 ^ k) : lost n ≤ k - 24 := by
  unfold lost
  by_cases hn : n = 0
  · subst hn; simp [Nat.log2]
  · have : Nat.log2 n < k := (Nat.log2_lt hn).2 h
    omega

theorem rne_le_pow (A B k : Nat) (hB : 0 < B) (h : A < B * 2 ^ k) : rne A B ≤ 2 ^ k := by
  have hn : A / B < 2 ^ k := Nat.div_lt_of_lt_mul h
  have hl := lost_le _ _ hn
  unfold rne
  simp only
  generalize lost (A / B) = s at hl ⊢
  have hsk : s ≤ k := by omega
  have hq : A / (B * 2 ^ s) < 2 ^ (k - s) := by
    apply Nat.div_lt_of_lt_mul
    rw [Nat.mul_assoc, ← Nat.pow_add, Nat.add_sub_cancel' hsk]
    exact h
  calc _ ≤ 2 ^ (k - s) * 2 ^ s := by
        apply Nat.mul_le_mul_right
        split <;> omega
    _ = 2 ^ k := by rw [← Nat.pow_add, Nat.sub_add_cancel hsk]

theorem threshold_eq : threshold = 2 ^ 213 := by decide +kernel

theorem one_pos : 0 < ONE := by unfold ONE; positivity

theorem arith (a b f R ρ W P N d : Nat) (hN : N = a + f) (hR : b + ρ = R) (hρ : ρ < W) (hP : P ≤ 64 * W)
    (e1 : 2 * R ≤ 2 * f + P) (e2 : 2 * f ≤ 2 * R + P) (hd : d = a + b) : d ≤ N + 33 * W ∧ N ≤ d + 33 * W := by omega

/-- The nanosecond part computed from the fraction `F / 2^149`. -/
theorem nanos_bounds (F : Nat) (hF : F < ONE) : ∃ P, P ≤ 64 * ONE ∧
    2 * rne (F * 1000000000) 1 ≤ 2 * (F * 1000000000) + P ∧ 2 * (F * 1000000000) ≤ 2 * rne (F * 1000000000) 1 + P ∧
    rne (F * 1000000000) 1 / ONE ≤ 2 ^ 30 := by
  have hprod : F * 1000000000 < 2 ^ 179 := by
    calc F * 1000000000 < ONE * 1000000000 := Nat.mul_lt_mul_of_pos_right hF (by norm_num)
      _ ≤ 2 ^ 179 := by norm_num [ONE]
  have hl := lost_le _ _ (show F * 1000000000 / 1 < 2 ^ 179 by rwa [Nat.div_one])
  have herr := rne_error (F * 1000000000) 1 (by norm_num)
  rw [Nat.one_mul, Nat.mul_one] at herr
  refine ⟨2 ^ lost (F * 1000000000 / 1), ?_, herr.1, herr.2, ?_⟩
  · calc 2 ^ lost (F * 1000000000 / 1) ≤ 2 ^ (179 - 24) := Nat.pow_le_pow_right (by norm_num) hl
      _ = 64 * ONE := by norm_num [ONE]
  · have hrb : rne (F * 1000000000) 1 ≤ 2 ^ 179 := rne_le_pow _ 1 179 (by norm_num) (by rwa [Nat.one_mul])
    calc rne (F * 1000000000) 1 / ONE ≤ 2 ^ 179 / ONE := Nat.div_le_div_right hrb
      _ ≤ 2 ^ 30 := by norm_num [ONE]

/-! ## C30 -/

/-- **C30.** For every stored value:
1. absent iff the column is absent;
2. NaN, infinities, negative values and values above 2^64 seconds are reported raw;
3. every other value below 2^64 seconds gives a duration within 33 ns of the value (the product by 10^9 is rounded to 24
   bits, so it is not always the truncation); 2^64 seconds itself gives the largest whole number of seconds, one less. -/
theorem c30_wall_time (stored : Option F32) :
    (wallTime stored = none ↔ stored = none) ∧
    (∀ x, stored = some x → (x = .nan ∨ (∃ neg, x = .inf neg) ∨ (∃ n, n ≠ 0 ∧ x = .fin true n) ∨
        (∃ neg n, 2 ^ 64 * ONE < n ∧ x = .fin neg n)) → wallTime stored = some (.error x)) ∧
    (∀ neg n, stored = some (.fin neg n) → n < 2 ^ 64 * ONE → (neg = true → n = 0) →
      ∃ d, wallTime stored = some (.ok d) ∧ d ≤ DMAX ∧
        d * ONE ≤ n * 1000000000 + 33 * ONE ∧ n * 1000000000 ≤ d * ONE + 33 * ONE) ∧
    (stored = some (.fin false (2 ^ 64 * ONE)) → wallTime stored = some (.ok (U64MAX * 1000000000))) := by
  have hthr : threshold = 2 ^ 64 * ONE := by rw [threshold_eq]; norm_num [ONE]
  refine ⟨?_, ?_, ?_, ?_⟩
  · cases stored with
    | none => simp [wallTime]
    | some x =>
      cases x with
      | nan => simp [wallTime]
      | inf neg => simp [wallTime]
      | fin neg n => simp only [wallTime]; split <;> [simp; (split <;> simp)]
  · intro x hx h
    subst hx
    rcases h with rfl | ⟨neg, rfl⟩ | ⟨n, hn, rfl⟩ | ⟨neg, n, hn, rfl⟩
    · rfl
    · rfl
    · simp [wallTime, hn]
    · simp only [wallTime]
      split
      · rfl
      · rw [if_pos (by rw [hthr]; exact hn)]
  · intro neg n hst hlt hneg
    subst hst
    simp only [wallTime]
    rw [if_neg (by rintro ⟨h1, h2⟩; exact h2 (hneg h1)), if_neg (by rw [hthr]; exact Nat.not_lt.2 (Nat.le_of_lt hlt))]
    refine ⟨_, rfl, Nat.min_le_right _ _, ?_⟩
    obtain ⟨P, hP, e1, e2, hT⟩ := nanos_bounds (n % ONE) (Nat.mod_lt _ one_pos)
    have hdm := Nat.div_add_mod n ONE
    have hRd := Nat.div_add_mod (rne (n % ONE * 1000000000) 1) ONE
    have hRm := Nat.mod_lt (rne (n % ONE * 1000000000) 1) one_pos
    generalize rne (n % ONE * 1000000000) 1 = R at *
    have hS : n / ONE ≤ U64MAX := by
      have : n / ONE < 2 ^ 64 := Nat.div_lt_of_lt_mul (by rwa [Nat.mul_comm])
      unfold U64MAX; omega
    have hT' : R / ONE ≤ U64MAX := le_trans hT (by norm_num [U64MAX])
    rw [Nat.min_eq_left hS, Nat.min_eq_left hT']
    have hfinal := arith (n / ONE * ONE * 1000000000) (R / ONE * ONE) (n % ONE * 1000000000) R (R % ONE) ONE P
      (n * 1000000000) ((n / ONE * 1000000000 + R / ONE) * ONE)
      (by conv => lhs; rw [← hdm]
          ring)
      (by rw [Nat.mul_comm]; exact hRd) hRm hP e1 e2 (by ring)
    by_cases hsat : n / ONE * 1000000000 + R / ONE ≤ DMAX
    · rw [Nat.min_eq_left hsat]; exact hfinal
    · rw [Nat.min_eq_right (Nat.le_of_lt (Nat.not_le.1 hsat))]
      constructor
      · exact le_trans (Nat.mul_le_mul_right _ (Nat.le_of_lt (Nat.not_le.1 hsat))) hfinal.1
      · have h1 : n * 1000000000 ≤ 2 ^ 64 * ONE * 1000000000 := Nat.mul_le_mul_right _ (Nat.le_of_lt hlt)
        have h2 : 2 ^ 64 * ONE * 1000000000 = DMAX * ONE + ONE := by
          have h4 : DMAX + 1 = 2 ^ 64 * 1000000000 := by decide +kernel
          calc 2 ^ 64 * ONE * 1000000000 = 2 ^ 64 * 1000000000 * ONE := by ac_rfl
            _ = (DMAX + 1) * ONE := by rw [h4]
            _ = DMAX * ONE + ONE := by rw [Nat.add_mul, Nat.one_mul]
        have h3 : ONE ≤ 33 * ONE := Nat.le_mul_of_pos_left _ (by norm_num)
        exact le_trans (h2 ▸ h1) (Nat.add_le_add_left h3 _)
  · intro hst
    subst hst
    decide +kernel

/-- **C30, whole seconds.** When the fraction of a second is too small to matter (e.g. whole numbers of seconds), the
result is exact. -/
theorem c30_whole_seconds (k : Nat) (hk : k < 2 ^ 64) :
    wallTime (some (.fin false (k * ONE))) = some (.ok (k * 1000000000)) := by
  have hthr : threshold = 2 ^ 64 * ONE := by rw [threshold_eq]; norm_num [ONE]
  simp only [wallTime]
  rw [if_neg (by simp), if_neg (by rw [hthr]; exact Nat.not_lt.2 (Nat.mul_le_mul_right _ (Nat.le_of_lt hk)))]
  rw [Nat.mul_div_cancel _ one_pos, Nat.mul_mod_left, Nat.zero_mul]
  have h0 : rne 0 1 = 0 := by decide +kernel
  have hk' : k ≤ U64MAX := by unfold U64MAX; omega
  rw [h0, Nat.zero_div, Nat.min_eq_left hk', Nat.zero_min, Nat.add_zero, Nat.min_eq_left]
  calc k * 1000000000 ≤ U64MAX * 1000000000 := Nat.mul_le_mul_right _ hk'
    _ ≤ DMAX := Nat.le_add_right _ _

/-- **C30, what is written can be read.** Every wall-clock time stored by the measurement reads back as a valid
duration. -/
theorem c30_written_times_valid (d : Nat) (hd : d ≤ DMAX) : ∃ d', wallTime (storedTime (some d)) = some (.ok d') := by
  have hthr : threshold = 2 ^ 64 * ONE := by rw [threshold_eq]; norm_num [ONE]
  have hsecs : d / 1000000000 < 2 ^ 64 := by
    apply Nat.div_lt_of_lt_mul
    unfold DMAX U64MAX at hd
    omega
  have hS : rne (d / 1000000000 * ONE) 1 ≤ 2 ^ 213 := by
    apply rne_le_pow _ 1 213 (by norm_num)
    calc d / 1000000000 * ONE < 2 ^ 64 * ONE := Nat.mul_lt_mul_of_pos_right hsecs one_pos
      _ = 1 * 2 ^ 213 := by norm_num [ONE]
  have hN : rne (d % 1000000000 * ONE) 1 ≤ 2 ^ 179 := by
    apply rne_le_pow _ 1 179 (by norm_num)
    calc d % 1000000000 * ONE < 1000000000 * ONE :=
          Nat.mul_lt_mul_of_pos_right (Nat.mod_lt _ (by norm_num)) one_pos
      _ ≤ 1 * 2 ^ 179 := by norm_num [ONE]
  have hQ : rne (rne (d % 1000000000 * ONE) 1) 1000000000 ≤ 2 ^ 150 := by
    apply rne_le_pow _ _ 150 (by norm_num)
    calc rne (d % 1000000000 * ONE) 1 ≤ 2 ^ 179 := hN
      _ < 1000000000 * 2 ^ 150 := by norm_num
  have hsum : rne (rne (d / 1000000000 * ONE) 1 + rne (rne (d % 1000000000 * ONE) 1) 1000000000) 1 ≤ 2 ^ 213 := by
    generalize hA : rne (d / 1000000000 * ONE) 1 + rne (rne (d % 1000000000 * ONE) 1) 1000000000 = A
    have hAle : A ≤ 2 ^ 213 + 2 ^ 150 := by rw [← hA]; exact Nat.add_le_add hS hQ
    by_cases hlt : A < 2 ^ 213
    · exact rne_le_pow A 1 213 (by norm_num) (by rwa [Nat.one_mul])
    · have hge : 2 ^ 213 ≤ A := Nat.not_lt.1 hlt
      have hlog : Nat.log2 A = 213 := by
        have hne : A ≠ 0 := by
          intro h; rw [h] at hge; exact absurd hge (by norm_num)
        apply Nat.le_antisymm
        · have : Nat.log2 A < 214 := (Nat.log2_lt hne).2 (lt_of_le_of_lt hAle (by norm_num))
          omega
        · exact (Nat.le_log2 hne).2 hge
      obtain ⟨r, hr⟩ := Nat.exists_eq_add_of_le hge
      have hr' : r ≤ 2 ^ 150 := by
        have : 2 ^ 213 + r ≤ 2 ^ 213 + 2 ^ 150 := hr ▸ hAle
        exact Nat.le_of_add_le_add_left this
      unfold rne lost
      simp only [Nat.div_one, hlog, Nat.one_mul]
      have hrlt : r < 2 ^ 190 := lt_of_le_of_lt hr' (by norm_num)
      have hq : A / 2 ^ (213 - 23) = 2 ^ 23 := by
        rw [hr, show (2 : Nat) ^ 213 = 2 ^ 190 * 2 ^ 23 by norm_num, show 213 - 23 = 190 by norm_num,
          Nat.mul_add_div (by norm_num), Nat.div_eq_of_lt hrlt, Nat.add_zero]
      have hm : A % 2 ^ (213 - 23) = r := by
        rw [hr, show (2 : Nat) ^ 213 = 2 ^ 190 * 2 ^ 23 by norm_num, show 213 - 23 = 190 by norm_num,
          Nat.mul_add_mod, Nat.mod_eq_of_lt hrlt]
      rw [hq, hm, if_neg]
      · norm_num
      · have : 2 * r < 2 ^ (213 - 23) := lt_of_le_of_lt (Nat.mul_le_mul_left 2 hr') (by norm_num)
        rintro (h | ⟨h, -⟩)
        · exact absurd h (Nat.not_lt.2 (Nat.le_of_lt this))
        · exact absurd h (Nat.ne_of_lt this)
  simp only [storedTime, Option.map_some, asSecsF32, wallTime]
  rw [if_neg (by simp), if_neg]
  · exact ⟨_, rfl⟩
  · rw [hthr, show 2 ^ 64 * ONE = 2 ^ 213 by norm_num [ONE]]
    exact Nat.not_lt.2 hsum

theorem lost_bound (A B : Nat) (hB : 0 < B) : 2 ^ 23 * (B * 2 ^ lost (A / B)) ≤ A + 2 ^ 23 * B := by
  unfold lost
  by_cases h : Nat.log2 (A / B) ≤ 23
  · rw [Nat.sub_eq_zero_of_le h]; simp
  · have hne : A / B ≠ 0 := by
      intro h0; rw [h0] at h; exact h (by decide)
    have h1 : 2 ^ Nat.log2 (A / B) ≤ A / B := (Nat.le_log2 hne).1 (Nat.le_refl _)
    have h2 : 2 ^ 23 * 2 ^ (Nat.log2 (A / B) - 23) = 2 ^ Nat.log2 (A / B) := by
      rw [← Nat.pow_add]; congr 1; omega
    calc 2 ^ 23 * (B * 2 ^ (Nat.log2 (A / B) - 23)) = B * (2 ^ 23 * 2 ^ (Nat.log2 (A / B) - 23)) := by ac_rfl
      _ = B * 2 ^ Nat.log2 (A / B) := by rw [h2]
      _ ≤ B * (A / B) := Nat.mul_le_mul_left _ h1
      _ ≤ A := Nat.mul_div_le A B
      _ ≤ _ := Nat.le_add_right _ _

theorem arith2 (a b S N Q T D P1 P2 P3 P4 W : Nat) (hD : D = 1000000000 * a + b)
    (s1 : 2 * S ≤ 2 * a + P1) (s2 : 2 * a ≤ 2 * S + P1) (s3 : 2 ^ 23 * P1 ≤ a + 2 ^ 23)
    (n1 : 2 * N ≤ 2 * b + P2) (n2 : 2 * b ≤ 2 * N + P2) (n3 : 2 ^ 23 * P2 ≤ b + 2 ^ 23)
    (q1 : 2 * (Q * 1000000000) ≤ 2 * N + P3) (q2 : 2 * N ≤ 2 * (Q * 1000000000) + P3)
    (q3 : 2 ^ 23 * P3 ≤ N + 2 ^ 23 * 1000000000)
    (t1 : 2 * T ≤ 2 * (S + Q) + P4) (t2 : 2 * (S + Q) ≤ 2 * T + P4) (t3 : 2 ^ 23 * P4 ≤ S + Q + 2 ^ 23)
    (hW : 2 ^ 80 ≤ W) : 2 ^ 22 * (T * 1000000000) ≤ 2 ^ 22 * D + D + W ∧ 2 ^ 22 * D ≤ 2 ^ 22 * (T * 1000000000) + D + W := by
  omega

/-- **C30, accuracy of what is written.** A wall-clock time that goes through the CSV file comes back within `d / 2^22`
(single precision) plus 34 ns of the measured time `d`, both in nanoseconds. -/
theorem c30_written_accuracy (d : Nat) (hd : d ≤ DMAX) (d' : Nat) (h : wallTime (storedTime (some d)) = some (.ok d')) :
    2 ^ 22 * d' ≤ 2 ^ 22 * d + d + 2 ^ 22 * 34 ∧ 2 ^ 22 * d ≤ 2 ^ 22 * d' + d + 2 ^ 22 * 34 := by
  have hthr : threshold = 2 ^ 64 * ONE := by rw [threshold_eq]; norm_num [ONE]
  have hacc : ∃ T, asSecsF32 d = .fin false T ∧ 2 ^ 22 * (T * 1000000000) ≤ 2 ^ 22 * (d * ONE) + d * ONE + ONE ∧
      2 ^ 22 * (d * ONE) ≤ 2 ^ 22 * (T * 1000000000) + d * ONE + ONE := by
    refine ⟨_, rfl, ?_⟩
    have hdm := Nat.div_add_mod d 1000000000
    have es := rne_error (d / 1000000000 * ONE) 1 (by norm_num)
    have ls := lost_bound (d / 1000000000 * ONE) 1 (by norm_num)
    have en := rne_error (d % 1000000000 * ONE) 1 (by norm_num)
    have ln := lost_bound (d % 1000000000 * ONE) 1 (by norm_num)
    generalize hS : rne (d / 1000000000 * ONE) 1 = S at *
    generalize hN : rne (d % 1000000000 * ONE) 1 = N at *
    have eq := rne_error N 1000000000 (by norm_num)
    have lq := lost_bound N 1000000000 (by norm_num)
    generalize hQ : rne N 1000000000 = Q at *
    have et := rne_error (S + Q) 1 (by norm_num)
    have lt := lost_bound (S + Q) 1 (by norm_num)
    generalize hT : rne (S + Q) 1 = T at *
    simp only [Nat.one_mul, Nat.mul_one] at es ls en ln et lt
    exact arith2 (d / 1000000000 * ONE) (d % 1000000000 * ONE) S N Q T (d * ONE) _ _ _ _ ONE
      (by rw [← Nat.mul_assoc, ← Nat.add_mul, hdm]) es.1 es.2 ls en.1 en.2 ln eq.1 eq.2 lq et.1 et.2 lt (by norm_num [ONE])
  obtain ⟨T, hT, h1, h2⟩ := hacc
  simp only [storedTime, Option.map_some, hT] at h
  have hTle : T ≤ 2 ^ 64 * ONE := by
    by_contra hc
    have := (c30_wall_time (some (.fin false T))).2.1 _ rfl (Or.inr (Or.inr (Or.inr ⟨false, T, Nat.not_le.1 hc, rfl⟩)))
    rw [this] at h; cases h
  have key : d' * ONE ≤ T * 1000000000 + 33 * ONE ∧
      (T * 1000000000 ≤ d' * ONE + 33 * ONE ∨ (d' = U64MAX * 1000000000)) := by
    rcases Nat.lt_or_eq_of_le hTle with hlt | heq
    · obtain ⟨d0, e1, -, e2, e3⟩ := (c30_wall_time (some (.fin false T))).2.2.1 false T rfl hlt (by simp)
      rw [e1] at h; cases h
      exact ⟨e2, Or.inl e3⟩
    · have e1 := (c30_wall_time (some (.fin false T))).2.2.2 (by rw [heq])
      rw [e1] at h; cases h
      refine ⟨?_, Or.inr rfl⟩
      rw [heq]
      have : U64MAX * 1000000000 * ONE ≤ 2 ^ 64 * ONE * 1000000000 := by norm_num [U64MAX, ONE]
      exact le_trans this (Nat.le_add_right _ _)
  have hW := one_pos
  have hDMAX : DMAX = 18446744073709551615999999999 := by decide +kernel
  constructor
  · have : (2 ^ 22 * d') * ONE ≤ (2 ^ 22 * d + d + 2 ^ 22 * 34) * ONE := by
      have e := key.1
      have r1 : (2 ^ 22 * d') * ONE = 2 ^ 22 * (d' * ONE) := by ac_rfl
      have r2 : (2 ^ 22 * d + d + 2 ^ 22 * 34) * ONE = 2 ^ 22 * (d * ONE) + d * ONE + 2 ^ 22 * 34 * ONE := by
        rw [Nat.add_mul, Nat.add_mul]; ac_rfl
      rw [r1, r2]
      generalize d' * ONE = x at *
      generalize d * ONE = y at *
      generalize ONE = W at *
      omega
    exact Nat.le_of_mul_le_mul_right this hW
  · rcases key.2 with e | e
    · have : (2 ^ 22 * d) * ONE ≤ (2 ^ 22 * d' + d + 2 ^ 22 * 34) * ONE := by
        have r1 : (2 ^ 22 * d) * ONE = 2 ^ 22 * (d * ONE) := by ac_rfl
        have r2 : (2 ^ 22 * d' + d + 2 ^ 22 * 34) * ONE = 2 ^ 22 * (d' * ONE) + d * ONE + 2 ^ 22 * 34 * ONE := by
          rw [Nat.add_mul, Nat.add_mul]; ac_rfl
        rw [r1, r2]
        generalize d' * ONE = x at *
        generalize d * ONE = y at *
        generalize ONE = W at *
        omega
      exact Nat.le_of_mul_le_mul_right this hW
    · rw [hDMAX] at hd
      have hU : U64MAX * 1000000000 = 18446744073709551615000000000 := by decide +kernel
      rw [hU] at e
      omega

/-- Non-vacuity: the largest duration, and 12.3456789 s. -/
example : wallTime (storedTime (some DMAX)) = some (.ok (U64MAX * 1000000000)) ∧
    wallTime (storedTime (some 12345678900)) = some (.ok 12345679296) := by constructor <;> decide +kernel

/-- The result is not always the truncation to nanoseconds: just below one second the code gives 999999936 ns, while
truncation would give 999999940 ns. -/
theorem c30_not_truncation : wallTime (some (.fin false ((2 ^ 24 - 1) * 2 ^ 125))) = some (.ok 999999936) ∧
    (2 ^ 24 - 1) * 2 ^ 125 * 1000000000 / ONE = 999999940 := by constructor <;> decide +kernel

/-- Non-vacuity: 1.5 s. -/
example : wallTime (some (.fin false (3 * 2 ^ 148))) = some (.ok 1500000000) := by decide +kernel

end Verif.Build
