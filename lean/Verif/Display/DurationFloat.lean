/-
C33 in the arithmetic of the program: `display_duration` (src/ui/display/duration.rs) with every
operation rounded to IEEE 754 binary64, instead of the exact rationals of `Verif.Display.Duration`.
-/
import Verif.Display.Duration
import Verif.Tree.Binary64

set_option autoImplicit false
set_option linter.unusedVariables false
set_option linter.unusedSimpArgs false
set_option linter.unusedTactic false

namespace Verif.Display.DurationFloat

open Verif.Display.Duration (Tok Force Shows)
open Verif.Binary64

/-! ### The code -/

/-! clang-time-trace/src/ctf/mod.rs 125-138: the units are exact binary64 integers. -/
abbrev ms : ℚ := 1000
abbrev sec : ℚ := 1000000
abbrev minute : ℚ := 60000000
abbrev hour : ℚ := 3600000000
abbrev day : ℚ := 86400000000

/-- src/ui/display/duration.rs 18 and 21: `23.0 * HOUR + 59.0 * MINUTE + 59.995 * SECOND`. -/
def tDay : ℚ := rnd (rnd (rnd (23 * hour) + rnd (59 * minute)) + rnd (rnd (59995 / 1000) * sec))
/-- src/ui/display/duration.rs 27 and 30: `59.0 * MINUTE + 59.995 * SECOND`. -/
def tHour : ℚ := rnd (rnd (59 * minute) + rnd (rnd (59995 / 1000) * sec))
/-- src/ui/display/duration.rs 40 and 43: `59.995 * SECOND`. -/
def tMin : ℚ := rnd (rnd (59995 / 1000) * sec)
/-- src/ui/display/duration.rs 53: `0.999995 * SECOND`. -/
def tSec : ℚ := rnd (rnd (999995 / 1000000) * sec)

/-- One piece of output, as `Duration.Tok` but with signs: `int n pad s` is `{n}` or `{n:02}` of a
whole float followed by `s`; `cents c pad s` is `c` hundredths written by `{:.2}` or `{:05.2}`;
`raw q s` is `{}` of a float. Simplification: a negative value that rounds to zero hundredths would
be written `-0.00`, here it is `cents 0`. -/
inductive TokF where
  | int (n : ℤ) (pad : Bool) (suffix : String)
  | cents (c : ℤ) (pad : Bool) (suffix : String)
  | raw (q : ℚ) (suffix : String)
deriving DecidableEq

/-- Pieces without signs. -/
def ofTok : Tok → TokF
  | .int n p s => .int n p s
  | .cents c p s => .cents c p s
  | .raw q s => .raw q s

/-- src/ui/display/duration.rs 13-63: `display_duration_impl` on binary64 numbers. The recursion is
bounded by `fuel` (`none` when it runs out). `floor` and `{:.2}` of a binary64 number are exact. -/
def implF : (fuel : Nat) → (d : ℚ) → Option Force → Option (List TokF)
  | 0, _, _ => none
  | fuel + 1, d, force =>
    if d ≥ tDay then
      let days := ⌊rnd (d / day)⌋
      let rem := rnd (d - rnd (days * day))
      let (days, rem) := if rem ≥ tDay then (⌊rnd (days + 1)⌋, 0) else (days, rem)
      (implF fuel rem (some .hour)).map (.int days false "d " :: ·)
    else if force = some .hour ∨ d ≥ tHour then
      let hours := ⌊rnd (d / hour)⌋
      let rem := rnd (d - rnd (hours * hour))
      let (hours, rem) := if rem ≥ tHour then (⌊rnd (hours + 1)⌋, 0) else (hours, rem)
      (implF fuel rem (some .minute)).map (.int hours (force = some .hour) ":" :: ·)
    else if force = some .minute ∨ d ≥ tMin then
      let minutes := ⌊rnd (d / minute)⌋
      let rem := rnd (d - rnd (minutes * minute))
      let (minutes, rem) := if rem ≥ tMin then (⌊rnd (minutes + 1)⌋, 0) else (minutes, rem)
      (implF fuel rem (some .second)).map (.int minutes (force = some .minute) ":" :: ·)
    else if d ≥ tSec ∨ force = some .second then
      if force = some .second then some [.cents (rne (rnd (d / sec) * 100)) true ""]
      else some [.cents (rne (rnd (d / sec) * 100)) false "s"]
    else if d ≥ ms then some [.cents (rne (rnd (d / ms) * 100)) false "ms"]
    else some [.raw (rnd (d / 1)) "µs"]

/-- src/ui/display/duration.rs 7-9: `display_duration`. -/
def displayDurationF (d : ℚ) : Option (List TokF) := implF 4 d none

/-! ### Proofs -/

theorem tMin_eq : tMin = 59995000 := by decide +kernel
theorem tHour_eq : tHour = 3599995000 := by decide +kernel
theorem tDay_eq : tDay = 86399995000 := by decide +kernel
theorem tSec_eq : tSec = 999995 := by decide +kernel

/-- Two decimals of a non-negative number below a whole number of hundredths and a half. -/
theorem rne_le {y : ℚ} {n : ℤ} (h : y < n + 1 / 2) : rne y ≤ n := by
  have := (abs_le.1 (rne_err y)).2
  have h2 : (rne y : ℚ) < n + 1 := by linarith
  have : rne y < n + 1 := by exact_mod_cast h2
  omega

theorem rne_ge' {y : ℚ} {n : ℤ} (h : n - 1 / 2 < y) : n ≤ rne y := by
  have := (abs_le.1 (rne_err y)).1
  have h2 : (n : ℚ) < rne y + 1 := by linarith
  have : n < rne y + 1 := by exact_mod_cast h2
  omega

theorem rne_nonneg {y : ℚ} (h : 0 ≤ y) : 0 ≤ rne y := le_trans (Int.floor_nonneg.2 h) (rne_ge y)

/-- The last place of a number below `2^53` is at most 1. -/
theorem expo_small {d : ℚ} (hd : 0 ≤ d) (h : d < 2 ^ (53 : ℕ)) : expo d ≤ 0 := by
  rcases hd.eq_or_lt with rfl | hd
  · simp [expo]
  · have := expo_lt hd (k := 53) (by exact_mod_cast h) (by norm_num)
    linarith

/-- Integers are multiples of the last place of any number below `2^53`. -/
theorem mult_small {d : ℚ} (hd : 0 ≤ d) (h : d < 2 ^ (53 : ℕ)) (t : ℤ) :
    ∃ z : ℤ, (t : ℚ) = z * 2 ^ expo d := by
  obtain ⟨j, hj⟩ := Int.eq_ofNat_of_zero_le (neg_nonneg.2 (expo_small hd h))
  refine ⟨t * 2 ^ j, ?_⟩
  have : expo d = -(j : ℤ) := by omega
  rw [this, zpow_neg, zpow_natCast]; push_cast; field_simp

/-- Seconds or milliseconds: the hundredths written for `d / u` when `d` is below the bound `t`. -/
theorem cents_spec {d u : ℚ} (hd : 0 ≤ d) (hr : Rep d) (hu : 1 ≤ u) (hu' : u ≤ 2 ^ (40 : ℕ)) (t : ℤ)
    (ht : 1 ≤ t) (ht' : (t : ℚ) ≤ 2 ^ (53 : ℕ)) (hdt : d < t) {k : ℕ} (hk : d / u < 2 ^ (k : ℤ)) (n : ℤ)
    (hn : (t : ℚ) / u * 100 = n + 1 / 2) :
    ∃ c : ℕ, rne (rnd (d / u) * 100) = c ∧ (c : ℤ) ≤ n ∧
      |(c : ℚ) * (u / 100) - d| ≤ u / 200 + u * 2 ^ ((k : ℤ) - 54) ∧
      |rnd (d / u) * u - d| ≤ u * 2 ^ ((k : ℤ) - 54) := by
  have hu0 : 0 < u := by linarith
  have hx : 0 ≤ d / u := div_nonneg hd hu0.le
  have h0 := rnd_nonneg hx
  obtain ⟨c, hc⟩ := Int.eq_ofNat_of_zero_le (rne_nonneg (y := rnd (d / u) * 100) (by positivity))
  obtain ⟨z, hz⟩ := mult_small hd (lt_of_lt_of_le hdt ht') t
  have hlt := rnd_div_lt hd hr hu hu' (t := t) (by exact_mod_cast ht) hdt hz
  have he := rnd_err_below hx hk (by omega)
  have hq : |rnd (d / u) * u - d| ≤ u * 2 ^ ((k : ℤ) - 54) := by
    have : rnd (d / u) * u - d = (rnd (d / u) - d / u) * u := by
      rw [sub_mul, div_mul_cancel₀ _ hu0.ne']
    rw [this, abs_mul, abs_of_pos hu0, mul_comm]
    exact mul_le_mul_of_nonneg_left he hu0.le
  have hr2 := rne_err (rnd (d / u) * 100)
  rw [hc] at hr2
  refine ⟨c, hc, ?_, ?_, hq⟩
  · have hc' : (c : ℤ) = rne (rnd (d / u) * 100) := hc.symm
    rw [hc']
    apply rne_le
    rw [← hn]
    exact mul_lt_mul_of_pos_right hlt (by norm_num)
  · have h1 : (c : ℚ) * (u / 100) - d = ((c : ℚ) - rnd (d / u) * 100) * (u / 100) + (rnd (d / u) * u - d) := by ring
    rw [h1]
    refine le_trans (abs_add_le _ _) (add_le_add ?_ hq)
    rw [abs_mul, abs_of_pos (by positivity : 0 < u / 100)]
    have : |(c : ℚ) - rnd (d / u) * 100| ≤ 1 / 2 := by simpa using hr2
    calc _ ≤ 1 / 2 * (u / 100) := mul_le_mul_of_nonneg_right this (by positivity)
      _ = u / 200 := by ring

/-- Allowed error of the displayed seconds, in microseconds. -/
abbrev slack : ℚ := 1 / 2 ^ 28

theorem sec_cents {d : ℚ} (hd : 0 ≤ d) (hr : Rep d) (h : d < 59995000) :
    ∃ c : ℕ, rne (rnd (d / sec) * 100) = c ∧ c < 6000 ∧ |(c : ℚ) * 10000 - d| ≤ 5000 + slack := by
  obtain ⟨c, hc, hl, herr, -⟩ := cents_spec hd hr (u := sec) (by norm_num) (by norm_num) 59995000 (by norm_num)
    (by norm_num) (by exact_mod_cast h) (k := 6) (by rw [div_lt_iff₀ (by norm_num)]; norm_num; linarith)
    5999 (by norm_num)
  refine ⟨c, hc, by omega, ?_⟩
  have e1 : (sec / 100 : ℚ) = 10000 := by norm_num
  rw [e1] at herr
  exact le_trans herr (by norm_num)

/-- Seconds, forced. -/
theorem implF_second (k : Nat) {d : ℚ} (h0 : 0 ≤ d) (hr : Rep d) (h : d < 59995000) :
    ∃ c : ℕ, implF (k + 1) d (some .second) = some [.cents c true ""] ∧ c < 6000 ∧
      |(c : ℚ) * 10000 - d| ≤ 5000 + slack := by
  obtain ⟨c, hc, hl, herr⟩ := sec_cents h0 hr h
  refine ⟨c, ?_, hl, herr⟩
  have h1 : ¬ d ≥ tDay := by rw [tDay_eq]; linarith
  have h2 : ¬ d ≥ tHour := by rw [tHour_eq]; linarith
  have h3 : ¬ d ≥ tMin := by rw [tMin_eq]; linarith
  simp [implF, h1, h2, h3, hc]

/-- One level of the recursion. -/
theorem level {d u t : ℚ} (w : ℤ) (j : ℕ) (hd : 0 ≤ d) (hr : Rep d) (hu : 1 ≤ u) (hu' : u ≤ 2 ^ (40 : ℕ))
    (hw : u = w * 2 ^ j) (hdj : d < 2 ^ (j + 53)) (hq : d / u < 2 ^ (53 : ℕ)) (htu : t + 5000 ≤ u) (hut : u ≤ t + 5000)
    (ht : 5000 ≤ t) :
    ∃ n : ℕ, ∃ r : ℚ, 0 ≤ r ∧ Rep r ∧ r < t ∧
      (if rnd (d - rnd (⌊rnd (d / u)⌋ * u)) ≥ t then (⌊rnd ((⌊rnd (d / u)⌋ : ℚ) + 1)⌋, 0)
        else (⌊rnd (d / u)⌋, rnd (d - rnd (⌊rnd (d / u)⌋ * u)))) = ((n : ℤ), r) ∧
      ((n * u + r = d) ∨ (r = 0 ∧ d < n * u ∧ n * u - 5000 ≤ d)) := by
  have hej : expo d ≤ (j : ℤ) := by
    rcases hd.eq_or_lt with rfl | hd
    · simp [expo]
    · have := expo_lt hd (k := (j + 53 : ℕ)) (by exact_mod_cast hdj) (by omega)
      push_cast at this; linarith
  obtain ⟨n, hn, hle, hlt, e1, e2, hrep, e3⟩ := floor_rnd_div hd hr hu hu' hw hej hq
  rw [hn]
  have c1 : (((n : ℕ) : ℤ) : ℚ) = n := by push_cast; rfl
  rw [c1, e1, e2, e3]
  have hfl : ⌊(n : ℚ) + 1⌋ = ((n + 1 : ℕ) : ℤ) := by
    rw [Int.floor_eq_iff]; push_cast; constructor <;> linarith
  rw [hfl]
  by_cases hc : d - n * u ≥ t
  · refine ⟨n + 1, 0, le_refl _, rep_zero, by linarith, by rw [if_pos hc], .inr ⟨rfl, ?_, ?_⟩⟩
    · push_cast; exact hlt
    · push_cast; linarith
  · exact ⟨n, d - n * u, by linarith, hrep, not_le.1 hc, by rw [if_neg hc], .inl (by ring)⟩

/-- Minutes, forced or not. -/
theorem implF_minute (k : Nat) {d : ℚ} (f : Option Force) (h0 : 0 ≤ d) (hr : Rep d) (h : d < 3599995000)
    (hf : f = some .minute ∨ (f = none ∧ 59995000 ≤ d)) :
    ∃ m c : ℕ, implF (k + 2) d f = some [.int m (f = some .minute) ":", .cents c true ""] ∧
      m < 60 ∧ c < 6000 ∧ |(m * 60000000 + c * 10000 : ℚ) - d| ≤ 5000 + slack ∧ (f = none → 1 ≤ m) := by
  have h1 : ¬ d ≥ tDay := by rw [tDay_eq]; linarith
  have h2 : ¬ d ≥ tHour := by rw [tHour_eq]; linarith
  have hfh : f ≠ some .hour := by rcases hf with h | h <;> simp [h]
  have hcond : f = some .minute ∨ d ≥ tMin := by
    rw [tMin_eq]; rcases hf with h | h; exacts [Or.inl h, Or.inr h.2]
  obtain ⟨n, r, hr0, hrr, hrt, e, hnr⟩ := level (d := d) (u := minute) (t := tMin) 60000000 0 h0 hr (by norm_num)
    (by norm_num) (by norm_num) (by norm_num; linarith) (by rw [div_lt_iff₀ (by norm_num)]; norm_num; linarith)
    (by rw [tMin_eq]; norm_num) (by rw [tMin_eq]; norm_num) (by rw [tMin_eq]; norm_num)
  rw [tMin_eq] at hrt
  obtain ⟨c, hc, hcl, herr⟩ := implF_second k hr0 hrr hrt
  have hn60 : n < 60 := by
    have : (n : ℚ) < 60 := by
      rcases hnr with hnr | hnr
      · simp only [minute, hour] at hnr; linarith
      · simp only [minute, hour] at hnr; linarith [hnr.2.2]
    exact_mod_cast this
  refine ⟨n, c, ?_, hn60, hcl, ?_, ?_⟩
  · rw [implF, if_neg h1, if_neg (by rintro (h' | h'); exacts [hfh h', h2 h']), if_pos hcond]
    simp only [e, hc, Option.map_some]
  · rw [abs_le] at herr ⊢
    rcases hnr with hnr | hnr
    · simp only [minute, hour, day, slack] at *; push_cast; constructor <;> linarith [herr.1, herr.2]
    · have hc0 : c = 0 := by
        rw [hnr.1] at herr
        have : (c : ℚ) < 1 := by norm_num at herr; linarith [herr.2]
        have : c < 1 := by exact_mod_cast this
        omega
      rw [hc0]; simp only [minute, hour, day, slack] at *; push_cast; constructor <;> linarith [hnr.2.1, hnr.2.2]
  · intro hfn
    by_contra hcon
    have : n = 0 := by omega
    subst this
    rcases hf with h' | h'
    · rw [hfn] at h'; cases h'
    · rcases hnr with hnr | hnr
      · norm_num at hnr; linarith [h'.2]
      · norm_num at hnr; linarith [h'.2, hnr.2.1]

/-- Hours, forced or not. -/
theorem implF_hour (k : Nat) {d : ℚ} (f : Option Force) (h0 : 0 ≤ d) (hr : Rep d) (h : d < 86399995000)
    (hf : f = some .hour ∨ (f = none ∧ 3599995000 ≤ d)) :
    ∃ hh m c : ℕ, implF (k + 3) d f
        = some [.int hh (f = some .hour) ":", .int m true ":", .cents c true ""] ∧
      hh < 24 ∧ m < 60 ∧ c < 6000 ∧
      |(hh * 3600000000 + m * 60000000 + c * 10000 : ℚ) - d| ≤ 5000 + slack ∧ (f = none → 1 ≤ hh) := by
  have h1 : ¬ d ≥ tDay := by rw [tDay_eq]; linarith
  have hcond : f = some .hour ∨ d ≥ tHour := by
    rw [tHour_eq]; rcases hf with h | h; exacts [Or.inl h, Or.inr h.2]
  obtain ⟨n, r, hr0, hrr, hrt, e, hnr⟩ := level (d := d) (u := hour) (t := tHour) 3600000000 0 h0 hr (by norm_num)
    (by norm_num) (by norm_num) (by norm_num; linarith) (by rw [div_lt_iff₀ (by norm_num)]; norm_num; linarith)
    (by rw [tHour_eq]; norm_num) (by rw [tHour_eq]; norm_num) (by rw [tHour_eq]; norm_num)
  rw [tHour_eq] at hrt
  obtain ⟨m, c, hc, hml, hcl, herr, -⟩ := implF_minute k (some .minute) hr0 hrr hrt (.inl rfl)
  have hn24 : n < 24 := by
    have : (n : ℚ) < 24 := by
      rcases hnr with hnr | hnr
      · simp only [minute, hour] at hnr; linarith
      · simp only [minute, hour] at hnr; linarith [hnr.2.2]
    exact_mod_cast this
  have hcn : (0 : ℚ) ≤ c := Nat.cast_nonneg _
  have hmn : (0 : ℚ) ≤ m := Nat.cast_nonneg _
  refine ⟨n, m, c, ?_, hn24, hml, hcl, ?_, ?_⟩
  · rw [implF, if_neg h1, if_pos hcond]
    simp only [e, hc, Option.map_some, decide_true]
  · rw [abs_le] at herr ⊢
    rcases hnr with hnr | hnr
    · simp only [minute, hour, day, slack] at *; push_cast; constructor <;> linarith [herr.1, herr.2]
    · have hz : m = 0 ∧ c = 0 := by
        rw [hnr.1] at herr
        have a : (c : ℚ) < 1 := by norm_num at herr; linarith [herr.2]
        have b : (m : ℚ) < 1 := by norm_num at herr; linarith [herr.2]
        have a : c < 1 := by exact_mod_cast a
        have b : m < 1 := by exact_mod_cast b
        omega
      rw [hz.1, hz.2]; simp only [minute, hour, day, slack] at *; push_cast; constructor <;> linarith [hnr.2.1, hnr.2.2]
  · intro hfn
    by_contra hcon
    have : n = 0 := by omega
    subst this
    rcases hf with h' | h'
    · rw [hfn] at h'; cases h'
    · rcases hnr with hnr | hnr
      · norm_num at hnr; linarith [h'.2]
      · norm_num at hnr; linarith [h'.2, hnr.2.1]

/-- **C33**, on the numbers of the program. Every non-negative binary64 duration below `2^66` µs (two
million years) is displayed, rounding errors included, in one of the six formats with every field
within its range (never 60 seconds, 60 minutes or 24 hours); the displayed value is exact below a
millisecond, within 5 µs below 0.999995 s and within 5 ms above, up to a rounding error of the
division by the unit (`2^-34` and `2^-28` µs). -/
theorem displayDurationF_spec (d : ℚ) (hr : Rep d) (h0 : 0 ≤ d) (hb : d < 2 ^ 66) :
    ∃ toks v, displayDurationF d = some (toks.map ofTok) ∧ Shows toks v ∧
      (d < 1000 → v = d) ∧
      (d < 999995 → |v - d| ≤ 5 + 1 / 2 ^ 34) ∧
      |v - d| ≤ 5000 + 1 / 2 ^ 28 := by
  by_cases hday : tDay ≤ d
  · have hday' := hday
    rw [tDay_eq] at hday'
    obtain ⟨n, r, hr0, hrr, hrt, e, hnr⟩ := level (d := d) (u := day) (t := tDay) 10546875 13 h0 hr (by norm_num)
      (by norm_num) (by norm_num) (by norm_num at *; linarith) (by rw [div_lt_iff₀ (by norm_num)]; norm_num at *; linarith)
      (by rw [tDay_eq]; norm_num) (by rw [tDay_eq]; norm_num) (by rw [tDay_eq]; norm_num)
    rw [tDay_eq] at hrt
    obtain ⟨hh, m, c, hc, hhl, hml, hcl, herr, -⟩ := implF_hour 0 (some .hour) hr0 hrr hrt (.inl rfl)
    have hcn : (0 : ℚ) ≤ c := Nat.cast_nonneg _
    have hmn : (0 : ℚ) ≤ m := Nat.cast_nonneg _
    have hhn : (0 : ℚ) ≤ hh := Nat.cast_nonneg _
    have hn1 : 1 ≤ n := by
      by_contra hcon
      have : n = 0 := by omega
      subst this
      rcases hnr with hnr | hnr
      · norm_num at hnr; linarith
      · norm_num at hnr; linarith [hnr.2.1]
    refine ⟨_, _, ?_, .day n hh m c hn1 hhl hml hcl, fun h => absurd h (by linarith), fun h => absurd h (by linarith), ?_⟩
    · rw [displayDurationF, implF, if_pos hday]
      simp only [e, hc, Option.map_some, decide_true, List.map_cons, List.map_nil, ofTok]
    · rw [abs_le] at herr ⊢
      rcases hnr with hnr | hnr
      · simp only [minute, hour, day, slack] at *; push_cast; constructor <;> linarith [herr.1, herr.2]
      · have hz : hh = 0 ∧ m = 0 ∧ c = 0 := by
          rw [hnr.1] at herr
          have a : (c : ℚ) < 1 := by norm_num at herr; linarith [herr.2]
          have b : (m : ℚ) < 1 := by norm_num at herr; linarith [herr.2]
          have g : (hh : ℚ) < 1 := by norm_num at herr; linarith [herr.2]
          have a : c < 1 := by exact_mod_cast a
          have b : m < 1 := by exact_mod_cast b
          have g : hh < 1 := by exact_mod_cast g
          omega
        rw [hz.1, hz.2.1, hz.2.2]; simp only [minute, hour, day, slack] at *; push_cast; constructor <;> linarith [hnr.2.1, hnr.2.2]
  have hday' : d < 86399995000 := by rw [tDay_eq] at hday; linarith
  by_cases hhour : tHour ≤ d
  · have hhour' := hhour
    rw [tHour_eq] at hhour'
    obtain ⟨hh, m, c, hc, hhl, hml, hcl, herr, h1⟩ := implF_hour 1 none h0 hr hday' (.inr ⟨rfl, hhour'⟩)
    exact ⟨_, _, by rw [displayDurationF, hc]; simp [ofTok], .hour hh m c (h1 rfl) hhl hml hcl,
      fun h => absurd h (by linarith), fun h => absurd h (by linarith), herr⟩
  have hhour' : d < 3599995000 := by rw [tHour_eq] at hhour; linarith
  by_cases hmin : tMin ≤ d
  · have hmin' := hmin
    rw [tMin_eq] at hmin'
    obtain ⟨m, c, hc, hml, hcl, herr, h1⟩ := implF_minute 2 none h0 hr hhour' (.inr ⟨rfl, hmin'⟩)
    exact ⟨_, _, by rw [displayDurationF, hc]; simp [ofTok], .min m c (h1 rfl) hml hcl,
      fun h => absurd h (by linarith), fun h => absurd h (by linarith), herr⟩
  have hmin' : d < 59995000 := by rw [tMin_eq] at hmin; linarith
  by_cases hsec : tSec ≤ d
  · have hsec' := hsec
    rw [tSec_eq] at hsec'
    obtain ⟨c, hc, hl, herr⟩ := sec_cents h0 hr hmin'
    have hc100 : 100 ≤ c := by
      have := (abs_le.1 herr).1
      have : (99 : ℚ) < c := by norm_num at this; linarith
      have : 99 < c := by exact_mod_cast this
      omega
    refine ⟨[.cents c false "s"], _, ?_, .sec c hc100 hl, fun h => absurd h (by linarith),
      fun h => absurd h (by linarith), herr⟩
    simp [displayDurationF, implF, hday, hhour, hmin, hsec, hc, ofTok]
  have hsec' : d < 999995 := by rw [tSec_eq] at hsec; linarith
  by_cases hms : ms ≤ d
  · obtain ⟨c, hc, hl, herr, -⟩ := cents_spec h0 hr (u := ms) (by norm_num) (by norm_num) 999995 (by norm_num)
      (by norm_num) (by exact_mod_cast hsec') (k := 10) (by rw [div_lt_iff₀ (by norm_num)]; norm_num; linarith)
      99999 (by norm_num)
    have herr' : |(c : ℚ) * 10 - d| ≤ 5 + 1 / 2 ^ 34 := by
      have e1 : (ms / 100 : ℚ) = 10 := by norm_num
      rw [e1] at herr
      exact le_trans herr (by norm_num)
    have hc100 : 100 ≤ c := by
      have := (abs_le.1 herr').1
      have : (99 : ℚ) < c := by norm_num at this hms; linarith
      have : 99 < c := by exact_mod_cast this
      omega
    refine ⟨[.cents c false "ms"], _, ?_, .milli c hc100 (by omega), fun h => absurd h (by linarith),
      fun _ => herr', le_trans herr' (by norm_num)⟩
    simp [displayDurationF, implF, hday, hhour, hmin, hsec, hms, hc, ofTok]
  · refine ⟨[.raw d "µs"], d, ?_, .micro d (not_le.1 hms), fun _ => rfl, ?_, ?_⟩
    · simp [displayDurationF, implF, hday, hhour, hmin, hsec, hms, ofTok, rnd_rep h0 hr]
    · intro _; simp; norm_num
    · simp; norm_num

/-- Beyond, the multiplication back by the unit may round above the duration, and the hours come out
negative: 58885218600911995142144 µs (the float 5.8885218600911995e22) is displayed as
`681541881955d -1:59:51.61`. -/
theorem displayDurationF_huge :
    ∃ d : ℚ, Rep d ∧ 2 ^ 66 ≤ d ∧ displayDurationF d =
      some [.int 681541881955 false "d ", .int (-1) true ":", .int 59 true ":", .cents 5161 true ""] := by
  refine ⟨58885218600911995142144, ?_, by norm_num, by decide +kernel⟩
  exact ⟨7019665074457168, 23, by norm_num, by norm_num, by norm_num⟩

/-- A negative number (which clang never writes) is displayed as it is, in microseconds. -/
theorem displayDurationF_negative (d : ℚ) (h : d < 0) : displayDurationF d = some [.raw (rnd d) "µs"] := by
  have h1 : ¬ tDay ≤ d := by rw [tDay_eq]; linarith
  have h2 : ¬ tHour ≤ d := by rw [tHour_eq]; linarith
  have h3 : ¬ tMin ≤ d := by rw [tMin_eq]; linarith
  have h4 : ¬ tSec ≤ d := by rw [tSec_eq]; linarith
  have h5 : ¬ ms ≤ d := by simp only [ms]; linarith
  simp [displayDurationF, implF, h1, h2, h3, h4, h5]

-- concrete cases: the last float before each carry, and a case where the division rounds
example : displayDurationF (59995000 - 1 / 2 ^ 27) = some [.cents 5999 false "s"] := by decide +kernel
example : displayDurationF 59995000 = some [.int 1 false ":", .cents 0 true ""] := by decide +kernel
example : displayDurationF (999995 - 1 / 2 ^ 33) = some [.cents 99999 false "ms"] := by decide +kernel
example : displayDurationF (86400000000 - 1 / 2 ^ 16) =
    some [.int 1 false "d ", .int 0 true ":", .int 0 true ":", .cents 0 true ""] := by decide +kernel
/-- 1.005 s is exactly between two displayed values; its quotient by a second is rounded below. -/
example : rnd (1005000 / sec) < 1005 / 1000 ∧ displayDurationF 1005000 = some [.cents 100 false "s"] := by
  decide +kernel
/-- The theorem applies to the duration that ends the last second before midnight. -/
example : ∃ toks v, displayDurationF (86399995000 - 1 / 2 ^ 16) = some (toks.map ofTok) ∧ Shows toks v ∧
    |v - (86399995000 - 1 / 2 ^ 16)| ≤ 5000 + 1 / 2 ^ 28 := by
  obtain ⟨toks, v, h1, h2, -, -, h3⟩ := displayDurationF_spec (86399995000 - 1 / 2 ^ 16)
    ⟨86399995000 * 2 ^ 16 - 1, -16, by norm_num, by norm_num, by norm_num⟩ (by norm_num) (by norm_num)
  exact ⟨toks, v, h1, h2, h3⟩
example : displayDurationF (-(1 / 2)) = some [.raw (rnd (-(1 / 2))) "µs"] := displayDurationF_negative _ (by norm_num)

end Verif.Display.DurationFloat
