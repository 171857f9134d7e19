/-
C33: `display_duration` (src/ui/display/duration.rs).

Durations are exact non-negative rationals (in microseconds) instead of `f64`.
-/
import Mathlib.Algebra.Order.Round
import Mathlib.Data.Rat.Floor
import Mathlib.Tactic.Linarith
import Mathlib.Tactic.NormNum
import Mathlib.Tactic.Ring

set_option autoImplicit false
set_option linter.unusedVariables false
set_option linter.unusedSimpArgs false

namespace Verif.Display.Duration

/-! clang-time-trace/src/ctf/mod.rs 125-138: units, in microseconds. -/
def ms : ℚ := 1000
def sec : ℚ := 1000 * ms
def minute : ℚ := 60 * sec
def hour : ℚ := 60 * minute
def day : ℚ := 24 * hour

/-- One piece of output.  `int n pad s` is `{n}` or `{n:02}` followed by `s`;
`cents c pad s` is a value of `c` hundredths written with two decimals (`{:.2}`
or `{:05.2}`) followed by `s`; `raw q s` is `{}` of a float. -/
inductive Tok where
  | int (n : Nat) (pad : Bool) (suffix : String)
  | cents (c : Nat) (pad : Bool) (suffix : String)
  | raw (q : ℚ) (suffix : String)
deriving DecidableEq

/-- src/ui/display/duration.rs 65-70. -/
inductive Force where
  | hour | minute | second
deriving DecidableEq

/-- `{:.2}`: the value in hundredths, rounded to nearest, ties to even. -/
def round2 (x : ℚ) : Nat :=
  let y := x * 100
  let f := ⌊y⌋
  if y - f < 1 / 2 then f.toNat
  else if 1 / 2 < y - f then (f + 1).toNat
  else if f % 2 = 0 then f.toNat else (f + 1).toNat

/-- src/ui/display/duration.rs 18: `23.0 * HOUR + 59.0 * MINUTE + 59.995 * SECOND`. -/
def tDay : ℚ := 23 * hour + 59 * minute + (59995 / 1000) * sec
/-- src/ui/display/duration.rs 27: `59.0 * MINUTE + 59.995 * SECOND`. -/
def tHour : ℚ := 59 * minute + (59995 / 1000) * sec
/-- src/ui/display/duration.rs 40: `59.995 * SECOND`. -/
def tMin : ℚ := (59995 / 1000) * sec
/-- src/ui/display/duration.rs 53: `0.999995 * SECOND`. -/
def tSec : ℚ := (999995 / 1000000) * sec

/-- src/ui/display/duration.rs 13-63: `display_duration_impl`.  The recursion is
bounded by `fuel` (`none` when it runs out); the theorems below show that four
levels always suffice. -/
def impl : (fuel : Nat) → (d : ℚ) → Option Force → Option (List Tok)
  | 0, _, _ => none
  | fuel + 1, d, force =>
    if d ≥ tDay then
      let days := ⌊d / day⌋.toNat
      let rem := d - days * day
      let (days, rem) := if rem ≥ tDay then (days + 1, 0) else (days, rem)
      (impl fuel rem (some .hour)).map (.int days false "d " :: ·)
    else if force = some .hour ∨ d ≥ tHour then
      let hours := ⌊d / hour⌋.toNat
      let rem := d - hours * hour
      let (hours, rem) := if rem ≥ tHour then (hours + 1, 0) else (hours, rem)
      (impl fuel rem (some .minute)).map (.int hours (force = some .hour) ":" :: ·)
    else if force = some .minute ∨ d ≥ tMin then
      let minutes := ⌊d / minute⌋.toNat
      let rem := d - minutes * minute
      let (minutes, rem) := if rem ≥ tMin then (minutes + 1, 0) else (minutes, rem)
      (impl fuel rem (some .second)).map (.int minutes (force = some .minute) ":" :: ·)
    else if d ≥ tSec ∨ force = some .second then
      if force = some .second then some [.cents (round2 (d / sec)) true ""]
      else some [.cents (round2 (d / sec)) false "s"]
    else if d ≥ ms then some [.cents (round2 (d / ms)) false "ms"]
    else some [.raw d "µs"]

/-- src/ui/display/duration.rs 7-9: `display_duration`. -/
def displayDuration (d : ℚ) : Option (List Tok) := impl 4 d none

/-- Decimal digits, at least two of them when `pad`. -/
def pad2 (n : Nat) (pad : Bool) : String :=
  if pad && decide (n < 10) then "0" ++ toString n else toString n

/-- How an integer or two-decimal piece is written. -/
def Tok.render : Tok → String
  | .int n pad s => pad2 n pad ++ s
  | .cents c pad s => pad2 (c / 100) pad ++ "." ++ pad2 (c % 100) true ++ s
  | .raw q s => toString q ++ s

/-! ### Lemmas -/

theorem round2_spec (x : ℚ) (hx : 0 ≤ x) : |(round2 x : ℚ) - x * 100| ≤ 1 / 2 := by
  have hf0 : (0 : ℤ) ≤ ⌊x * 100⌋ := Int.floor_nonneg.2 (by linarith)
  have h1 : (⌊x * 100⌋ : ℚ) ≤ x * 100 := Int.floor_le _
  have h2 : x * 100 < ⌊x * 100⌋ + 1 := Int.lt_floor_add_one _
  have c1 : ((⌊x * 100⌋.toNat : ℕ) : ℚ) = (⌊x * 100⌋ : ℚ) := by
    exact_mod_cast congrArg (Int.cast : ℤ → ℚ) (Int.toNat_of_nonneg hf0)
  have c2 : (((⌊x * 100⌋ + 1).toNat : ℕ) : ℚ) = (⌊x * 100⌋ : ℚ) + 1 := by
    have := congrArg (Int.cast : ℤ → ℚ) (Int.toNat_of_nonneg (show 0 ≤ ⌊x * 100⌋ + 1 by omega))
    push_cast at this; exact_mod_cast this
  unfold round2
  simp only
  rw [abs_le]
  split_ifs
  · rw [c1]; constructor <;> linarith
  · rw [c2]; constructor <;> linarith
  · rw [c1]; constructor <;> linarith
  · rw [c2]; constructor <;> linarith

/-- Values below `n + 1/2` hundredths round to at most `n`. -/
theorem round2_le (x : ℚ) (hx : 0 ≤ x) (n : Nat) (h : x * 100 < n + 1 / 2) : round2 x ≤ n := by
  have := round2_spec x hx
  rw [abs_le] at this
  have h2 : (round2 x : ℚ) < n + 1 := by linarith [this.2]
  have : round2 x < n + 1 := by exact_mod_cast h2
  omega

theorem round2_ge (x : ℚ) (hx : 0 ≤ x) (n : Nat) (h : n - 1 / 2 < x * 100) : n ≤ round2 x := by
  have := round2_spec x hx
  rw [abs_le] at this
  have h2 : (n : ℚ) < round2 x + 1 := by linarith [this.1]
  have : n < round2 x + 1 := by exact_mod_cast h2
  omega

/-- Quotient and remainder by a unit. -/
theorem floor_div (d u : ℚ) (hd : 0 ≤ d) (hu : 0 < u) :
    ∃ n : ℕ, ⌊d / u⌋.toNat = n ∧ (n : ℚ) * u ≤ d ∧ d < (n + 1) * u := by
  have h0 : (0 : ℤ) ≤ ⌊d / u⌋ := Int.floor_nonneg.2 (div_nonneg hd hu.le)
  have c : ((⌊d / u⌋.toNat : ℕ) : ℚ) = (⌊d / u⌋ : ℚ) := by
    exact_mod_cast congrArg (Int.cast : ℤ → ℚ) (Int.toNat_of_nonneg h0)
  refine ⟨_, rfl, ?_, ?_⟩
  · rw [c, ← le_div_iff₀ hu]; exact Int.floor_le _
  · rw [c, ← div_lt_iff₀ hu]; exact Int.lt_floor_add_one _

/-- Seconds, forced. -/
theorem impl_second (k : Nat) (d : ℚ) (h0 : 0 ≤ d) (h : d < tMin) :
    ∃ c : ℕ, impl (k + 1) d (some .second) = some [.cents c true ""] ∧ c < 6000 ∧
      |(c * 10000 : ℚ) - d| ≤ 5000 := by
  have h1 : ¬ d ≥ tDay := by simp only [tDay, tMin, hour, minute, sec, ms] at *; linarith
  have h2 : ¬ d ≥ tHour := by simp only [tHour, tMin, hour, minute, sec, ms] at *; linarith
  refine ⟨round2 (d / sec), ?_, ?_, ?_⟩
  · simp [impl, h1, h2, not_le.2 h]
  · have := round2_le (d / sec) (div_nonneg h0 (by norm_num [sec, ms])) 5999 (by
      simp only [tMin, sec, ms] at *; rw [div_mul_eq_mul_div, div_lt_iff₀ (by norm_num)]; norm_num; linarith)
    omega
  · have := round2_spec (d / sec) (div_nonneg h0 (by norm_num [sec, ms]))
    have e : d / sec * 100 = d / 10000 := by simp only [sec, ms]; ring
    rw [e] at this
    rw [abs_le] at this ⊢
    constructor <;> linarith [this.1, this.2]

/-- Minutes, forced or not. -/
theorem impl_minute (k : Nat) (d : ℚ) (f : Option Force) (h0 : 0 ≤ d) (h : d < tHour)
    (hf : f = some .minute ∨ (f = none ∧ tMin ≤ d)) :
    ∃ m c : ℕ, impl (k + 2) d f = some [.int m (f = some .minute) ":", .cents c true ""] ∧
      m < 60 ∧ c < 6000 ∧ |(m * 60000000 + c * 10000 : ℚ) - d| ≤ 5000 ∧ (f = none → 1 ≤ m) := by
  have h1 : ¬ d ≥ tDay := by simp only [tDay, tHour, hour, minute, sec, ms] at *; linarith
  have hfh : f ≠ some .hour := by rcases hf with h | h <;> simp [h]
  have hcond : f = some .minute ∨ d ≥ tMin := by rcases hf with h | h; exacts [Or.inl h, Or.inr h.2]
  obtain ⟨n, hn, hle, hlt⟩ := floor_div d minute h0 (by norm_num [minute, sec, ms])
  have hn60 : n < 60 := by
    have : (n : ℚ) < 60 := by simp only [tHour, minute, sec, ms] at *; linarith
    exact_mod_cast this
  by_cases hc : d - n * minute ≥ tMin
  · have hn59 : n < 59 := by
      have : (n : ℚ) < 59 := by
        by_contra hcon
        have : (59 : ℚ) ≤ n := not_lt.1 hcon
        simp only [tHour, tMin, minute, sec, ms] at *; linarith
      exact_mod_cast this
    obtain ⟨c, hc', hcl, herr⟩ := impl_second k 0 (le_refl _) (by norm_num [tMin, sec, ms])
    have hc0 : c = 0 := by
      rw [abs_le] at herr
      have : (c : ℚ) < 1 := by linarith [herr.2]
      have : c < 1 := by exact_mod_cast this
      omega
    refine ⟨n + 1, c, ?_, by omega, hcl, ?_, fun _ => by omega⟩
    · rw [impl, if_neg h1, if_neg (by rintro (h' | h'); exacts [hfh h', absurd h' (not_le.2 h)]),
        if_pos hcond]
      simp only [hn, if_pos hc, hc', Option.map_some]
    · rw [hc0, abs_le]; push_cast
      simp only [tMin, minute, sec, ms] at *
      constructor <;> linarith
  · obtain ⟨c, hc', hcl, herr⟩ := impl_second k (d - n * minute) (by linarith) (not_le.1 hc)
    refine ⟨n, c, ?_, hn60, hcl, ?_, ?_⟩
    · rw [impl, if_neg h1, if_neg (by rintro (h' | h'); exacts [hfh h', absurd h' (not_le.2 h)]),
        if_pos hcond]
      simp only [hn, if_neg hc, hc', Option.map_some]
    · rw [abs_le] at herr ⊢
      simp only [minute, sec, ms] at *
      constructor <;> linarith [herr.1, herr.2]
    · intro hfn
      by_contra hcon
      have : n = 0 := by omega
      subst this
      rcases hf with h' | h'
      · rw [hfn] at h'; cases h'
      · apply hc; simpa using h'.2

/-- Hours, forced or not. -/
theorem impl_hour (k : Nat) (d : ℚ) (f : Option Force) (h0 : 0 ≤ d) (h : d < tDay)
    (hf : f = some .hour ∨ (f = none ∧ tHour ≤ d)) :
    ∃ hh m c : ℕ, impl (k + 3) d f
        = some [.int hh (f = some .hour) ":", .int m true ":", .cents c true ""] ∧
      hh < 24 ∧ m < 60 ∧ c < 6000 ∧
      |(hh * 3600000000 + m * 60000000 + c * 10000 : ℚ) - d| ≤ 5000 ∧ (f = none → 1 ≤ hh) := by
  have hcond : f = some .hour ∨ d ≥ tHour := by rcases hf with h | h; exacts [Or.inl h, Or.inr h.2]
  obtain ⟨n, hn, hle, hlt⟩ := floor_div d hour h0 (by norm_num [hour, minute, sec, ms])
  have hn24 : n < 24 := by
    have : (n : ℚ) < 24 := by simp only [tDay, hour, minute, sec, ms] at *; linarith
    exact_mod_cast this
  by_cases hc : d - n * hour ≥ tHour
  · have hn23 : n < 23 := by
      have : (n : ℚ) < 23 := by
        by_contra hcon
        have : (23 : ℚ) ≤ n := not_lt.1 hcon
        simp only [tDay, tHour, hour, minute, sec, ms] at *; linarith
      exact_mod_cast this
    obtain ⟨m, c, hc', hml, hcl, herr, -⟩ := impl_minute k 0 (some .minute) (le_refl _)
      (by norm_num [tHour, minute, sec, ms]) (Or.inl rfl)
    have hm0 : m = 0 ∧ c = 0 := by
      rw [abs_le] at herr
      have hmn : (0 : ℚ) ≤ m := Nat.cast_nonneg _
      have hcn : (0 : ℚ) ≤ c := Nat.cast_nonneg _
      have h1 : (c : ℚ) < 1 := by linarith [herr.2]
      have h2 : (m : ℚ) < 1 := by linarith [herr.2]
      have h1 : c < 1 := by exact_mod_cast h1
      have h2 : m < 1 := by exact_mod_cast h2
      omega
    refine ⟨n + 1, m, c, ?_, by omega, hml, hcl, ?_, fun _ => by omega⟩
    · rw [impl, if_neg (not_le.2 h), if_pos hcond]
      simp only [hn, if_pos hc, hc', Option.map_some, decide_true]
    · rw [hm0.1, hm0.2, abs_le]; push_cast
      simp only [tHour, hour, minute, sec, ms] at *
      constructor <;> linarith
  · obtain ⟨m, c, hc', hml, hcl, herr, -⟩ := impl_minute k (d - n * hour) (some .minute) (by linarith)
      (not_le.1 hc) (Or.inl rfl)
    refine ⟨n, m, c, ?_, hn24, hml, hcl, ?_, ?_⟩
    · rw [impl, if_neg (not_le.2 h), if_pos hcond]
      simp only [hn, if_neg hc, hc', Option.map_some, decide_true]
    · rw [abs_le] at herr ⊢
      simp only [hour, minute, sec, ms] at *
      constructor <;> linarith [herr.1, herr.2]
    · intro hfn
      by_contra hcon
      have : n = 0 := by omega
      subst this
      rcases hf with h' | h'
      · rw [hfn] at h'; cases h'
      · apply hc; simpa using h'.2

/-- What a user reads: the displayed pieces and the duration (in µs) they denote. -/
inductive Shows : List Tok → ℚ → Prop
  | micro (d : ℚ) : d < 1000 → Shows [.raw d "µs"] d
  | milli (c : ℕ) : 100 ≤ c → c < 100000 → Shows [.cents c false "ms"] (c * 10)
  | sec (c : ℕ) : 100 ≤ c → c < 6000 → Shows [.cents c false "s"] (c * 10000)
  | min (m c : ℕ) : 1 ≤ m → m < 60 → c < 6000 →
      Shows [.int m false ":", .cents c true ""] (m * 60000000 + c * 10000)
  | hour (h m c : ℕ) : 1 ≤ h → h < 24 → m < 60 → c < 6000 →
      Shows [.int h false ":", .int m true ":", .cents c true ""]
        (h * 3600000000 + m * 60000000 + c * 10000)
  | day (n h m c : ℕ) : 1 ≤ n → h < 24 → m < 60 → c < 6000 →
      Shows [.int n false "d ", .int h true ":", .int m true ":", .cents c true ""]
        (n * 86400000000 + h * 3600000000 + m * 60000000 + c * 10000)

/-- C33. Every non-negative duration is displayed, in one of the six formats with
every field within its range (never 60 seconds, 60 minutes or 24 hours), and the
displayed value is exact below a millisecond, within 5 µs below 0.999995 s and
within 5 ms above. As each format comes with a range (`Shows`), the format is the
one of the magnitude of the displayed value. -/
theorem displayDuration_spec (d : ℚ) (h0 : 0 ≤ d) :
    ∃ toks v, displayDuration d = some toks ∧ Shows toks v ∧
      (d < 1000 → v = d) ∧
      (d < 999995 → |v - d| ≤ 5) ∧
      |v - d| ≤ 5000 := by
  by_cases hday : tDay ≤ d
  · obtain ⟨n, hn, hle, hlt⟩ := floor_div d day h0 (by norm_num [day, hour, minute, sec, ms])
    have hbig : ¬ d < 1000 := by simp only [tDay, hour, minute, sec, ms] at *; linarith
    have hbig' : ¬ d < 999995 := by simp only [tDay, hour, minute, sec, ms] at *; linarith
    by_cases hc : d - n * day ≥ tDay
    · obtain ⟨hh, m, c, hc', hhl, hml, hcl, herr, -⟩ := impl_hour 0 0 (some .hour) (le_refl _)
        (by norm_num [tDay, hour, minute, sec, ms]) (Or.inl rfl)
      refine ⟨_, _, ?_, .day (n + 1) hh m c (by omega) hhl hml hcl, fun h => absurd h hbig,
        fun h => absurd h hbig', ?_⟩
      · rw [displayDuration, impl, if_pos hday]
        simp only [hn, if_pos hc, hc', Option.map_some, decide_true]
      · have hz : hh = 0 ∧ m = 0 ∧ c = 0 := by
          rw [abs_le] at herr
          have a1 : (0 : ℚ) ≤ m := Nat.cast_nonneg _
          have a2 : (0 : ℚ) ≤ c := Nat.cast_nonneg _
          have a3 : (0 : ℚ) ≤ hh := Nat.cast_nonneg _
          have h1 : (c : ℚ) < 1 := by linarith [herr.2]
          have h2 : (m : ℚ) < 1 := by linarith [herr.2]
          have h3 : (hh : ℚ) < 1 := by linarith [herr.2]
          have h1 : c < 1 := by exact_mod_cast h1
          have h2 : m < 1 := by exact_mod_cast h2
          have h3 : hh < 1 := by exact_mod_cast h3
          omega
        rw [hz.1, hz.2.1, hz.2.2, abs_le]; push_cast
        simp only [tDay, day, hour, minute, sec, ms] at *
        constructor <;> linarith
    · obtain ⟨hh, m, c, hc', hhl, hml, hcl, herr, -⟩ := impl_hour 0 (d - n * day) (some .hour)
        (by linarith) (not_le.1 hc) (Or.inl rfl)
      have hn1 : 1 ≤ n := by
        by_contra hcon
        have : n = 0 := by omega
        subst this
        apply hc; simpa using hday
      refine ⟨_, _, ?_, .day n hh m c hn1 hhl hml hcl, fun h => absurd h hbig,
        fun h => absurd h hbig', ?_⟩
      · rw [displayDuration, impl, if_pos hday]
        simp only [hn, if_neg hc, hc', Option.map_some, decide_true]
      · rw [abs_le] at herr ⊢
        simp only [day, hour, minute, sec, ms] at *
        constructor <;> linarith [herr.1, herr.2]
  · by_cases hhour : tHour ≤ d
    · have hbig : ¬ d < 1000 := by simp only [tHour, hour, minute, sec, ms] at *; linarith
      have hbig' : ¬ d < 999995 := by simp only [tHour, hour, minute, sec, ms] at *; linarith
      obtain ⟨hh, m, c, hc', hhl, hml, hcl, herr, h1⟩ := impl_hour 1 d none h0 (not_le.1 hday)
        (Or.inr ⟨rfl, hhour⟩)
      exact ⟨_, _, hc', by simpa using Shows.hour hh m c (h1 rfl) hhl hml hcl,
        fun h => absurd h hbig, fun h => absurd h hbig', herr⟩
    · by_cases hmin : tMin ≤ d
      · have hbig : ¬ d < 1000 := by simp only [tMin, hour, minute, sec, ms] at *; linarith
        have hbig' : ¬ d < 999995 := by simp only [tMin, hour, minute, sec, ms] at *; linarith
        obtain ⟨m, c, hc', hml, hcl, herr, h1⟩ := impl_minute 2 d none h0 (not_le.1 hhour)
          (Or.inr ⟨rfl, hmin⟩)
        exact ⟨_, _, hc', by simpa using Shows.min m c (h1 rfl) hml hcl,
          fun h => absurd h hbig, fun h => absurd h hbig', herr⟩
      · by_cases hsec : tSec ≤ d
        · have hbig : ¬ d < 1000 := by simp only [tSec, sec, ms] at *; linarith
          have hbig' : ¬ d < 999995 := by simp only [tSec, sec, ms] at *; linarith
          have hnn : 0 ≤ d / sec := div_nonneg h0 (by norm_num [sec, ms])
          have e : d / sec * 100 = d / 10000 := by simp only [sec, ms]; ring
          have hsp := round2_spec (d / sec) hnn
          refine ⟨[.cents (round2 (d / sec)) false "s"], _, ?_, .sec _ ?_ ?_, fun h => absurd h hbig,
            fun h => absurd h hbig', ?_⟩
          · simp [displayDuration, impl, hday, hhour, hmin, hsec]
          · apply round2_ge _ hnn; rw [e]; simp only [tSec, sec, ms] at hsec; push_cast; linarith
          · have := round2_le (d / sec) hnn 5999 (by
              rw [e]; simp only [tMin, sec, ms] at hmin; push_cast; linarith)
            omega
          · rw [e, abs_le] at hsp; rw [abs_le]; constructor <;> linarith [hsp.1, hsp.2]
        · have h1s : d < 999995 := by simp only [tSec, sec, ms] at hsec; linarith
          by_cases hms : ms ≤ d
          · have hbig : ¬ d < 1000 := by simp only [ms] at hms; linarith
            have hnn : 0 ≤ d / ms := div_nonneg h0 (by norm_num [ms])
            have e : d / ms * 100 = d / 10 := by simp only [ms]; ring
            have hsp := round2_spec (d / ms) hnn
            have herr : |((round2 (d / ms) : ℕ) * 10 : ℚ) - d| ≤ 5 := by
              rw [e, abs_le] at hsp; rw [abs_le]; constructor <;> linarith [hsp.1, hsp.2]
            refine ⟨[.cents (round2 (d / ms)) false "ms"], _, ?_, .milli _ ?_ ?_, fun h => absurd h hbig,
              fun _ => herr, le_trans herr (by norm_num)⟩
            · simp [displayDuration, impl, hday, hhour, hmin, hsec, hms]
            · apply round2_ge _ hnn; rw [e]; simp only [ms] at hms; push_cast; linarith
            · have := round2_le (d / ms) hnn 99999 (by
                rw [e]; push_cast; linarith)
              omega
          · refine ⟨[.raw d "µs"], d, ?_, .micro d ?_, fun _ => rfl, ?_, ?_⟩
            · simp [displayDuration, impl, hday, hhour, hmin, hsec, hms]
            · simpa [ms] using hms
            · intro _; simp
            · simp

-- concrete cases, at the carry boundaries
example : displayDuration 59994000 = some [.cents 5999 false "s"] := by decide +kernel
example : displayDuration 59995000 = some [.int 1 false ":", .cents 0 true ""] := by decide +kernel
example : (displayDuration (8 * day + 6 * hour + 2 * minute + 1357000)).map
    (fun t => String.join (t.map Tok.render)) = some "8d 06:02:01.36" := by decide +kernel
example : (displayDuration tDay).map (fun t => String.join (t.map Tok.render))
    = some "1d 00:00:00.00" := by decide +kernel

end Verif.Display.Duration
