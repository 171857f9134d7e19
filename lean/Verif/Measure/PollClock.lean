/-
C66: when the system is polled (cmakeperf/src/measure/mod.rs 279-333, used by worker.rs 63-83 and main.rs 69-113).

Instants and durations are numbers of nanoseconds. `f64` arithmetic is represented by an arbitrary rounding function
`fl` that keeps 0 and has a relative error of at most `2^-53` on numbers that are not tiny; `rounding_binary64` shows that
IEEE 754 binary64 is one.
-/
import Verif.Tree.Binary64
import Mathlib.Data.Rat.Floor
import Mathlib.Tactic.Ring
import Mathlib.Tactic.NormNum
import Mathlib.Tactic.Linarith
import Mathlib.Tactic.Positivity

set_option autoImplicit false
set_option linter.unusedVariables false
set_option linter.unusedSimpArgs false
set_option linter.unusedSectionVars false

namespace Verif.Measure.Poll

/-! ## Model -/

/-- `Duration::as_secs_f64`: `(secs as f64) + (nanos as f64) / 1e9`. -/
def secs64 (fl : ℚ → ℚ) (a : Nat) : ℚ :=
  fl (fl ((a / 1000000000 : ℕ) : ℚ) + fl (fl ((a % 1000000000 : ℕ) : ℚ) / 1000000000))

/-- mod.rs 300-301: `(actual.as_secs_f64() * 1.1 * 1000.0).ceil() as usize` (the cast saturates). -/
def stretch (fl : ℚ → ℚ) (a : Nat) : Nat :=
  min ⌈fl (fl (secs64 fl a * fl (11 / 10)) * 1000)⌉.toNat (2 ^ 64 - 1)

/-- One millisecond. -/
def MS : Nat := 1000000

/-- What `poll_delay` (mod.rs 294-309) does when it starts at `now` with `last_poll = last` and reads `interval` (in
milliseconds) from `POLLING_INTERVAL_MILLIS`: the new `last_poll`, the value that it stores in
`POLLING_INTERVAL_MILLIS` if any, and the delay it returns. -/
def poll (fl : ℚ → ℚ) (last now interval : Nat) : Nat × Option Nat × Nat :=
  let next := last + interval * MS
  if next < now then
    let n := stretch fl (now - last)
    let next := last + n * MS
    (next, some n, next - now)
  else (next, none, next - now)

/-- A clock and the shared polling interval, for one thread alone. -/
structure Clock where
  last : Nat
  interval : Nat
  deriving DecidableEq

/-- `poll_delay` without interference: new state and delay. -/
def Clock.poll (fl : ℚ → ℚ) (c : Clock) (now : Nat) : Clock × Nat :=
  let r := Poll.poll fl c.last now c.interval
  (⟨r.1, r.2.1.getD c.interval⟩, r.2.2)

/-- The state after polls at the given instants. -/
def Clock.polls (fl : ℚ → ℚ) : Clock → List Nat → Clock
  | c, [] => c
  | c, t :: ts => ((c.poll fl t).1).polls fl ts

/-! ## Specification of the arithmetic -/

/-- Rounding of non-negative numbers: 0 is kept, and the relative error of numbers above `2^-100` is at most `2^-53`. -/
def Rounding (fl : ℚ → ℚ) : Prop := fl 0 = 0 ∧ ∀ x : ℚ, 1 / 2 ^ 100 ≤ x → |fl x - x| ≤ x / 2 ^ 53

/-- Zero or at least `c`. -/
def Big (c x : ℚ) : Prop := x = 0 ∨ c ≤ x

theorem Big.nonneg {c x : ℚ} (hc : 0 ≤ c) (h : Big c x) : 0 ≤ x := by
  rcases h with rfl | h
  · exact le_refl _
  · exact hc.trans h

theorem big_nat (n : ℕ) : Big 1 (n : ℚ) := by
  rcases Nat.eq_zero_or_pos n with rfl | h
  · exact .inl (by simp)
  · exact .inr (by exact_mod_cast h)

theorem Big.weak {c c' x : ℚ} (h : Big c x) (hc : c' ≤ c) : Big c' x := h.imp id fun h => hc.trans h

theorem Big.mul {c x k : ℚ} (h : Big c x) (hk : 0 ≤ k) : Big (c * k) (x * k) := by
  rcases h with rfl | h
  · exact .inl (by simp)
  · exact .inr (mul_le_mul_of_nonneg_right h hk)

theorem Big.add {c x y : ℚ} (hc : 0 ≤ c) (h : Big c x) (h' : Big c y) : Big c (x + y) := by
  have hx := h.nonneg hc
  have hy := h'.nonneg hc
  rcases h with rfl | h
  · simpa using h'
  · exact .inr (by linarith)

section
variable {fl : ℚ → ℚ} (hfl : Rounding fl)
include hfl

theorem fl_err {x : ℚ} (hx : Big (1 / 2 ^ 100) x) : |fl x - x| ≤ x / 2 ^ 53 := by
  rcases hx with rfl | hx
  · rw [hfl.1]; simp
  · exact hfl.2 x hx

theorem fl_big {c x : ℚ} (hc : 1 / 2 ^ 100 ≤ c) (hx : Big c x) : Big (c / 2) (fl x) := by
  rcases hx with rfl | hx
  · exact .inl hfl.1
  · have := (abs_le.1 (hfl.2 x (hc.trans hx))).1
    have h0 : (0 : ℚ) < 1 / 2 ^ 100 := by norm_num
    exact .inr (by norm_num at *; linarith)

theorem fl_lo {x y : ℚ} (k : ℚ) (hk : 0 ≤ k) (hy : 0 ≤ y) (hb : Big (1 / 2 ^ 100) x) (h : y * k ≤ x) : y * (k * (1 - 1 / 2 ^ 53)) ≤ fl x := by
  have hx : 0 ≤ x := le_trans (mul_nonneg hy hk) h
  have := (abs_le.1 (fl_err hfl hb)).1
  have e : x * (1 - 1 / 2 ^ 53) ≤ fl x := by linarith
  calc y * (k * (1 - 1 / 2 ^ 53)) = y * k * (1 - 1 / 2 ^ 53) := by ring
    _ ≤ x * (1 - 1 / 2 ^ 53) := mul_le_mul_of_nonneg_right h (by norm_num)
    _ ≤ _ := e

theorem fl_hi {x y : ℚ} (k : ℚ) (hx : 0 ≤ x) (hb : Big (1 / 2 ^ 100) x) (h : x ≤ y * k) : fl x ≤ y * (k * (1 + 1 / 2 ^ 53)) := by
  have := (abs_le.1 (fl_err hfl hb)).2
  have e : fl x ≤ x * (1 + 1 / 2 ^ 53) := by linarith
  calc fl x ≤ x * (1 + 1 / 2 ^ 53) := e
    _ ≤ y * k * (1 + 1 / 2 ^ 53) := mul_le_mul_of_nonneg_right h (by norm_num)
    _ = _ := by ring

theorem fl_nonneg {x : ℚ} (hx : 0 ≤ x) (hb : Big (1 / 2 ^ 100) x) : 0 ≤ fl x := by
  have := fl_lo hfl (x := x) (y := x) 1 (by norm_num) hx hb (by linarith)
  refine le_trans ?_ this
  have : (0 : ℚ) ≤ 1 * (1 - 1 / 2 ^ 53) := by norm_num
  exact mul_nonneg hx this

theorem secs64_bounds (a : Nat) :
    (a : ℚ) / 10 ^ 9 * (1 - 1 / 2 ^ 53) ^ 3 ≤ secs64 fl a ∧ secs64 fl a ≤ (a : ℚ) / 10 ^ 9 * (1 + 1 / 2 ^ 53) ^ 3 := by
  have hd : (a : ℚ) = ((a / 1000000000 : ℕ) : ℚ) * 1000000000 + ((a % 1000000000 : ℕ) : ℚ) := by
    have := Nat.div_add_mod a 1000000000
    have h2 : ((1000000000 * (a / 1000000000) + a % 1000000000 : ℕ) : ℚ) = (a : ℚ) := by rw [this]
    push_cast at h2; linarith
  unfold secs64
  generalize a / 1000000000 = s at hd ⊢
  generalize a % 1000000000 = n at hd ⊢
  have hs0 : (0 : ℚ) ≤ s := Nat.cast_nonneg _
  have hn0 : (0 : ℚ) ≤ n := Nat.cast_nonneg _
  have bs : Big (1 / 2 ^ 100) (s : ℚ) := (big_nat s).weak (by norm_num)
  have bn : Big (1 / 2 ^ 100) (n : ℚ) := (big_nat n).weak (by norm_num)
  have bs1 : Big (1 / 2) (fl s) := fl_big hfl (by norm_num) (big_nat s)
  have bn1 : Big (1 / 2) (fl n) := fl_big hfl (by norm_num) (big_nat n)
  have bn2 : Big (1 / 2 ^ 40) (fl n / 1000000000) := by
    have := (bn1.mul (k := 1 / 1000000000) (by norm_num)).weak (c' := 1 / 2 ^ 40) (by norm_num)
    rwa [← div_eq_mul_one_div] at this
  have bn3 : Big (1 / 2 ^ 41) (fl (fl n / 1000000000)) := (fl_big hfl (by norm_num) bn2).weak (by norm_num)
  have bsum : Big (1 / 2 ^ 41) (fl s + fl (fl n / 1000000000)) := (bs1.weak (by norm_num)).add (by norm_num) bn3
  have l1 := fl_lo hfl (x := s) (y := s) 1 (by norm_num) hs0 bs (by linarith)
  have u1 := fl_hi hfl (x := s) (y := s) 1 hs0 bs (by linarith)
  have l2 := fl_lo hfl (x := n) (y := n) 1 (by norm_num) hn0 bn (by linarith)
  have u2 := fl_hi hfl (x := n) (y := n) 1 hn0 bn (by linarith)
  have n2 := fl_nonneg hfl hn0 bn
  have l3 := fl_lo hfl (x := fl n / 1000000000) (y := n / 1000000000) (1 * (1 - 1 / 2 ^ 53)) (by norm_num)
    (by positivity) (bn2.weak (by norm_num)) (by linarith)
  have u3 := fl_hi hfl (x := fl n / 1000000000) (y := n / 1000000000) (1 * (1 + 1 / 2 ^ 53)) (by positivity)
    (bn2.weak (by norm_num)) (by linarith)
  have n1 := fl_nonneg hfl hs0 bs
  have n3 := fl_nonneg hfl (x := fl n / 1000000000) (by positivity) (bn2.weak (by norm_num))
  have ha : (a : ℚ) / 10 ^ 9 = s + n / 1000000000 := by rw [hd]; ring
  rw [ha]
  have hy : (0 : ℚ) ≤ s + n / 1000000000 := by positivity
  have l4 := fl_lo hfl (x := fl s + fl (fl n / 1000000000)) (y := s + n / 1000000000)
    ((1 - 1 / 2 ^ 53) ^ 2) (by norm_num) hy (bsum.weak (by norm_num)) (by
      have : (s : ℚ) * (1 - 1 / 2 ^ 53) ^ 2 ≤ s * (1 * (1 - 1 / 2 ^ 53)) :=
        mul_le_mul_of_nonneg_left (by norm_num) hs0
      have e : (n : ℚ) / 1000000000 * (1 - 1 / 2 ^ 53) ^ 2
          = n / 1000000000 * (1 * (1 - 1 / 2 ^ 53) * (1 - 1 / 2 ^ 53)) := by ring
      rw [add_mul, e]; linarith)
  have u4 := fl_hi hfl (x := fl s + fl (fl n / 1000000000)) (y := s + n / 1000000000)
    ((1 + 1 / 2 ^ 53) ^ 2) (by linarith) (bsum.weak (by norm_num)) (by
      have : (s : ℚ) * (1 * (1 + 1 / 2 ^ 53)) ≤ s * (1 + 1 / 2 ^ 53) ^ 2 :=
        mul_le_mul_of_nonneg_left (by norm_num) hs0
      have e : (n : ℚ) / 1000000000 * (1 + 1 / 2 ^ 53) ^ 2
          = n / 1000000000 * (1 * (1 + 1 / 2 ^ 53) * (1 + 1 / 2 ^ 53)) := by ring
      rw [add_mul, e]; linarith)
  constructor
  · calc _ = (s + n / 1000000000 : ℚ) * ((1 - 1 / 2 ^ 53) ^ 2 * (1 - 1 / 2 ^ 53)) := by ring
      _ ≤ _ := l4
  · calc _ ≤ (s + n / 1000000000 : ℚ) * ((1 + 1 / 2 ^ 53) ^ 2 * (1 + 1 / 2 ^ 53)) := u4
      _ = _ := by ring

theorem secs64_big (a : Nat) : Big (1 / 2 ^ 42) (secs64 fl a) := by
  unfold secs64
  generalize a / 1000000000 = s
  generalize a % 1000000000 = n
  have bs1 : Big (1 / 2) (fl s) := fl_big hfl (by norm_num) (big_nat s)
  have bn1 : Big (1 / 2) (fl n) := fl_big hfl (by norm_num) (big_nat n)
  have bn2 : Big (1 / 2 ^ 40) (fl n / 1000000000) := by
    have := (bn1.mul (k := 1 / 1000000000) (by norm_num)).weak (c' := 1 / 2 ^ 40) (by norm_num)
    rwa [← div_eq_mul_one_div] at this
  have bn3 : Big (1 / 2 ^ 41) (fl (fl n / 1000000000)) := (fl_big hfl (by norm_num) bn2).weak (by norm_num)
  have bsum : Big (1 / 2 ^ 41) (fl s + fl (fl n / 1000000000)) := (bs1.weak (by norm_num)).add (by norm_num) bn3
  exact (fl_big hfl (by norm_num) bsum).weak (by norm_num)

/-- The new interval is 1.1 times the time elapsed, rounded up to a whole millisecond, with an error of at most one part
in `2^50`; `a` is below 292 years. -/
theorem stretch_bounds (a : Nat) (ha : a < 2 ^ 63) :
    (a : ℚ) / 10 ^ 6 * (11 / 10 * (1 - 1 / 2 ^ 50)) ≤ stretch fl a ∧
    (stretch fl a : ℚ) < (a : ℚ) / 10 ^ 6 * (11 / 10 * (1 + 1 / 2 ^ 50)) + 1 := by
  obtain ⟨l, u⟩ := secs64_bounds hfl a
  have ha0 : (0 : ℚ) ≤ (a : ℚ) / 10 ^ 9 := by positivity
  have hs0 : 0 ≤ secs64 fl a := le_trans (mul_nonneg ha0 (by norm_num)) l
  have bc : Big (1 / 2 ^ 100) (11 / 10 : ℚ) := .inr (by norm_num)
  have lc := fl_lo hfl (x := 11 / 10) (y := 11 / 10) 1 (by norm_num) (by norm_num) bc (by norm_num)
  have uc := fl_hi hfl (x := 11 / 10) (y := 11 / 10) 1 (by norm_num) bc (by norm_num)
  generalize hc : fl (11 / 10) = c at lc uc
  have hc0 : 0 ≤ c := le_trans (by norm_num) lc
  have hp0 : 0 ≤ secs64 fl a * c := mul_nonneg hs0 hc0
  have bp : Big (1 / 2 ^ 42) (secs64 fl a * c) := by
    have h1 : (1 : ℚ) ≤ c := le_trans (by norm_num) lc
    refine ((secs64_big hfl a).mul hc0).weak ?_
    have : (0 : ℚ) ≤ 1 / 2 ^ 42 := by norm_num
    nlinarith
  have bq : Big (1 / 2 ^ 43) (fl (secs64 fl a * c) * 1000) :=
    ((fl_big hfl (by norm_num) bp).mul (k := 1000) (by norm_num)).weak (by norm_num)
  have hlo : (a : ℚ) / 10 ^ 9 * ((1 - 1 / 2 ^ 53) ^ 3 * (11 / 10 * (1 * (1 - 1 / 2 ^ 53)))) ≤ secs64 fl a * c := by
    rw [← mul_assoc]
    exact mul_le_mul l lc (by norm_num) hs0
  have hhi : secs64 fl a * c ≤ (a : ℚ) / 10 ^ 9 * ((1 + 1 / 2 ^ 53) ^ 3 * (11 / 10 * (1 * (1 + 1 / 2 ^ 53)))) := by
    rw [← mul_assoc]
    exact mul_le_mul u uc hc0 (mul_nonneg ha0 (by norm_num))
  have l2 := fl_lo hfl _ (by norm_num) ha0 (bp.weak (by norm_num)) hlo
  have u2 := fl_hi hfl _ hp0 (bp.weak (by norm_num)) hhi
  have hq0 := fl_nonneg hfl hp0 (bp.weak (by norm_num))
  have ha6 : (0 : ℚ) ≤ (a : ℚ) / 10 ^ 6 := by positivity
  have l3 := fl_lo hfl (x := fl (secs64 fl a * c) * 1000) (y := (a : ℚ) / 10 ^ 6)
    ((1 - 1 / 2 ^ 53) ^ 3 * (11 / 10 * (1 * (1 - 1 / 2 ^ 53))) * (1 - 1 / 2 ^ 53)) (by norm_num) ha6
    (bq.weak (by norm_num)) (le_trans (le_of_eq (by ring)) (mul_le_mul_of_nonneg_right l2 (by norm_num : (0 : ℚ) ≤ 1000)))
  have u3 := fl_hi hfl (x := fl (secs64 fl a * c) * 1000) (y := (a : ℚ) / 10 ^ 6)
    ((1 + 1 / 2 ^ 53) ^ 3 * (11 / 10 * (1 * (1 + 1 / 2 ^ 53))) * (1 + 1 / 2 ^ 53)) (by positivity)
    (bq.weak (by norm_num)) (le_trans (mul_le_mul_of_nonneg_right u2 (by norm_num : (0 : ℚ) ≤ 1000)) (le_of_eq (by ring)))
  have hw0 := fl_nonneg hfl (x := fl (secs64 fl a * c) * 1000) (by positivity) (bq.weak (by norm_num))
  unfold stretch
  rw [hc]
  generalize fl (fl (secs64 fl a * c) * 1000) = w at l3 u3 hw0 ⊢
  have l4 : (a : ℚ) / 10 ^ 6 * (11 / 10 * (1 - 1 / 2 ^ 50)) ≤ w :=
    le_trans (mul_le_mul_of_nonneg_left (by norm_num) ha6) l3
  have u4 : w ≤ (a : ℚ) / 10 ^ 6 * (11 / 10 * (1 + 1 / 2 ^ 50)) :=
    le_trans u3 (mul_le_mul_of_nonneg_left (by norm_num) ha6)
  have hcl : w ≤ (⌈w⌉ : ℚ) := Int.le_ceil w
  have hcu : (⌈w⌉ : ℚ) < w + 1 := Int.ceil_lt_add_one w
  have hc0' : 0 ≤ ⌈w⌉ := Int.ceil_nonneg hw0
  have ecast : ((⌈w⌉.toNat : ℕ) : ℚ) = (⌈w⌉ : ℚ) := by
    exact_mod_cast congrArg (Int.cast : ℤ → ℚ) (Int.toNat_of_nonneg hc0')
  have hsmall : ⌈w⌉.toNat ≤ 2 ^ 64 - 1 := by
    have h1 : (a : ℚ) < 2 ^ 63 := by exact_mod_cast ha
    have h2 : ((⌈w⌉.toNat : ℕ) : ℚ) < 2 ^ 63 := by
      rw [ecast]
      have : (a : ℚ) / 10 ^ 6 * (11 / 10 * (1 + 1 / 2 ^ 50)) ≤ 2 ^ 63 / 10 ^ 6 * (11 / 10 * (1 + 1 / 2 ^ 50)) :=
        mul_le_mul_of_nonneg_right (div_le_div_of_nonneg_right h1.le (by norm_num)) (by norm_num)
      have : (2 : ℚ) ^ 63 / 10 ^ 6 * (11 / 10 * (1 + 1 / 2 ^ 50)) + 1 < 2 ^ 63 := by norm_num
      linarith
    have h3 : ⌈w⌉.toNat < 2 ^ 63 := by exact_mod_cast h2
    have : (2 : ℕ) ^ 63 ≤ 2 ^ 64 - 1 := by norm_num
    omega
  rw [Nat.min_eq_left hsmall, ecast]
  exact ⟨by linarith, by linarith⟩

theorem stretch_ge (a i : Nat) (ha : a < 2 ^ 63) (h : i * MS < a) : i < stretch fl a ∧ a ≤ stretch fl a * MS := by
  obtain ⟨l, -⟩ := stretch_bounds hfl a ha
  have h0 : (0 : ℚ) < a := by
    have : 0 < a := by omega
    exact_mod_cast this
  have h1 : (a : ℚ) / 10 ^ 6 < stretch fl a := by
    refine lt_of_lt_of_le ?_ l
    have : (0 : ℚ) < (a : ℚ) / 10 ^ 6 := by positivity
    calc (a : ℚ) / 10 ^ 6 = (a : ℚ) / 10 ^ 6 * 1 := by ring
      _ < _ := mul_lt_mul_of_pos_left (by norm_num) this
  have h2 : (a : ℚ) < stretch fl a * 10 ^ 6 := by
    rwa [div_lt_iff₀ (by norm_num)] at h1
  have h3 : a < stretch fl a * 1000000 := by
    have : (a : ℚ) < ((stretch fl a * 1000000 : ℕ) : ℚ) := by push_cast; linarith
    exact_mod_cast this
  unfold MS at h ⊢
  exact ⟨by omega, by omega⟩
end

/-! ## One call -/

section
variable {fl : ℚ → ℚ} (hfl : Rounding fl)
include hfl

omit hfl in
theorem poll_late (c : Clock) (now : Nat) (late : c.last + c.interval * MS < now) :
    c.poll fl now = (⟨c.last + stretch fl (now - c.last) * MS, stretch fl (now - c.last)⟩,
      c.last + stretch fl (now - c.last) * MS - now) := by
  simp only [Clock.poll, poll, if_pos late, Option.getD_some]

omit hfl in
theorem poll_onTime (c : Clock) (now : Nat) (late : ¬ c.last + c.interval * MS < now) :
    c.poll fl now = (⟨c.last + c.interval * MS, c.interval⟩, c.last + c.interval * MS - now) := by
  simp only [Clock.poll, poll, if_neg late, Option.getD_none]

/-- **C66.** The next poll is never scheduled in the past, and the delay that is returned is the time left until then.
(Instants are less than 292 years after each other.) -/
theorem c66_deadline_not_past (c : Clock) (now : Nat) (h : now < c.last + 2 ^ 63) :
    now ≤ (c.poll fl now).1.last ∧ now + (c.poll fl now).2 = (c.poll fl now).1.last := by
  by_cases late : c.last + c.interval * MS < now
  · rw [poll_late c now late]
    have := (stretch_ge hfl (now - c.last) c.interval (by omega) (by omega)).2
    exact ⟨by simp only; omega, by simp only; omega⟩
  · rw [poll_onTime c now late]
    exact ⟨by simp only; omega, by simp only; omega⟩

omit hfl in
/-- **C66.** When the program keeps up, the schedule does not drift: whatever the instants at which the polls are made,
as long as none of them comes more than one interval after the previous deadline, the `n`-th deadline is `n`
intervals after the start, and the interval does not change. -/
theorem c66_no_drift (c : Clock) (times : List Nat)
    (h : ∀ k (hk : k < times.length), times[k] ≤ c.last + (k + 1) * (c.interval * MS)) :
    c.polls fl times = ⟨c.last + times.length * (c.interval * MS), c.interval⟩ := by
  induction times generalizing c with
  | nil => simp [Clock.polls]
  | cons t ts ih =>
    have h0 := h 0 (by simp)
    simp only [List.getElem_cons_zero, Nat.zero_add, Nat.one_mul] at h0
    have e : (c.poll fl t).1 = ⟨c.last + c.interval * MS, c.interval⟩ := by
      simp only [Clock.poll, poll]
      rw [if_neg (by omega)]; rfl
    rw [Clock.polls, e, ih]
    · simp only [List.length_cons, Clock.mk.injEq, and_true]
      rw [Nat.add_mul]; omega
    · intro k hk
      have := h (k + 1) (by simpa using hk)
      simp only [List.getElem_cons_succ] at this
      simp only
      have e2 : (k + 1 + 1) * (c.interval * MS) = c.interval * MS + (k + 1) * (c.interval * MS) := by ring
      omega

/-- **C66.** When a poll comes too late, all polls get rarer: the interval becomes 1.1 times the time that this poll
took, rounded up to a millisecond (up to one part in `2^50`); it always increases; and the next poll of this clock is
one new interval after the previous one. -/
theorem c66_backs_off (c : Clock) (now : Nat) (h : now < c.last + 2 ^ 63) (late : c.last + c.interval * MS < now) :
    c.interval < (c.poll fl now).1.interval ∧
    (c.poll fl now).1.last = c.last + (c.poll fl now).1.interval * MS ∧
    ((now - c.last : ℕ) : ℚ) / 10 ^ 6 * (11 / 10 * (1 - 1 / 2 ^ 50)) ≤ (c.poll fl now).1.interval ∧
    ((c.poll fl now).1.interval : ℚ) < ((now - c.last : ℕ) : ℚ) / 10 ^ 6 * (11 / 10 * (1 + 1 / 2 ^ 50)) + 1 := by
  have e : (c.poll fl now).1 = ⟨c.last + stretch fl (now - c.last) * MS, stretch fl (now - c.last)⟩ := by
    simp only [Clock.poll, poll]
    rw [if_pos late]; rfl
  rw [e]
  exact ⟨(stretch_ge hfl (now - c.last) c.interval (by omega) (by omega)).1, rfl,
    stretch_bounds hfl (now - c.last) (by omega)⟩

/-- A poll moves the deadline by at least the interval, and does not shorten the interval. -/
theorem poll_grows (c : Clock) (now : Nat) (h : now < c.last + 2 ^ 63) :
    c.last + c.interval * MS ≤ (c.poll fl now).1.last ∧ c.interval ≤ (c.poll fl now).1.interval ∧
    (c.poll fl now).1.last = c.last + (c.poll fl now).1.interval * MS := by
  by_cases late : c.last + c.interval * MS < now
  · obtain ⟨h1, h2, -⟩ := c66_backs_off hfl c now h late
    have := Nat.mul_le_mul_right MS h1.le
    exact ⟨by omega, h1.le, h2⟩
  · have e : (c.poll fl now).1 = ⟨c.last + c.interval * MS, c.interval⟩ := by
      simp only [Clock.poll, poll]
      rw [if_neg late]; rfl
    rw [e]; exact ⟨le_rfl, le_rfl, rfl⟩

/-! ## The loops that use the clock -/

/-- How `wait_timeout(poll_delay())` / `recv_timeout(poll_delay())` ends. -/
inductive Wake where
  /-- something arrived before the deadline -/
  | event
  /-- the deadline passed -/
  | timeout
  deriving DecidableEq

omit hfl in
/-- An iteration of the main loop (main.rs 79-113), or of the loop of a worker (worker.rs 68-83) which ends at the first
event: the clock is polled at `now`; an event wakes the thread up before the deadline, a timeout after it. The next
poll is made at `t`. -/
inductive Iter (fl : ℚ → ℚ) (c : Clock) (now : Nat) : Wake → Clock → Nat → Prop
  | event (t : Nat) : now ≤ t → t < c.last + 2 ^ 63 → Iter fl c now .event (c.poll fl now).1 t
  | timeout (t : Nat) : now + (c.poll fl now).2 ≤ t → Iter fl c now .timeout (c.poll fl now).1 t

omit hfl in
/-- A history of iterations. Each entry: how the iteration ended and when. Polls are less than 292 years apart. -/
inductive Run (fl : ℚ → ℚ) : Clock → Nat → List (Wake × Nat) → Clock → Nat → Prop
  | nil (c : Clock) (now : Nat) : Run fl c now [] c now
  | cons {c c' c'' : Clock} {now t t' : Nat} {w : Wake} {l : List (Wake × Nat)} : now < c.last + 2 ^ 63 →
      Iter fl c now w c' t → Run fl c' t l c'' t' → Run fl c now ((w, t) :: l) c'' t'

/-- **C66.** *What the main thread should not do*: every job result postpones the supervision of memory by one more
interval. In every history, the system is examined at the `k`-th iteration (results and timeouts together) at the
earliest `k` intervals after the start, however fast the results come. -/
theorem c66_results_postpone_supervision {c c' : Clock} {now t' : Nat} {l : List (Wake × Nat)}
    (h : Run fl c now l c' t') (k : Nat) (hk : k < l.length) (hw : (l[k]).1 = .timeout) :
    c.last + (k + 1) * (c.interval * MS) ≤ (l[k]).2 := by
  induction h generalizing k with
  | nil => simp at hk
  | @cons c c1 c2 now t t' w l hb hi hr ih =>
    cases k with
    | zero =>
      simp only [List.getElem_cons_zero] at hw ⊢
      subst hw
      cases hi with
      | timeout _ ht =>
        have := (c66_deadline_not_past hfl c now hb).2
        have g := (poll_grows hfl c now hb).1
        omega
    | succ k =>
      simp only [List.getElem_cons_succ] at hw ⊢
      have := ih k (by simpa using hk) hw
      have e : c1 = (c.poll fl now).1 := by cases hi <;> rfl
      have g := poll_grows hfl c now hb
      rw [← e] at g
      have m := Nat.mul_le_mul_right MS g.2.1
      have m2 := Nat.mul_le_mul_left (k + 1) m
      have e2 : (k + 1 + 1) * (c.interval * MS) = c.interval * MS + (k + 1) * (c.interval * MS) := by ring
      omega

omit hfl in
/-- **C66.** Conversely, as long as results come at least once per interval on average, the system is never examined:
this is a possible history, for every number of results. -/
theorem c66_supervision_can_starve (c : Clock) (times : List Nat) (now : Nat) (h0 : now ≤ c.last + c.interval * MS)
    (mono : (now :: times).Pairwise (· ≤ ·)) (bound : ∀ t ∈ times, t < c.last + 2 ^ 63)
    (h : ∀ k (hk : k < times.length), times[k] ≤ c.last + (k + 1) * (c.interval * MS)) :
    ∃ c' t', Run fl c now (times.map fun t => (Wake.event, t)) c' t' := by
  induction times generalizing c now with
  | nil => exact ⟨_, _, .nil c now⟩
  | cons t ts ih =>
    have e : (c.poll fl now).1 = ⟨c.last + c.interval * MS, c.interval⟩ := by
      simp only [Clock.poll, poll]
      rw [if_neg (by omega)]; rfl
    have hm := List.pairwise_cons.1 mono
    have ht := bound t (by simp)
    have hnt := hm.1 t (by simp)
    have h1 := h 0 (by simp)
    simp only [List.getElem_cons_zero, Nat.zero_add, Nat.one_mul] at h1
    obtain ⟨c', t', hr⟩ := ih ⟨c.last + c.interval * MS, c.interval⟩ t (by simp only; omega) hm.2
      (fun u hu => by have := bound u (by simp [hu]); simp only; omega)
      (fun k hk => by
        have := h (k + 1) (by simpa using hk)
        simp only [List.getElem_cons_succ] at this
        simp only
        have e2 : (k + 1 + 1) * (c.interval * MS) = c.interval * MS + (k + 1) * (c.interval * MS) := by ring
        omega)
    exact ⟨c', t', .cons (by omega) (.event t hnt ht) (e ▸ hr)⟩

/-- **C66.** A worker polls its job regularly: as long as it is only woken up by timeouts, each delay is at most the
current interval, and the job is examined again no earlier than the deadline. -/
theorem c66_worker_polls_regularly {c c' : Clock} {now t' : Nat} {l : List (Wake × Nat)} (h : Run fl c now l c' t')
    (start : c.last ≤ now) (all : ∀ e ∈ l, e.1 = Wake.timeout) (hb : t' < c'.last + 2 ^ 63) :
    c'.last ≤ t' ∧ (c'.poll fl t').2 ≤ (c'.poll fl t').1.interval * MS ∧ c.interval ≤ c'.interval := by
  induction h with
  | nil c now =>
    refine ⟨start, ?_, le_rfl⟩
    have h1 := (c66_deadline_not_past hfl c now hb).2
    have h2 := (poll_grows hfl c now hb).2.2
    omega
  | @cons c c1 c2 now t t' w l hb' hi hr ih =>
    have hw := all (w, t) (by simp)
    simp only at hw; subst hw
    cases hi with
    | timeout _ ht =>
      have h1 := (c66_deadline_not_past hfl c now hb').2
      have g := (poll_grows hfl c now hb').2.1
      obtain ⟨a, b, d⟩ := ih (by omega) (fun e he => all e (by simp [he])) hb
      exact ⟨a, b, le_trans g d⟩
end

/-! ## All threads together -/

/-- The threads of a measurement: the shared interval, the clock of each thread, and the calls of `poll_delay` that have
read the interval (with the value read and the time) but are not finished. The interval is read and written by
separate atomic operations. -/
structure Threads (n : Nat) where
  interval : Nat
  last : Fin n → Nat
  pending : Fin n → Option (Nat × Nat)

/-- One step of a thread. -/
inductive TStep (fl : ℚ → ℚ) {n : Nat} : Threads n → Threads n → Prop
  /-- `PollClock::start` -/
  | start (s : Threads n) (i : Fin n) (now : Nat) : s.pending i = none →
      TStep fl s { s with last := fun j => if j = i then now else s.last j }
  /-- mod.rs 295-296: read the clock and the interval -/
  | load (s : Threads n) (i : Fin n) (now : Nat) : s.pending i = none → now < s.last i + 2 ^ 63 →
      TStep fl s { s with pending := fun j => if j = i then some (now, s.interval) else s.pending j }
  /-- mod.rs 297-308: the rest -/
  | finish (s : Threads n) (i : Fin n) (now v : Nat) : s.pending i = some (now, v) →
      TStep fl s
        { interval := ((poll fl (s.last i) now v).2.1).getD s.interval
          last := fun j => if j = i then (poll fl (s.last i) now v).1 else s.last j
          pending := fun j => if j = i then none else s.pending j }

/-- Reachability. -/
inductive TReach (fl : ℚ → ℚ) {n : Nat} (s : Threads n) : Threads n → Prop
  | refl : TReach fl s s
  | step {a b : Threads n} : TReach fl s a → TStep fl a b → TReach fl s b

/-- **C66.** In every interleaving of any number of threads, the interval never goes below its initial value. -/
theorem c66_interval_at_least_initial {fl : ℚ → ℚ} (hfl : Rounding fl) {n : Nat} {s s' : Threads n}
    (h0 : ∀ i, s.pending i = none) (h : TReach fl s s') : s.interval ≤ s'.interval := by
  have inv : s.interval ≤ s'.interval ∧
      ∀ i now v, s'.pending i = some (now, v) → s.interval ≤ v ∧ now < s'.last i + 2 ^ 63 := by
    induction h with
    | refl => exact ⟨le_rfl, fun i now v e => by rw [h0] at e; cases e⟩
    | @step a b hr st ih =>
      cases st with
      | start i now hn =>
        refine ⟨ih.1, fun j t v e => ?_⟩
        by_cases hj : j = i
        · subst hj; rw [hn] at e; cases e
        · simp only [if_neg hj]; exact ih.2 j t v e
      | load i now hn hb =>
        refine ⟨ih.1, fun j t v e => ?_⟩
        by_cases hj : j = i
        · subst hj
          simp only [if_true, Option.some.injEq, Prod.mk.injEq] at e
          obtain ⟨rfl, rfl⟩ := e
          exact ⟨ih.1, hb⟩
        · simp only [if_neg hj] at e; exact ih.2 j t v e
      | finish i now v hp =>
        obtain ⟨hv, hb⟩ := ih.2 i now v hp
        refine ⟨?_, fun j t w e => ?_⟩
        · simp only [poll]
          split
          · rename_i hlt
            have := (stretch_ge hfl (now - a.last i) v (by omega) (by omega)).1
            simp only [Option.getD_some]; omega
          · exact ih.1
        · by_cases hj : j = i
          · subst hj; simp at e
          · simp only [if_neg hj] at e ⊢; exact ih.2 j t w e
  exact inv.1

/-- Exact arithmetic is a rounding. -/
theorem rounding_id : Rounding (fun x => x) := ⟨rfl, fun x hx => by
  have : (0 : ℚ) ≤ x := le_trans (by norm_num) hx
  simp only [sub_self, abs_zero]; positivity⟩

/-- So is the arithmetic of the program. -/
theorem rounding_binary64 : Rounding Binary64.rnd := by
  refine ⟨Binary64.rnd_zero, fun x hx => Binary64.rnd_rel (le_trans ?_ hx)⟩
  have h : (2 : ℚ) ^ (-1022 : ℤ) ≤ 2 ^ (-100 : ℤ) := zpow_le_zpow_right₀ (by norm_num) (by norm_num)
  refine le_trans h (le_of_eq ?_)
  rw [zpow_neg, one_div]
  norm_cast

/-- Two threads that have just started. -/
def two : Threads 2 := ⟨50, fun _ => 0, fun _ => none⟩

/-- **C66.** *Defect*: the documentation says that the interval `may increase if the code can't keep up`. It can also
shrink: two threads read it, one notices a long delay and raises it to 1100 ms, then the other, less late, brings it
back to 66 ms. -/
theorem c66_interval_shrinks_violated : ∃ a b : Threads 2, TReach Binary64.rnd two a ∧ TReach Binary64.rnd a b ∧
    a.interval = 1100 ∧ b.interval = 66 := by
  let a1 : Threads 2 := { two with pending := fun j => if j = 1 then some (60000000, 50) else two.pending j }
  let a2 : Threads 2 := { a1 with pending := fun j => if j = 0 then some (1000000000, 50) else a1.pending j }
  refine ⟨_, _, .step (.step (.step .refl (.load two 1 60000000 rfl (by norm_num [two])))
    (.load a1 0 1000000000 rfl (by norm_num [a1, two]))) (.finish a2 0 1000000000 50 rfl),
    .step .refl (.finish _ 1 60000000 50 rfl), ?_, ?_⟩
  · decide +kernel
  · decide +kernel

-- Concrete cases.
example : (Clock.mk 0 50).poll Binary64.rnd 30000000 = (⟨50000000, 50⟩, 20000000) := by decide +kernel
/-- In binary64, 0.1 s times 1.1 is above 110 ms. -/
example : (Clock.mk 0 50).poll Binary64.rnd 100000000 = (⟨111000000, 111⟩, 11000000) := by decide +kernel
/-- Ten results at once: the memory is next examined after half a second. -/
example : (((Clock.mk 0 50).polls Binary64.rnd (List.replicate 10 0)).poll Binary64.rnd 0).2 = 550000000 := by
  decide +kernel
example := c66_no_drift (fl := Binary64.rnd) ⟨0, 50⟩ [1000000, 99000000, 120000000] (by decide)
example := c66_backs_off rounding_binary64 ⟨0, 50⟩ 100000000 (by decide) (by decide)
example := c66_supervision_can_starve (fl := Binary64.rnd) ⟨0, 50⟩ [10000000, 20000000, 30000000] 0 (by decide) (by decide)
  (by decide) (by decide)
example : Run Binary64.rnd ⟨0, 50⟩ 0 [(.timeout, 50000000)] ⟨50000000, 50⟩ 50000000 :=
  .cons (by decide) (.timeout 50000000 (by decide +kernel)) (.nil _ _)

end Verif.Measure.Poll
