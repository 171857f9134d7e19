/-
C94: how times written as decimal numbers are read: serde_json 1.0.133 (/repo/Cargo.lock 1367-1368; /repo/Cargo.toml 65, without the
feature `float_roundtrip`), which clang-time-trace uses to read `Timestamp` and `Duration`, both `f64`
(clang-time-trace/src/ctf/mod.rs 121-125). Its functions (src/de.rs of serde_json, not in /repo) are modelled from their known source.
Simplified: exponents counted in an `i32` are unbounded here until they are saturated (the theorems are about texts of less than
2^30 characters); −0 is 0.
-/
import Verif.Analysis.FracTypes

set_option autoImplicit false
set_option linter.unusedVariables false
set_option linter.unusedSimpArgs false
set_option linter.unusedSectionVars false

set_option exponentiation.threshold 3000
set_option maxRecDepth 8000

namespace Verif.Trace.Ctf.Text.Decimal

open Verif.Tree (F64)

/-! ### Model -/

/-- Digits are accumulated in a `u64` as long as they fit (`parse_integer`, `parse_decimal`, macro `overflow!`); the others are only
counted (`parse_long_integer`) or ignored (`parse_decimal_overflow`). Result: significand, number of digits taken, of others. -/
def acc (s : Nat) : List Char → Nat × Nat × Nat
  | [] => (s, 0, 0)
  | c :: cs =>
    if 2 ^ 64 ≤ 10 * s + (c.toNat - 48) then (s, 0, cs.length + 1)
    else ((acc (10 * s + (c.toNat - 48)) cs).1, (acc (10 * s + (c.toNat - 48)) cs).2.1 + 1, (acc (10 * s + (c.toNat - 48)) cs).2.2)

/-- `POW10`: the constants `1e000` to `1e308` -/
def pow10 (k : Nat) : ℚ := Binary64.rnd (10 ^ k)

/-- Loop of `f64_from_parts`. A product that overflows is an error. -/
def scale (f : ℚ) (exponent : Int) : Option ℚ :=
  if exponent.natAbs ≤ 308 then
    if 0 ≤ exponent then
      if Binary64.rnd (f * pow10 exponent.natAbs) < 2 ^ 1024 then some (Binary64.rnd (f * pow10 exponent.natAbs)) else none
    else some (Binary64.rnd (f / pow10 exponent.natAbs))
  else if f = 0 then some f
  else if 0 ≤ exponent then none
  else scale (Binary64.rnd (f / pow10 308)) (exponent + 308)
termination_by exponent.natAbs
decreasing_by omega

/-- `f64_from_parts` (serde_json de.rs, called for clang-time-trace/src/ctf/mod.rs 124-127) -/
def fromParts (sg : List Char) (significand : Nat) (exponent : Int) : Option F64 :=
  (scale (Binary64.rnd significand) exponent).map fun f => ⟨if sg = [] then f else -f⟩

/-- `i32::saturating_add`, `i32::saturating_sub` -/
def saturate (x : Int) : Int := max (-2 ^ 31) (min (2 ^ 31 - 1) x)

/-- `parse_exponent`, `parse_exponent_overflow`: `e` is the text of the exponent, possibly empty. -/
def withExp (sg : List Char) (significand : Nat) (start : Int) (e : List Char) : Option F64 :=
  match e with
  | [] => fromParts sg significand start
  | _ :: r =>
    if 2 ^ 31 ≤ natOf (expSign r).2 then
      if significand ≠ 0 ∧ (expSign r).1 ≠ ['-'] then none else some ⟨0⟩
    else if (expSign r).1 = ['-'] then fromParts sg significand (saturate (start - natOf (expSign r).2))
    else fromParts sg significand (saturate (start + natOf (expSign r).2))

/-- `parse_integer`, `parse_number`, `parse_long_integer`, `parse_decimal` for a number that becomes a float. -/
def ofText (sg i f e : List Char) : Option F64 :=
  withExp sg (acc (acc 0 i).1 f.tail).1 ((acc 0 i).2.2 - (acc (acc 0 i).1 f.tail).2.1 : Int) e

/-- The conversion as a function of the text of the number (`dec` of `Trace/JsonText`). -/
def dec (t : List Char) : Option F64 :=
  match intPart (numSign t).2 with
  | none => none
  | some (i, r) =>
    match fracPart r with
    | none => none
    | some (f, r) =>
      match expPart r with
      | none => none
      | some (e, _) => ofText (numSign t).1 i f e

/-! ### Specification -/

/-- Exponent that the text `e` (`e`, `E` and an optional sign before digits, or nothing) stands for. -/
def expValue : List Char → Int
  | [] => 0
  | _ :: '-' :: ds => -numeral ds
  | _ :: '+' :: ds => numeral ds
  | _ :: ds => numeral ds

/-- The number that a text of sign, integer part, fraction (with its point) and exponent stands for. -/
def value (sg i f e : List Char) : ℚ :=
  (if sg = ['-'] then -1 else 1) * numeral (i ++ f.tail) * 10 ^ (expValue e - f.tail.length)

/-! ### Proofs -/

theorem numeral_append (a b : List Char) : numeral (a ++ b) = numeral a * 10 ^ b.length + numeral b := by
  induction a with
  | nil => simp [numeral]
  | cons c a ih => simp only [List.cons_append, numeral, ih, List.length_append, pow_add]; ring

theorem digit_le {c : Char} (h : '0' ≤ c ∧ c ≤ '9') : c.toNat - 48 ≤ 9 := by
  have : c.toNat ≤ 57 := h.2
  omega

theorem numeral_lt {ds : List Char} (h : Digits ds) : numeral ds < 10 ^ ds.length := by
  induction ds with
  | nil => simp [numeral]
  | cons c cs ih =>
    have h1 := ih fun d hd => h d (by simp [hd])
    have h2 : c.toNat - 48 ≤ 9 := digit_le (h c (by simp))
    have e : '0'.toNat = 48 := rfl
    simp only [numeral, List.length_cons, pow_succ, e]
    nlinarith

theorem acc_spec {ds : List Char} (h : Digits ds) : ∀ s : Nat, s < 2 ^ 64 →
    (acc s ds).1 < 2 ^ 64 ∧ (acc s ds).2.1 + (acc s ds).2.2 = ds.length ∧
    (acc s ds).1 * 10 ^ (acc s ds).2.2 ≤ s * 10 ^ ds.length + numeral ds ∧
    s * 10 ^ ds.length + numeral ds < ((acc s ds).1 + 1) * 10 ^ (acc s ds).2.2 ∧
    ((acc s ds).2.2 = 0 ∨ 2 ^ 60 ≤ (acc s ds).1 ∧ 2 ^ 64 ≤ s * 10 ^ ds.length + numeral ds) := by
  induction ds with
  | nil => intro s hs; simpa [acc, numeral] using hs
  | cons c cs ih =>
    intro s hs
    have hc : Digits cs := fun d hd => h d (by simp [hd])
    have h2 : c.toNat - 48 ≤ 9 := digit_le (h c (by simp))
    have h3 := numeral_lt hc
    have e : '0'.toNat = 48 := rfl
    have hv : s * 10 ^ (c :: cs).length + numeral (c :: cs) = (10 * s + (c.toNat - 48)) * 10 ^ cs.length + numeral cs := by
      simp only [numeral, List.length_cons, pow_succ, e]; ring
    have hp : 1 ≤ 10 ^ cs.length := Nat.one_le_pow _ _ (by norm_num)
    rw [hv]
    generalize hd : c.toNat - 48 = d at *
    simp only [acc, hd]
    by_cases hov : 2 ^ 64 ≤ 10 * s + d
    · rw [if_pos hov]
      simp only [List.length_cons, pow_succ]
      generalize 10 ^ cs.length = P at *
      refine ⟨hs, by omega, ?_, ?_, .inr ⟨by omega, ?_⟩⟩
      · nlinarith
      · nlinarith
      · nlinarith
    · rw [if_neg hov]
      obtain ⟨a1, a2, a3, a4, a5⟩ := ih hc (10 * s + d) (by omega)
      simp only [List.length_cons]
      exact ⟨a1, by omega, a3, a4, a5⟩

/-- What fits is read exactly. -/
theorem acc_exact {ds : List Char} (h : Digits ds) {s : Nat} (hs : s < 2 ^ 64) (hv : s * 10 ^ ds.length + numeral ds < 2 ^ 64) :
    acc s ds = (s * 10 ^ ds.length + numeral ds, ds.length, 0) := by
  obtain ⟨a1, a2, a3, a4, a5⟩ := acc_spec h s hs
  rcases a5 with a5 | ⟨-, a5⟩
  · rw [a5] at a2 a3 a4
    simp only [pow_zero, mul_one] at a3 a4
    refine Prod.ext ?_ (Prod.ext ?_ a5)
    · show (acc s ds).1 = _; omega
    · show (acc s ds).2.1 = _; omega
  · omega

theorem pos_digit' {c : Char} (h : '1' ≤ c ∧ c ≤ '9') : '0' ≤ c ∧ c ≤ '9' := by
  refine ⟨?_, h.2⟩
  have : (49 : ℕ) ≤ c.toNat := h.1
  show (48 : ℕ) ≤ c.toNat
  omega

theorem int_digits {i : List Char} (h : IsInt i) : Digits i := by
  cases h with
  | zero => intro c hc; simp only [List.mem_singleton] at hc; subst hc; decide
  | pos c ds hc h =>
    intro d hd
    rcases List.mem_cons.1 hd with rfl | hd
    · exact ⟨(pos_digit' hc).1, (pos_digit' hc).2⟩
    · exact h d hd

theorem frac_digits {f : List Char} (h : IsFrac f) : Digits f.tail := by
  cases h with
  | none => intro c hc; simp at hc
  | point d ds h => exact h

/-- The digits kept stand for nearly the same number as all of them. -/
theorem significand {i f : List Char} (hi : Digits i) (hf : Digits f) :
    let s := (acc (acc 0 i).1 f).1
    let x : ℤ := (acc 0 i).2.2 - (acc (acc 0 i).1 f).2.1
    s < 2 ^ 64 ∧ |(s : ℚ) * 10 ^ x - numeral (i ++ f) * 10 ^ (-(f.length : ℤ))| ≤ numeral (i ++ f) * 10 ^ (-(f.length : ℤ)) / 2 ^ 60 ∧
      (numeral (i ++ f) < 2 ^ 64 → s = numeral (i ++ f) ∧ x = -f.length) := by
  intro s x
  obtain ⟨a1, a2, a3, a4, a5⟩ := acc_spec hi 0 (by norm_num)
  obtain ⟨b1, b2, b3, b4, b5⟩ := acc_spec hf (acc 0 i).1 a1
  have hex : numeral (i ++ f) < 2 ^ 64 → s = numeral (i ++ f) ∧ x = -f.length := by
    intro hlt
    rw [numeral_append] at hlt ⊢
    have hp : 1 ≤ 10 ^ f.length := Nat.one_le_pow _ _ (by norm_num)
    have h1 : acc 0 i = (numeral i, i.length, 0) := by
      have := acc_exact hi (s := 0) (by norm_num) (by rw [zero_mul, zero_add]; nlinarith)
      simpa using this
    have h2 : acc (numeral i) f = _ := acc_exact hf (by nlinarith) hlt
    constructor
    · show (acc (acc 0 i).1 f).1 = _
      rw [h1]; show (acc (numeral i) f).1 = _; rw [h2]
    · show ((acc 0 i).2.2 - (acc (acc 0 i).1 f).2.1 : ℤ) = _
      rw [h1]; show ((0 : ℕ) - (acc (numeral i) f).2.1 : ℤ) = _; rw [h2]; simp
  refine ⟨b1, ?_, hex⟩
  simp only [zero_mul, zero_add] at a3 a4 a5
  have hN := numeral_append i f
  have hlen : (f.length : ℤ) = (acc (acc 0 i).1 f).2.1 + (acc (acc 0 i).1 f).2.2 := by exact_mod_cast b2.symm
  generalize numeral (i ++ f) = N at *
  have hpf : (0 : ℚ) < 10 ^ (-(f.length : ℤ)) := zpow_pos (by norm_num) _
  rcases a5 with a5 | ⟨a5, -⟩
  · -- no digit of the integer part was dropped
    have e1 : (acc 0 i).1 = numeral i := by rw [a5] at a3 a4; omega
    rcases b5 with b5 | ⟨b5, -⟩
    · have hs : s = N := by
        rw [b5] at b3 b4
        simp only [pow_zero, mul_one] at b3 b4
        show (acc (acc 0 i).1 f).1 = N
        rw [hN, ← e1]; omega
      have hx : x = -(f.length : ℤ) := by
        show ((acc 0 i).2.2 - (acc (acc 0 i).1 f).2.1 : ℤ) = _
        rw [hlen, a5, b5]; simp
      rw [hs, hx, sub_self, abs_zero]; exact div_nonneg (mul_nonneg (Nat.cast_nonneg _) hpf.le) (by norm_num)
    · have hx : (10 : ℚ) ^ x = 10 ^ (-(f.length : ℤ)) * 10 ^ (acc (acc 0 i).1 f).2.2 := by
        rw [← zpow_natCast, ← zpow_add₀ (by norm_num)]
        congr 1
        show ((acc 0 i).2.2 - (acc (acc 0 i).1 f).2.1 : ℤ) = _
        rw [hlen, a5]; push_cast; ring
      rw [e1, ← hN] at b3 b4
      rw [e1] at b5
      have c3 : (s : ℚ) * 10 ^ (acc (acc 0 i).1 f).2.2 ≤ N := by rw [← e1] at b3; exact_mod_cast b3
      have c4 : (N : ℚ) < (s + 1) * 10 ^ (acc (acc 0 i).1 f).2.2 := by rw [← e1] at b4; exact_mod_cast b4
      have c5 : (2 : ℚ) ^ 60 ≤ s := by rw [← e1] at b5; exact_mod_cast b5
      have hP : (0 : ℚ) < 10 ^ (acc (acc 0 i).1 f).2.2 := by positivity
      rw [hx]
      generalize (10 : ℚ) ^ (acc (acc 0 i).1 f).2.2 = P at *
      generalize (10 : ℚ) ^ (-(f.length : ℤ)) = q at *
      rw [show (s : ℚ) * (q * P) - N * q = -((N - s * P) * q) by ring, abs_neg, abs_of_nonneg (mul_nonneg (by linarith) hpf.le),
        show (N : ℚ) * q / 2 ^ 60 = (N / 2 ^ 60) * q by ring]
      refine mul_le_mul_of_nonneg_right ?_ hpf.le
      rw [le_div_iff₀ (by norm_num)]
      have : (N - s * P) * 2 ^ 60 ≤ P * s := by
        have h1 : (N - s * P) ≤ P := by linarith
        calc (N - s * P) * 2 ^ 60 ≤ P * 2 ^ 60 := mul_le_mul_of_nonneg_right h1 (by norm_num)
          _ ≤ P * s := mul_le_mul_of_nonneg_left c5 hP.le
      linarith
  · -- both numbers begin with the digits kept of the integer part
    set s1 := (acc 0 i).1 with hs1
    set d1 := (acc 0 i).2.2 with hd1
    set t2 := (acc s1 f).2.1 with ht2
    set d2 := (acc s1 f).2.2 with hd2
    have hf' := numeral_lt hf
    have k1 : s1 * 10 ^ t2 ≤ s := by
      have : s1 * 10 ^ t2 * 10 ^ d2 < (s + 1) * 10 ^ d2 := by
        rw [mul_assoc, ← pow_add, b2]; exact lt_of_le_of_lt (Nat.le_add_right _ _) b4
      have := Nat.lt_of_mul_lt_mul_right this
      omega
    have k2 : s < (s1 + 1) * 10 ^ t2 := by
      have : s * 10 ^ d2 < (s1 + 1) * 10 ^ t2 * 10 ^ d2 := by
        rw [mul_assoc, ← pow_add, b2]
        refine lt_of_le_of_lt b3 ?_
        rw [add_mul, one_mul]; omega
      exact Nat.lt_of_mul_lt_mul_right this
    have hx : (10 : ℚ) ^ x * 10 ^ t2 = 10 ^ d1 := by
      rw [← zpow_natCast, ← zpow_natCast, ← zpow_add₀ (by norm_num)]
      congr 1
      show ((d1 : ℤ) - t2) + t2 = d1
      ring
    have hxp : (0 : ℚ) < 10 ^ x := zpow_pos (by norm_num) _
    have l1 : (s1 : ℚ) * 10 ^ d1 ≤ s * 10 ^ x := by
      rw [← hx]
      have : (s1 : ℚ) * 10 ^ t2 ≤ s := by exact_mod_cast k1
      calc (s1 : ℚ) * (10 ^ x * 10 ^ t2) = (s1 * 10 ^ t2) * 10 ^ x := by ring
        _ ≤ s * 10 ^ x := mul_le_mul_of_nonneg_right this hxp.le
    have l2 : (s : ℚ) * 10 ^ x ≤ (s1 + 1) * 10 ^ d1 := by
      rw [← hx]
      have : (s : ℚ) ≤ (s1 + 1) * 10 ^ t2 := by exact_mod_cast k2.le
      calc (s : ℚ) * 10 ^ x ≤ ((s1 + 1) * 10 ^ t2) * 10 ^ x := mul_le_mul_of_nonneg_right this hxp.le
        _ = (s1 + 1) * (10 ^ x * 10 ^ t2) := by ring
    have hq : (10 : ℚ) ^ f.length * 10 ^ (-(f.length : ℤ)) = 1 := by
      rw [← zpow_natCast, ← zpow_add₀ (by norm_num)]; simp
    have m1 : (s1 : ℚ) * 10 ^ d1 ≤ N * 10 ^ (-(f.length : ℤ)) := by
      have : (s1 : ℚ) * 10 ^ d1 * 10 ^ f.length ≤ N := by
        have : s1 * 10 ^ d1 * 10 ^ f.length ≤ N := by
          rw [hN]; exact le_trans (Nat.mul_le_mul_right _ a3) (Nat.le_add_right _ _)
        exact_mod_cast this
      calc (s1 : ℚ) * 10 ^ d1 = (s1 * 10 ^ d1 * 10 ^ f.length) * 10 ^ (-(f.length : ℤ)) := by rw [mul_assoc _ ((10 : ℚ) ^ f.length), hq, mul_one]
        _ ≤ _ := mul_le_mul_of_nonneg_right this hpf.le
    have m2 : (N : ℚ) * 10 ^ (-(f.length : ℤ)) ≤ (s1 + 1) * 10 ^ d1 := by
      have : (N : ℚ) ≤ (s1 + 1) * 10 ^ d1 * 10 ^ f.length := by
        have : N ≤ (s1 + 1) * 10 ^ d1 * 10 ^ f.length := by
          rw [hN]
          have : numeral i + 1 ≤ (s1 + 1) * 10 ^ d1 := a4
          calc numeral i * 10 ^ f.length + numeral f ≤ (numeral i + 1) * 10 ^ f.length := by rw [add_mul, one_mul]; omega
            _ ≤ _ := Nat.mul_le_mul_right _ this
        exact_mod_cast this
      calc (N : ℚ) * 10 ^ (-(f.length : ℤ)) ≤ ((s1 + 1) * 10 ^ d1 * 10 ^ f.length) * 10 ^ (-(f.length : ℤ)) := mul_le_mul_of_nonneg_right this hpf.le
        _ = (s1 + 1) * 10 ^ d1 := by rw [mul_assoc _ ((10 : ℚ) ^ f.length), hq, mul_one]
    have c5 : (2 : ℚ) ^ 60 ≤ s1 := by exact_mod_cast a5
    have hD : (0 : ℚ) < 10 ^ d1 := by positivity
    have c6 := mul_le_mul_of_nonneg_right c5 hD.le
    generalize (10 : ℚ) ^ d1 = D at *
    generalize (s : ℚ) * 10 ^ x = u at *
    generalize (N : ℚ) * 10 ^ (-(f.length : ℤ)) = v at *
    have h : D ≤ v / 2 ^ 60 := by rw [le_div_iff₀ (by norm_num)]; linarith
    rw [abs_le]
    constructor <;> linarith

theorem number_text {sg i f e : List Char} (hs : sg = [] ∨ sg = ['-']) (hi : IsInt i) (hf : IsFrac f) (he : IsExp e) :
    dec (sg ++ i ++ f ++ e) = ofText sg i f e := by
  have h1 : numSign (sg ++ i ++ f ++ e) = (sg, i ++ (f ++ e)) := by
    rw [List.append_assoc, List.append_assoc]; exact numSign_complete hs hi (f ++ e)
  have n1 : NotNext isDigit e := by
    cases he with
    | none => intro c s h; simp at h
    | exp c sg d ds hc hs h =>
      rintro c' s' h'
      obtain rfl : c = c' := by simpa using (List.cons.inj h').1
      rcases hc with rfl | rfl <;> rfl
  have n2 : NotNext isDigit (f ++ e) := by
    cases hf with
    | none => exact n1
    | point d ds h =>
      rintro c' s' h'
      obtain rfl : '.' = c' := by simpa using (List.cons.inj h').1
      rfl
  have n3 : f = [] → NotNext (· == '.') e := by
    intro _
    cases he with
    | none => intro c s h; simp at h
    | exp c sg d ds hc hs h =>
      rintro c' s' h'
      obtain rfl : c = c' := by simpa using (List.cons.inj h').1
      rcases hc with rfl | rfl <;> rfl
  have h4 : expPart e = some (e, []) := by
    have := exp_complete he [] (by intro c s h; simp at h) (by intro _ c s h; simp at h)
    simpa using this
  simp only [dec, h1, int_complete hi (f ++ e) n2, frac_complete hf e n1 n3, h4]

theorem withExp_eq {e : List Char} (he : IsExp e) (sg : List Char) (s : Nat) {start : Int} (h1 : |start| < 2 ^ 30)
    (h2 : |start + expValue e| ≤ 400) : withExp sg s start e = fromParts sg s (start + expValue e) := by
  rw [abs_lt] at h1
  rw [abs_le] at h2
  have sat : ∀ x : Int, -400 ≤ x → x ≤ 400 → saturate x = x := by
    intro x a b; unfold saturate; omega
  cases he with
  | none => simp [withExp, expValue]
  | exp c sg' d ds hc hs h =>
    rcases hs with rfl | rfl | rfl
    · have hd : isDigit d = true := digits_all.1 h d (by simp)
      have ne : d ≠ '+' ∧ d ≠ '-' := by constructor <;> (rintro rfl; exact absurd hd (by decide))
      have hx : expValue (c :: ([] ++ d :: ds)) = numeral (d :: ds) := by
        simp only [List.nil_append, expValue]
        split <;> simp_all
      have hsg : expSign ([] ++ d :: ds) = ([], d :: ds) := by simp [expSign, ne]
      rw [hx] at h2 ⊢
      simp only [withExp, hsg, natOf_eq]
      rw [if_neg (by omega), if_neg (by simp), sat _ h2.1 h2.2]
    · have hx : expValue (c :: (['+'] ++ d :: ds)) = numeral (d :: ds) := rfl
      have hsg : expSign (['+'] ++ d :: ds) = (['+'], d :: ds) := rfl
      rw [hx] at h2 ⊢
      simp only [withExp, hsg, natOf_eq]
      rw [if_neg (by omega), if_neg (by simp), sat _ h2.1 h2.2]
    · have hx : expValue (c :: (['-'] ++ d :: ds)) = -numeral (d :: ds) := rfl
      have hsg : expSign (['-'] ++ d :: ds) = (['-'], d :: ds) := rfl
      rw [hx, ← sub_eq_add_neg] at h2 ⊢
      simp only [withExp, hsg, natOf_eq]
      rw [if_neg (by omega), if_pos trivial, sat _ h2.1 h2.2]

/-! #### Rounding -/

theorem rel_mul {a b α β : ℚ} (ha : |a - 1| ≤ α) (hb : |b - 1| ≤ β) : |a * b - 1| ≤ α + β + α * β := by
  have hα := le_trans (abs_nonneg _) ha
  calc |a * b - 1| = |(a - 1) + (b - 1) + (a - 1) * (b - 1)| := by congr 1; ring
    _ ≤ |a - 1| + |b - 1| + |(a - 1) * (b - 1)| := le_trans (abs_add_le _ _) (add_le_add_left (abs_add_le _ _) _)
    _ ≤ α + β + α * β := by rw [abs_mul]; exact add_le_add (add_le_add ha hb) (mul_le_mul ha hb (abs_nonneg _) hα)

theorem rel_inv {q : ℚ} (h : |q - 1| ≤ 1 / 2 ^ 53) : |q⁻¹ - 1| ≤ 2 / 2 ^ 53 := by
  rw [abs_le] at h
  have hq : (1 : ℚ) / 2 ≤ q := by norm_num at h ⊢; linarith
  have hq0 : (0 : ℚ) < q := by linarith
  have e : q⁻¹ - 1 = (1 - q) / q := by field_simp
  rw [e, abs_div, abs_of_pos hq0, div_le_iff₀ hq0]
  have : |1 - q| ≤ 1 / 2 ^ 53 := by rw [abs_le]; constructor <;> linarith
  refine le_trans this ?_
  nlinarith

/-- A rounded normal number is the number times something near one. -/
theorem rnd_factor {x : ℚ} (h : 2 ^ (-1022 : ℤ) ≤ x) : ∃ r : ℚ, Binary64.rnd x = x * r ∧ |r - 1| ≤ 1 / 2 ^ 53 := by
  have hx : (0 : ℚ) < x := lt_of_lt_of_le (zpow_pos (by norm_num) _) h
  refine ⟨Binary64.rnd x / x, by field_simp, ?_⟩
  have e : Binary64.rnd x / x - 1 = (Binary64.rnd x - x) / x := by field_simp
  rw [e, abs_div, abs_of_pos hx, div_le_iff₀ hx]
  have := Binary64.rnd_rel h
  linarith

theorem one_normal : (2 : ℚ) ^ (-1022 : ℤ) ≤ 1 := zpow_le_one_of_nonpos₀ (by norm_num) (by norm_num)

theorem near_bounds {r ε : ℚ} (h : |r - 1| ≤ ε) (hε : ε ≤ 1 / 2) : 1 / 2 ≤ r ∧ r ≤ 2 := by
  rw [abs_le] at h; constructor <;> linarith

theorem near3 {a b c : ℚ} (ha : |a - 1| ≤ 1 / 2 ^ 53) (hb : |b - 1| ≤ 2 / 2 ^ 53) (hc : |c - 1| ≤ 1 / 2 ^ 53) :
    |a * b * c - 1| ≤ 5 / 2 ^ 53 :=
  le_trans (rel_mul (rel_mul ha hb) hc) (by norm_num)

theorem scale_spec {s : ℕ} (h1 : 1 ≤ s) {x : ℤ} (hx : x.natAbs ≤ 308) (hl : (2 : ℚ) ^ (-1000 : ℤ) ≤ s * 10 ^ x) (hu : (s : ℚ) * 10 ^ x ≤ 2 ^ 1000) :
    ∃ y : ℚ, scale (Binary64.rnd s) x = some y ∧ |y - s * 10 ^ x| ≤ s * 10 ^ x * (5 / 2 ^ 53) := by
  have hs1 : (1 : ℚ) ≤ s := by exact_mod_cast h1
  have hk : (1 : ℚ) ≤ 10 ^ x.natAbs := one_le_pow₀ (by norm_num)
  obtain ⟨r, hr, hr'⟩ := rnd_factor (le_trans one_normal hs1)
  obtain ⟨q, hq, hq'⟩ := rnd_factor (le_trans one_normal hk)
  have hw : (0 : ℚ) < s * 10 ^ x := lt_of_lt_of_le (zpow_pos (by norm_num) _) hl
  have low : ∀ t : ℚ, 1 / 4 ≤ t → (2 : ℚ) ^ (-1022 : ℤ) ≤ s * 10 ^ x * t := by
    intro t ht
    have e : (2 : ℚ) ^ (-1022 : ℤ) = 2 ^ (-1000 : ℤ) * 2 ^ (-22 : ℤ) := by rw [← zpow_add₀ (by norm_num)]; norm_num
    rw [e]
    refine mul_le_mul hl (le_trans (by norm_num) ht) (zpow_pos (by norm_num) _).le hw.le
  have fin : ∀ t : ℚ, |t - 1| ≤ 5 / 2 ^ 53 → |s * 10 ^ x * t - s * 10 ^ x| ≤ s * 10 ^ x * (5 / 2 ^ 53) := by
    intro t ht
    rw [show (s : ℚ) * 10 ^ x * t - s * 10 ^ x = s * 10 ^ x * (t - 1) by ring, abs_mul, abs_of_pos hw]
    exact mul_le_mul_of_nonneg_left ht hw.le
  have small : (5 : ℚ) / 2 ^ 53 ≤ 1 / 2 := by norm_num
  rw [scale, if_pos hx]
  by_cases h0 : 0 ≤ x
  · have hp : (10 : ℚ) ^ x.natAbs = 10 ^ x := by rw [← zpow_natCast]; congr 1; omega
    rw [if_pos h0]
    have hfp : Binary64.rnd (s : ℚ) * pow10 x.natAbs = s * 10 ^ x * (r * q) := by
      unfold pow10; rw [hr, hq, hp]; ring
    rw [hfp]
    have nrq := rel_mul hr' hq'
    obtain ⟨t, ht, ht'⟩ := rnd_factor (low (r * q) (le_trans (by norm_num) (near_bounds nrq (by norm_num)).1))
    have n3 := near3 hr' (le_trans hq' (by norm_num)) ht'
    have e : Binary64.rnd (s * 10 ^ x * (r * q)) = s * 10 ^ x * (r * q * t) := by rw [ht]; ring
    rw [e, if_pos]
    · exact ⟨_, rfl, fin _ n3⟩
    · have b := (near_bounds n3 small).2
      calc (s : ℚ) * 10 ^ x * (r * q * t) ≤ 2 ^ 1000 * 2 := mul_le_mul hu b (by linarith [(near_bounds n3 small).1]) (by positivity)
        _ < 2 ^ 1024 := by norm_num
  · have hp : (10 : ℚ) ^ x.natAbs = (10 ^ x)⁻¹ := by rw [← zpow_natCast, ← zpow_neg]; congr 1; omega
    rw [if_neg h0]
    have hfp : Binary64.rnd (s : ℚ) / pow10 x.natAbs = s * 10 ^ x * (r * q⁻¹) := by
      unfold pow10; rw [hr, hq, hp, div_eq_mul_inv, mul_inv, inv_inv]; ring
    rw [hfp]
    have hqi := rel_inv hq'
    have nrq := rel_mul hr' hqi
    obtain ⟨t, ht, ht'⟩ := rnd_factor (low (r * q⁻¹) (le_trans (by norm_num) (near_bounds nrq (by norm_num)).1))
    have e : Binary64.rnd (s * 10 ^ x * (r * q⁻¹)) = s * 10 ^ x * (r * q⁻¹ * t) := by rw [ht]; ring
    rw [e]
    exact ⟨_, rfl, fin _ (near3 hr' hqi ht')⟩

theorem rep_nat {n : ℕ} (h : n < 2 ^ 53) : Binary64.Rep n :=
  ⟨n, 0, by rw [abs_of_nonneg (by positivity)]; exact_mod_cast h, by norm_num, by simp⟩

theorem rep_pow10 {k : ℕ} (h : k ≤ 22) : Binary64.Rep (10 ^ k) := by
  refine ⟨5 ^ k, k, ?_, by omega, ?_⟩
  · rw [abs_of_nonneg (by positivity)]
    exact lt_of_le_of_lt (pow_le_pow_right₀ (by norm_num) h) (by norm_num)
  · push_cast; rw [zpow_natCast, ← mul_pow]; norm_num

theorem scale_exact {n : ℕ} (hn : n < 2 ^ 53) {x : ℤ} (hx : x.natAbs ≤ 22) :
    scale (Binary64.rnd n) x = some (Binary64.rnd (n * 10 ^ x)) := by
  have e1 : Binary64.rnd (n : ℚ) = n := Binary64.rnd_rep (by positivity) (rep_nat hn)
  have e2 : pow10 x.natAbs = 10 ^ x.natAbs := Binary64.rnd_rep (by positivity) (rep_pow10 hx)
  rw [scale, if_pos (by omega), e1, e2]
  by_cases h0 : 0 ≤ x
  · have hp : (10 : ℚ) ^ x.natAbs = 10 ^ x := by rw [← zpow_natCast]; congr 1; omega
    rw [if_pos h0, hp, if_pos]
    have hb : (n : ℚ) * 10 ^ x ≤ 2 ^ 1000 := by
      rw [← hp]
      have a : (n : ℚ) ≤ 2 ^ 53 := by exact_mod_cast hn.le
      have b : (10 : ℚ) ^ x.natAbs ≤ 10 ^ 22 := pow_le_pow_right₀ (by norm_num) hx
      calc (n : ℚ) * 10 ^ x.natAbs ≤ 2 ^ 53 * 10 ^ 22 := mul_le_mul a b (by positivity) (by positivity)
        _ ≤ _ := by norm_num
    refine lt_of_le_of_lt (Binary64.rnd_mono_all hb) ?_
    have : Binary64.Rep (2 ^ 1000) := ⟨1, 1000, by norm_num, by norm_num, by rw [Int.cast_one, one_mul]; exact (zpow_natCast 2 1000).symm⟩
    rw [Binary64.rnd_rep (by positivity) this]
    norm_num
  · have hp : (10 : ℚ) ^ x.natAbs = (10 ^ x)⁻¹ := by rw [← zpow_natCast, ← zpow_neg]; congr 1; omega
    rw [if_neg h0, hp, div_inv_eq_mul]

theorem value_sign (sg i f e : List Char) (hs : sg = [] ∨ sg = ['-']) :
    value sg i f e = (if sg = [] then 1 else -1) * (numeral (i ++ f.tail) * 10 ^ (expValue e - f.tail.length)) := by
  rcases hs with rfl | rfl <;> simp [value]

/-! ### Theorems -/

/-- A number with less than 2^53 as significand and an exponent of ten between −22 and 22 is read as the nearest `f64`: the error of
conversion is that of one rounding. -/
theorem dec_exact {sg i f e : List Char} (hs : sg = [] ∨ sg = ['-']) (hi : IsInt i) (hf : IsFrac f) (he : IsExp e)
    (hlen : f.length < 2 ^ 30) (hN : numeral (i ++ f.tail) < 2 ^ 53) (hx : |expValue e - f.tail.length| ≤ 22) :
    dec (sg ++ i ++ f ++ e) = some ⟨Binary64.rnd (value sg i f e)⟩ := by
  rw [number_text hs hi hf he, ofText]
  obtain ⟨h1, -, h3⟩ := significand (int_digits hi) (frac_digits hf)
  obtain ⟨e1, e2⟩ := h3 (lt_trans hN (by norm_num))
  have hl : f.tail.length < 2 ^ 30 := by rw [List.length_tail]; omega
  rw [e1, e2, withExp_eq he _ _ (by rw [abs_lt]; constructor <;> omega)
      (by rw [add_comm, ← sub_eq_add_neg]; exact le_trans hx (by norm_num)), add_comm, ← sub_eq_add_neg]
  rw [fromParts, scale_exact hN (by rw [abs_le] at hx; omega), value_sign _ _ _ _ hs]
  rcases hs with rfl | rfl
  · simp
  · simp [Binary64.rnd_neg]

theorem ten280 : (10 : ℚ) ^ (280 : ℤ) ≤ 2 ^ 999 ∧ (2 : ℚ) ^ (-999 : ℤ) ≤ 10 ^ (-280 : ℤ) := by
  constructor
  · rw [show (280 : ℤ) = (280 : ℕ) by norm_num, zpow_natCast]; norm_num
  · rw [show (-280 : ℤ) = -((280 : ℕ) : ℤ) by norm_num, show (-999 : ℤ) = -((999 : ℕ) : ℤ) by norm_num, zpow_neg, zpow_neg, zpow_natCast,
      zpow_natCast]
    exact inv_anti₀ (by positivity) (by norm_num)

/-- Whatever its digits, a number of usual size is read with a relative error below 2^-50: its first 19 digits count. -/
theorem dec_error {sg i f e : List Char} (hs : sg = [] ∨ sg = ['-']) (hi : IsInt i) (hf : IsFrac f) (he : IsExp e)
    (hlen : i.length + f.length < 2 ^ 30) (hl : 10 ^ (-280 : ℤ) ≤ |value sg i f e|) (hu : |value sg i f e| ≤ 10 ^ (280 : ℤ)) :
    ∃ x : F64, dec (sg ++ i ++ f ++ e) = some x ∧ |x.val - value sg i f e| ≤ |value sg i f e| / 2 ^ 50 := by
  rw [number_text hs hi hf he, ofText]
  obtain ⟨h1, h2, -⟩ := significand (int_digits hi) (frac_digits hf)
  obtain ⟨-, i2, -⟩ := acc_spec (int_digits hi) 0 (by norm_num)
  obtain ⟨-, f2, -⟩ := acc_spec (frac_digits hf) (acc 0 i).1 (acc_spec (int_digits hi) 0 (by norm_num)).1
  have hfl : f.tail.length ≤ f.length := by rw [List.length_tail]; omega
  have hx0 : |((acc 0 i).2.2 - (acc (acc 0 i).1 f.tail).2.1 : ℤ)| < 2 ^ 30 := by rw [abs_lt]; constructor <;> omega
  generalize ((acc 0 i).2.2 - (acc (acc 0 i).1 f.tail).2.1 : ℤ) = x0 at *
  generalize (acc (acc 0 i).1 f.tail).1 = s at *
  obtain ⟨σ, hσ, hσ'⟩ : ∃ σ : ℚ, value sg i f e = σ * (numeral (i ++ f.tail) * 10 ^ (expValue e - f.tail.length)) ∧
      ((σ = 1 ∧ sg = []) ∨ (σ = -1 ∧ sg ≠ [])) := by
    refine ⟨_, value_sign sg i f e hs, ?_⟩
    by_cases h : sg = [] <;> simp [h]
  have habs : |value sg i f e| = numeral (i ++ f.tail) * 10 ^ (expValue e - f.tail.length) := by
    have h0 : (0 : ℚ) ≤ numeral (i ++ f.tail) * 10 ^ (expValue e - f.tail.length) :=
      mul_nonneg (Nat.cast_nonneg _) (zpow_pos (by norm_num) _).le
    rw [hσ, abs_mul, abs_of_nonneg h0]
    rcases hσ' with ⟨rfl, -⟩ | ⟨rfl, -⟩ <;> simp
  have h2' : abs ((s : ℚ) * 10 ^ (x0 + expValue e) - |value sg i f e|) ≤ |value sg i f e| / 2 ^ 60 := by
    have hp : (0 : ℚ) < 10 ^ expValue e := zpow_pos (by norm_num) _
    have hV : |value sg i f e| = numeral (i ++ f.tail) * 10 ^ (-(f.tail.length : ℤ)) * 10 ^ expValue e := by
      rw [habs, mul_assoc, ← zpow_add₀ (by norm_num)]; congr 2; ring
    rw [hV, zpow_add₀ (by norm_num), ← mul_assoc, ← sub_mul, abs_mul, abs_of_pos hp, mul_div_right_comm]
    exact mul_le_mul_of_nonneg_right h2 hp.le
  generalize hv : value sg i f e = v at *
  have hv0 : (0 : ℚ) < |v| := lt_of_lt_of_le (zpow_pos (by norm_num) _) hl
  generalize |v| = V at *
  rw [abs_le] at h2'
  have w1 : V / 2 ≤ s * 10 ^ (x0 + expValue e) := by
    have : V / 2 ^ 60 ≤ V / 2 := div_le_div_of_nonneg_left hv0.le (by norm_num) (by norm_num)
    linarith
  have w2 : (s : ℚ) * 10 ^ (x0 + expValue e) ≤ V * 2 := by
    have : V / 2 ^ 60 ≤ V := div_le_self hv0.le (by norm_num)
    linarith
  have hxp : (0 : ℚ) < 10 ^ (x0 + expValue e) := zpow_pos (by norm_num) _
  have hs1 : 1 ≤ s := by
    rcases Nat.eq_zero_or_pos s with rfl | h
    · simp at w1; linarith
    · exact h
  have hs1' : (1 : ℚ) ≤ s := by exact_mod_cast hs1
  have xu : x0 + expValue e ≤ 281 := by
    by_contra hc
    have a : (10 : ℚ) ^ (282 : ℤ) ≤ 10 ^ (x0 + expValue e) := zpow_le_zpow_right₀ (by norm_num) (by omega)
    have b : (10 : ℚ) ^ (x0 + expValue e) ≤ V * 2 := le_trans (le_mul_of_one_le_left hxp.le hs1') w2
    have c : (10 : ℚ) ^ (282 : ℤ) = 10 ^ (280 : ℤ) * 100 := by rw [show (282 : ℤ) = 280 + 2 by norm_num, zpow_add₀ (by norm_num)]; norm_num
    have d : (0 : ℚ) < 10 ^ (280 : ℤ) := zpow_pos (by norm_num) _
    rw [c] at a
    generalize (10 : ℚ) ^ (280 : ℤ) = T at *
    linarith
  have xl : -301 ≤ x0 + expValue e := by
    by_contra hc
    have a : (10 : ℚ) ^ (x0 + expValue e) ≤ 10 ^ (-302 : ℤ) := zpow_le_zpow_right₀ (by norm_num) (by omega)
    have c : (10 : ℚ) ^ (-302 : ℤ) = 10 ^ (-280 : ℤ) * 10 ^ (-22 : ℤ) := by rw [← zpow_add₀ (by norm_num)]; norm_num
    have d : (0 : ℚ) < 10 ^ (-280 : ℤ) := zpow_pos (by norm_num) _
    have hs2 : (s : ℚ) ≤ 2 ^ 64 := by exact_mod_cast h1.le
    have b : (s : ℚ) * 10 ^ (x0 + expValue e) ≤ 2 ^ 64 * (10 ^ (-280 : ℤ) * 10 ^ (-22 : ℤ)) :=
      mul_le_mul hs2 (c ▸ a) hxp.le (by norm_num)
    have g : (2 : ℚ) ^ 64 * 10 ^ (-22 : ℤ) ≤ 1 / 4 := by norm_num
    generalize (10 : ℚ) ^ (-280 : ℤ) = T at *
    generalize (10 : ℚ) ^ (-22 : ℤ) = C at *
    have := mul_le_mul_of_nonneg_left g d.le
    rw [show (2 : ℚ) ^ 64 * (T * C) = T * (2 ^ 64 * C) by ring] at b
    linarith
  have t := ten280
  obtain ⟨y, hy, hy'⟩ := scale_spec hs1 (x := x0 + expValue e) (by omega)
    (by
      have : (2 : ℚ) ^ (-1000 : ℤ) = 2 ^ (-999 : ℤ) / 2 := by
        rw [show (-1000 : ℤ) = -999 + -1 by norm_num, zpow_add₀ (by norm_num)]; norm_num
      rw [this]; exact le_trans (div_le_div_of_nonneg_right (le_trans t.2 hl) (by norm_num)) w1)
    (by
      have : (2 : ℚ) ^ 1000 = 2 ^ 999 * 2 := by rw [← pow_succ]
      rw [this]; exact le_trans w2 (mul_le_mul_of_nonneg_right (le_trans hu t.1) (by norm_num)))
  rw [withExp_eq he _ _ hx0 (by rw [abs_le]; constructor <;> omega), fromParts, hy]
  refine ⟨_, rfl, ?_⟩
  have key : |y - V| ≤ V / 2 ^ 50 := by
    generalize (s : ℚ) * 10 ^ (x0 + expValue e) = w at *
    rw [abs_le] at hy' ⊢
    constructor <;> (norm_num at *; linarith)
  rw [hσ, ← habs]
  rcases hσ' with ⟨rfl, h⟩ | ⟨rfl, h⟩
  · simpa [h] using key
  · simp only [if_neg h]
    rw [show -y - -1 * V = -(y - V) by ring, abs_neg]; exact key

/-- A number in a document, read as an `f64`: integers that fit in 64 bits are rounded, others converted by `dec`. -/
theorem field {sg i f e : List Char} (hs : sg = [] ∨ sg = ['-']) (hi : IsInt i) (hf : IsFrac f) (he : IsExp e) {x : F64}
    (hx : dec (sg ++ i ++ f ++ e) = some x) :
    (parse dec (sg ++ i ++ f ++ e)).bind (readF64 F64.ofInt) = some x ∨
      (parse dec (sg ++ i ++ f ++ e)).bind (readF64 F64.ofInt) = some ⟨Binary64.rnd (value sg i f e)⟩ := by
  have whole : ∀ n : Num F64, NumText dec n (sg ++ i ++ f ++ e) → parse dec (sg ++ i ++ f ++ e) = some (.num n) := by
    intro n h
    rw [c79_reads]
    exact ⟨[], _, [], by intro c hc; simp at hc, .num _ _ _ h, by intro c hc; simp at hc, by simp⟩
  by_cases h0 : f = [] ∧ e = [] ∧ sg = [] ∧ numeral i < 2 ^ 64
  · obtain ⟨rfl, rfl, rfl, hb⟩ := h0
    right
    have := whole (.nat (numeral i)) (by simpa using NumText.nat i hi hb)
    rw [this]
    simp [readF64, F64.ofInt, value, expValue]
  by_cases h1 : f = [] ∧ e = [] ∧ sg = ['-'] ∧ 1 ≤ numeral i ∧ numeral i ≤ 2 ^ 63
  · obtain ⟨rfl, rfl, rfl, ha, hb⟩ := h1
    right
    have := whole (.neg (numeral i - 1)) (by simpa using NumText.neg (numeral i - 1) i hi (by omega) (by omega))
    rw [this]
    have hz : (-(((numeral i - 1 : ℕ) : ℤ) + 1)) = -(numeral i : ℤ) := by omega
    simp only [Option.bind_some, readF64, F64.ofInt, hz, value, expValue]
    simp
  · left
    have := whole (.float x) (.float sg i f e x hs hi hf he (by
      by_cases hfe : f ++ e = []
      · right
        obtain ⟨rfl, rfl⟩ := List.append_eq_nil_iff.1 hfe
        rcases hs with rfl | rfl
        · left; refine ⟨rfl, ?_⟩; by_contra hc; exact h0 ⟨rfl, rfl, rfl, by omega⟩
        · right; refine ⟨rfl, ?_⟩; by_contra hc; exact h1 ⟨rfl, rfl, rfl, by omega, by omega⟩
      · exact .inl hfe) hx)
    rw [this]; rfl

/-- A time whose digits form a number below 2^53, with an exponent of ten between −22 and 22, is read as the nearest `f64`: the error
is that of one rounding. -/
theorem c94_exact {sg i f e : List Char} (hs : sg = [] ∨ sg = ['-']) (hi : IsInt i) (hf : IsFrac f) (he : IsExp e)
    (hlen : f.length < 2 ^ 30) (hN : numeral (i ++ f.tail) < 2 ^ 53) (hx : |expValue e - f.tail.length| ≤ 22) :
    (parse dec (sg ++ i ++ f ++ e)).bind (readF64 F64.ofInt) = some ⟨Binary64.rnd (value sg i f e)⟩ := by
  rcases field hs hi hf he (dec_exact hs hi hf he hlen hN hx) with h | h <;> exact h

/-- Whatever its digits, a time of usual size is read with a relative error of at most 2^-50. -/
theorem c94_error {sg i f e : List Char} (hs : sg = [] ∨ sg = ['-']) (hi : IsInt i) (hf : IsFrac f) (he : IsExp e)
    (hlen : i.length + f.length < 2 ^ 30) (hl : 10 ^ (-280 : ℤ) ≤ |value sg i f e|) (hu : |value sg i f e| ≤ 10 ^ (280 : ℤ)) :
    ∃ x : F64, (parse dec (sg ++ i ++ f ++ e)).bind (readF64 F64.ofInt) = some x ∧
      |x.val - value sg i f e| ≤ |value sg i f e| / 2 ^ 50 := by
  obtain ⟨x, hx, hx'⟩ := dec_error hs hi hf he hlen hl hu
  rcases field hs hi hf he hx with h | h
  · exact ⟨x, h, hx'⟩
  · refine ⟨_, h, ?_⟩
    have n : (2 : ℚ) ^ (-1022 : ℤ) ≤ |value sg i f e| :=
      le_trans (zpow_le_zpow_right₀ (by norm_num) (by norm_num)) (le_trans ten280.2 hl)
    have key : |Binary64.rnd (value sg i f e) - value sg i f e| ≤ |value sg i f e| / 2 ^ 53 := by
      generalize value sg i f e = v at *
      rcases abs_cases v with ⟨a, -⟩ | ⟨a, -⟩
      · rw [a] at n ⊢; exact Binary64.rnd_rel n
      · rw [a] at n ⊢
        have := Binary64.rnd_rel n
        rw [Binary64.rnd_neg, show -Binary64.rnd v - -v = -(Binary64.rnd v - v) by ring, abs_neg] at this
        exact this
    refine le_trans key (div_le_div_of_nonneg_left (abs_nonneg _) (by positivity) (by norm_num))

/-! ### Examples -/

/-- `-125.25e1` is read exactly. -/
theorem c94_example : (parse dec "-125.25e1".toList).bind (readF64 F64.ofInt) = some ⟨-1252.5⟩ := by
  have hi : IsInt ['1', '2', '5'] := .pos _ _ (by decide) (by unfold Digits; decide)
  have hf : IsFrac ['.', '2', '5'] := .point _ _ (by unfold Digits; decide)
  have he : IsExp ['e', '1'] := .exp 'e' [] '1' [] (.inl rfl) (.inl rfl) (by unfold Digits; decide)
  have h := c94_exact (.inr rfl) hi hf he (by decide) (by decide) (by decide)
  have hv : value ['-'] ['1', '2', '5'] ['.', '2', '5'] ['e', '1'] = -1252.5 := by
    have e1 : numeral (['1', '2', '5'] ++ ['.', '2', '5'].tail) = 12525 := by decide
    have e2 : expValue ['e', '1'] = 1 := by decide
    rw [value, e1, e2]
    norm_num
  have hr : Binary64.rnd (-1252.5) = -1252.5 := by
    rw [Binary64.rnd_neg, Binary64.rnd_rep (by norm_num) ⟨2505, -1, by norm_num, by norm_num, by norm_num⟩]
  rw [hv, hr] at h
  exact h

/-- A number of twenty-six digits: those after the twentieth are not read, but the error stays small. -/
theorem c94_example_long : ∃ x : F64, (parse dec "98765432109876543210.987654".toList).bind (readF64 F64.ofInt) = some x ∧
    |x.val - 98765432109876543210.987654| ≤ 98765432109876543210.987654 / 2 ^ 50 := by
  have hi : IsInt "98765432109876543210".toList := .pos _ _ (by decide) (by unfold Digits; decide)
  have hf : IsFrac ".987654".toList := .point _ _ (by unfold Digits; decide)
  have hv : value [] "98765432109876543210".toList ".987654".toList [] = 98765432109876543210.987654 := by
    have : numeral "98765432109876543210987654".toList = 98765432109876543210987654 := by decide +kernel
    have e : "98765432109876543210".toList ++ ".987654".toList.tail = "98765432109876543210987654".toList := by decide +kernel
    have l : ".987654".toList.tail.length = 6 := by decide
    rw [value, e, this, l]
    norm_num [expValue]
  have ha : |(98765432109876543210.987654 : ℚ)| = 98765432109876543210.987654 := abs_of_pos (by norm_num)
  have h := c94_error (.inl rfl) hi hf .none (by decide) (by rw [hv, ha]; norm_num) (by rw [hv, ha]; norm_num)
  rw [hv, ha] at h
  exact h

end Verif.Trace.Ctf.Text.Decimal
