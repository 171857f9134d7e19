/-
Model of `asylum::sequence::SequenceKey` (asylum/src/sequence.rs:21-60) and property C15.
-/
import Mathlib.Data.Nat.Bitwise
import Mathlib.Data.Nat.Size
import Mathlib.Tactic.Positivity
import Mathlib.Tactic.NormNum
import Mathlib.Tactic.Ring

set_option autoImplicit false
set_option linter.unusedSimpArgs false

namespace Verif.Intern

/-- Parameters of a `SequenceKey<Inner, LEN_BITS>` on a machine with `W`-bit `usize`: the length field width and the
number of values of the inner lasso key (`Inner::try_from_usize(n)` succeeds iff `n < cap`). -/
structure KeyCfg where
  /-- width of `usize` -/
  W : Nat
  /-- `LEN_BITS` -/
  L : Nat
  /-- number of distinct inner keys -/
  cap : Nat
  /-- asylum/src/sequence.rs:25-28 `check_configuration`: `assert!(LEN_BITS < usize_bits)` -/
  hL : L < W
  /-- an inner key converts to a `usize` -/
  hcap : cap ≤ 2 ^ W

/-- `usize::leading_zeros` on a `W`-bit word. -/
def leadingZeros (W n : Nat) : Nat := W - n.size

/-- asylum/src/sequence.rs:34-39 `SequenceKey::into_impl_key` (the pair is the Rust range `start..end`) -/
def unpack (c : KeyCfg) (packed : Nat) : Nat × Nat :=
  let len := packed &&& ((1 <<< c.L) - 1)
  let offset := packed >>> c.L
  (offset, offset + len)

/-- asylum/src/sequence.rs:41-60 `SequenceKey::try_from_impl_key`. `offset << LEN_BITS` drops the bits shifted out of
the word, hence the `% 2 ^ W`. `Range::count` is `end - start`, zero for an inverted range. -/
def tryPack (c : KeyCfg) (start stop : Nat) : Option Nat :=
  if leadingZeros c.W start < c.L then none
  else
    let len := stop - start
    if 1 <<< c.L ≤ len then none
    else
      let packed := ((start <<< c.L) % 2 ^ c.W) ||| len
      if packed < c.cap then some packed else none

theorem leadingZeros_lt_iff {W L n : Nat} (hn : n < 2 ^ W) (hL : L < W) :
    leadingZeros W n < L ↔ 2 ^ (W - L) ≤ n := by
  unfold leadingZeros
  have h1 : n.size ≤ W := Nat.size_le.2 hn
  have h2 : n.size ≤ W - L ↔ n < 2 ^ (W - L) := Nat.size_le
  omega

/-- When does a range fit: both fields fit in their bit budget and the packed word is a value of the inner key. -/
def Fits (c : KeyCfg) (start stop : Nat) : Prop :=
  stop - start < 2 ^ c.L ∧ start < 2 ^ (c.W - c.L) ∧ start * 2 ^ c.L + (stop - start) < c.cap

instance (c : KeyCfg) (a b : Nat) : Decidable (Fits c a b) := by unfold Fits; infer_instance

theorem tryPack_eq (c : KeyCfg) (start stop : Nat) (hs : start < 2 ^ c.W) :
    tryPack c start stop = if Fits c start stop then some (start * 2 ^ c.L + (stop - start)) else none := by
  have hF : Fits c start stop ↔
    stop - start < 2 ^ c.L ∧ start < 2 ^ (c.W - c.L) ∧ start * 2 ^ c.L + (stop - start) < c.cap := Iff.rfl
  unfold tryPack
  simp only [hF]
  simp only [leadingZeros_lt_iff hs c.hL]
  by_cases h1 : 2 ^ (c.W - c.L) ≤ start
  · rw [if_pos h1, if_neg (by omega)]
  rw [if_neg h1]
  simp only [Nat.shiftLeft_eq, one_mul]
  by_cases h2 : 2 ^ c.L ≤ stop - start
  · rw [if_pos h2, if_neg (by omega)]
  rw [if_neg h2]
  have h3 : start * 2 ^ c.L < 2 ^ c.W := by
    calc start * 2 ^ c.L < 2 ^ (c.W - c.L) * 2 ^ c.L := Nat.mul_lt_mul_of_pos_right (by omega) (by positivity)
      _ = 2 ^ c.W := by rw [← Nat.pow_add]; congr 1; have := c.hL; omega
  rw [Nat.mod_eq_of_lt h3]
  have h4 : start * 2 ^ c.L ||| (stop - start) = start * 2 ^ c.L + (stop - start) := by
    rw [mul_comm]
    exact (Nat.two_pow_add_eq_or_of_lt (by omega) start).symm
  rw [h4]
  have : start < 2 ^ (c.W - c.L) := by omega
  have : stop - start < 2 ^ c.L := by omega
  simp [*]

theorem unpack_eq (c : KeyCfg) (p : Nat) : unpack c p = (p / 2 ^ c.L, p / 2 ^ c.L + p % 2 ^ c.L) := by
  unfold unpack
  simp only [Nat.shiftLeft_eq, one_mul, Nat.shiftRight_eq_div_pow, Nat.and_two_pow_sub_one_eq_mod]

/-- **C15, round trip.** If packing a range succeeds, unpacking the key gives back exactly that range, and unpacking
does not overflow the word. -/
theorem c15_roundtrip (c : KeyCfg) (start stop key : Nat) (hle : start ≤ stop) (hs : stop < 2 ^ c.W)
    (h : tryPack c start stop = some key) :
    unpack c key = (start, stop) ∧ key < c.cap := by
  rw [tryPack_eq c start stop (by omega)] at h
  split at h
  · rename_i hf
    cases h
    obtain ⟨h1, h2, h3⟩ := hf
    refine ⟨?_, h3⟩
    rw [unpack_eq]
    have hp : 0 < 2 ^ c.L := by positivity
    have hd : (start * 2 ^ c.L + (stop - start)) / 2 ^ c.L = start := by
      rw [mul_comm, Nat.mul_add_div hp, Nat.div_eq_of_lt h1]; simp
    have hm : (start * 2 ^ c.L + (stop - start)) % 2 ^ c.L = stop - start := by
      rw [mul_comm, Nat.mul_add_mod, Nat.mod_eq_of_lt h1]
    rw [hd, hm]
    congr 1; omega
  · cases h

/-- **C15, no aliasing.** Distinct ranges never get the same key. -/
theorem c15_injective (c : KeyCfg) (s₁ e₁ s₂ e₂ key : Nat) (h₁ : s₁ ≤ e₁) (h₂ : s₂ ≤ e₂)
    (b₁ : e₁ < 2 ^ c.W) (b₂ : e₂ < 2 ^ c.W)
    (p₁ : tryPack c s₁ e₁ = some key) (p₂ : tryPack c s₂ e₂ = some key) : s₁ = s₂ ∧ e₁ = e₂ := by
  have a := (c15_roundtrip c _ _ _ h₁ b₁ p₁).1
  have b := (c15_roundtrip c _ _ _ h₂ b₂ p₂).1
  rw [a] at b
  exact Prod.mk.inj b

/-- **C15, exhaustion.** Packing reports exhaustion exactly when the length does not fit in `LEN_BITS` bits, or the
offset does not fit in the remaining bits of the word, or the inner key type has no such value. -/
theorem c15_exhausted_iff (c : KeyCfg) (start len : Nat) (hs : start + len < 2 ^ c.W) :
    tryPack c start (start + len) = none ↔
      2 ^ c.L ≤ len ∨ 2 ^ (c.W - c.L) ≤ start ∨ c.cap ≤ start * 2 ^ c.L + len := by
  rw [tryPack_eq c start (start + len) (by omega)]
  by_cases h : Fits c start (start + len)
  · rw [if_pos h]; unfold Fits at h; rw [Nat.add_sub_cancel_left] at h; simp; omega
  · rw [if_neg h]; unfold Fits at h; rw [Nat.add_sub_cancel_left] at h; simp; omega

/-- **C15, inner key of `B` bits.** With the `2^B - 1` keys of a `B`-bit lasso key wider than the length field,
everything below the last offset fits: exhaustion happens only for a length of at least `2^LEN_BITS`, an offset of at
least `2^(B-LEN_BITS)`, or the single range whose packed form is the word of all ones. -/
theorem c15_exhausted_iff_bits (c : KeyCfg) (B start len : Nat) (hB : c.cap = 2 ^ B - 1) (hLB : c.L ≤ B)
    (hBW : B ≤ c.W) (hs : start + len < 2 ^ c.W) :
    tryPack c start (start + len) = none ↔
      2 ^ c.L ≤ len ∨ 2 ^ (B - c.L) ≤ start ∨ (len = 2 ^ c.L - 1 ∧ start = 2 ^ (B - c.L) - 1) := by
  rw [c15_exhausted_iff c start len hs, hB]
  have hpB : 2 ^ B = 2 ^ (B - c.L) * 2 ^ c.L := by rw [← Nat.pow_add]; congr 1; omega
  have hp : 0 < 2 ^ c.L := by positivity
  have hq : 0 < 2 ^ (B - c.L) := by positivity
  have hmono : 2 ^ (B - c.L) ≤ 2 ^ (c.W - c.L) := Nat.pow_le_pow_right (by omega) (by omega)
  rw [hpB]
  generalize 2 ^ c.L = P at *
  generalize 2 ^ (B - c.L) = Q at *
  generalize 2 ^ (c.W - c.L) = R at *
  by_cases hl : P ≤ len
  · simp [hl]
  by_cases hs2 : Q ≤ start
  · have : Q * P ≤ start * P := Nat.mul_le_mul_right _ hs2
    constructor
    · intro _; right; left; exact hs2
    · intro _; right; right; omega
  · constructor
    · rintro (h | h | h)
      · omega
      · omega
      · right; right
        have h1 : start + 1 ≤ Q := by omega
        have h2 : (start + 1) * P ≤ Q * P := Nat.mul_le_mul_right _ h1
        have h3 : (start + 1) * P = start * P + P := by ring
        have h4 : start + 1 = Q := by
          by_contra hne
          have h5 : start + 2 ≤ Q := by omega
          have h6 : (start + 2) * P ≤ Q * P := Nat.mul_le_mul_right _ h5
          have h7 : (start + 2) * P = start * P + P + P := by ring
          omega
        subst h4
        omega
    · rintro (h | h | ⟨h, h'⟩)
      · omega
      · omega
      · right; right
        have h1 : start + 1 = Q := by omega
        subst h1
        have h3 : (start + 1) * P = start * P + P := by ring
        omega

/-- The default key: `SequenceKey<Spur, 8>` on a 64-bit machine. -/
def defaultCfg : KeyCfg := ⟨64, 8, 2 ^ 32 - 1, by norm_num, by norm_num⟩

/-- Non-vacuity: the range 5..12 packs and unpacks with the default key. -/
example : tryPack defaultCfg 5 12 = some (5 * 256 + 7) ∧ unpack defaultCfg (5 * 256 + 7) = (5, 12) := by
  decide

/-- Non-vacuity: a length of 256 does not fit in 8 bits, 255 does. -/
example : tryPack defaultCfg 0 256 = none ∧ tryPack defaultCfg 0 255 = some 255 := by decide

/-- Non-vacuity: the last offset, and the all-ones word. -/
example : tryPack defaultCfg (2 ^ 24) (2 ^ 24) = none ∧ tryPack defaultCfg (2 ^ 24 - 1) (2 ^ 24 - 1 + 254) = some (2^32 - 2) ∧
    tryPack defaultCfg (2 ^ 24 - 1) (2 ^ 24 - 1 + 255) = none := by decide

end Verif.Intern
