import Verif.Model.Misc
/-! # C36, C55: arithmetic helpers of misc_lib.c -/
open Misc

namespace Misc

theorem smear_testBit (w : Nat) (i : Nat) :
    let a1 := w ||| (w >>> 1)
    let a2 := a1 ||| (a1 >>> 2)
    let a3 := a2 ||| (a2 >>> 4)
    let a4 := a3 ||| (a3 >>> 8)
    let a5 := a4 ||| (a4 >>> 16)
    (a5.testBit i = true ↔ ∃ j, j < 32 ∧ w.testBit (i + j) = true) := by
  intro a1 a2 a3 a4 a5
  have h1 : ∀ i, a1.testBit i = true ↔ ∃ j, j < 2 ∧ w.testBit (i + j) = true := by
    intro i
    simp only [a1, Nat.testBit_or, Nat.testBit_shiftRight, Bool.or_eq_true]
    constructor
    · rintro (h | h)
      · exact ⟨0, by omega, h⟩
      · exact ⟨1, by omega, by rwa [Nat.add_comm]⟩
    · rintro ⟨j, hj, h⟩
      rcases (show j = 0 ∨ j = 1 by omega) with rfl | rfl
      · exact Or.inl h
      · right; rwa [Nat.add_comm]
  have step : ∀ (n : Nat) (a b : Nat), (∀ i, a.testBit i = true ↔ ∃ j, j < n ∧ w.testBit (i + j) = true) →
      b = a ||| (a >>> n) → ∀ i, b.testBit i = true ↔ ∃ j, j < n + n ∧ w.testBit (i + j) = true := by
    intro n a b ha hb i
    subst hb
    simp only [Nat.testBit_or, Nat.testBit_shiftRight, Bool.or_eq_true, ha]
    constructor
    · rintro (⟨j, hj, h⟩ | ⟨j, hj, h⟩)
      · exact ⟨j, by omega, h⟩
      · exact ⟨n + j, by omega, by rw [show i + (n + j) = n + i + j by omega]; exact h⟩
    · rintro ⟨j, hj, h⟩
      by_cases hjn : j < n
      · exact Or.inl ⟨j, hjn, h⟩
      · exact Or.inr ⟨j - n, by omega, by rw [show n + i + (j - n) = i + j by omega]; exact h⟩
  have h2 := step 2 a1 a2 h1 rfl
  have h3 := step 4 a2 a3 h2 rfl
  have h4 := step 8 a3 a4 h3 rfl
  exact step 16 a4 a5 h4 rfl i

theorem smear_eq (w : Nat) (hw : w < 2 ^ 32) (h0 : w ≠ 0) :
    let a1 := w ||| (w >>> 1)
    let a2 := a1 ||| (a1 >>> 2)
    let a3 := a2 ||| (a2 >>> 4)
    let a4 := a3 ||| (a3 >>> 8)
    let a5 := a4 ||| (a4 >>> 16)
    a5 = 2 ^ (w.log2 + 1) - 1 := by
  intro a1 a2 a3 a4 a5
  apply Nat.eq_of_testBit_eq
  intro i
  have hs := smear_testBit w i
  rw [Nat.testBit_two_pow_sub_one, Bool.eq_iff_iff]
  simp only [decide_eq_true_eq]
  refine hs.trans ?_
  have hlog : w.log2 < 32 := (Nat.log2_lt h0).mpr hw
  constructor
  · rintro ⟨j, _, h⟩
    apply Decidable.byContradiction
    intro hn
    have : w < 2 ^ (i + j) := by
      calc w < 2 ^ (w.log2 + 1) := Nat.lt_log2_self
        _ ≤ 2 ^ (i + j) := Nat.pow_le_pow_right (by omega) (by omega)
    rw [Nat.testBit_lt_two_pow this] at h
    cases h
  · intro hi
    refine ⟨w.log2 - i, by omega, ?_⟩
    rw [show i + (w.log2 - i) = w.log2 by omega, Nat.testBit_log2 h0]

end Misc

/-- **C36** (partial: `v ≤ 2^32`). `UpperPowerOfTwo(v)` is the smallest power of two that is at least `v`, for every
`1 ≤ v ≤ 2^32`. Missing: `v > 2^32`, where the claim is false of the code, see `C36_upperPowerOfTwo_wrong_above_2_32`. -/
theorem C36_upperPowerOfTwo_partial (v : BitVec 64) (h1 : 1 ≤ v.toNat) (h2 : v.toNat ≤ 2 ^ 32) :
    ∃ k, (upperPowerOfTwo v).toNat = 2 ^ k ∧ v.toNat ≤ 2 ^ k ∧ ∀ j, v.toNat ≤ 2 ^ j → 2 ^ k ≤ 2 ^ j := by
  have hw : (v - 1).toNat = v.toNat - 1 := by
    rw [BitVec.toNat_sub]
    have : (1 : BitVec 64).toNat = 1 := rfl
    have := v.isLt
    omega
  have hval : (upperPowerOfTwo v).toNat =
      (if v.toNat = 1 then 1 else 2 ^ ((v.toNat - 1).log2 + 1)) := by
    unfold upperPowerOfTwo
    simp only [BitVec.toNat_add, BitVec.toNat_or, BitVec.toNat_ushiftRight, hw]
    by_cases hv : v.toNat = 1
    · simp [hv]
    · have := smear_eq (v.toNat - 1) (by omega) (by omega)
      simp only at this
      rw [this, if_neg hv]
      have hlog : (v.toNat - 1).log2 < 32 := (Nat.log2_lt (by omega)).mpr (by omega)
      have hp : 2 ^ ((v.toNat - 1).log2 + 1) ≤ 2 ^ 32 := Nat.pow_le_pow_right (by omega) (by omega)
      have hpos : 0 < 2 ^ ((v.toNat - 1).log2 + 1) := Nat.two_pow_pos _
      have : (1 : BitVec 64).toNat = 1 := rfl
      rw [this, Nat.sub_add_cancel hpos, Nat.mod_eq_of_lt (by omega)]
  by_cases hv : v.toNat = 1
  · refine ⟨0, by rw [hval, if_pos hv], by omega, fun j _ => Nat.one_le_two_pow⟩
  · refine ⟨(v.toNat - 1).log2 + 1, by rw [hval, if_neg hv], ?_, ?_⟩
    · have := @Nat.lt_log2_self (v.toNat - 1); omega
    · intro j hj
      apply Nat.pow_le_pow_right (by omega)
      have : (v.toNat - 1).log2 < j := (Nat.log2_lt (by omega)).mpr (by omega)
      omega

/-- **C36** is false above `2^32` on 64-bit platforms: for `v = 2^33 + 1` the result is not a power of two (the code misses
the `v >>= 32` smear step). -/
theorem C36_upperPowerOfTwo_wrong_above_2_32 :
    ¬ ∀ v : BitVec 64, 1 ≤ v.toNat → v.toNat ≤ 2 ^ 63 → ∃ k, (upperPowerOfTwo v).toNat = 2 ^ k := by
  intro h
  obtain ⟨k, hk⟩ := h (BitVec.ofNat 64 (2 ^ 33 + 1)) (by decide) (by decide)
  rw [show (upperPowerOfTwo (BitVec.ofNat 64 (2 ^ 33 + 1))).toNat = 2 ^ 34 - 2 ^ 2 + 1 from by decide] at hk
  have h1 : 2 ^ 33 < 2 ^ k := by omega
  have h2 : 2 ^ k < 2 ^ 34 := by omega
  rw [Nat.pow_lt_pow_iff_right (by omega)] at h1 h2
  omega

example : (upperPowerOfTwo 1000#64).toNat = 1024 ∧ (upperPowerOfTwo 1024#64).toNat = 1024 := by decide

/-- **C55**. For every `long` dividend and every positive divisor up to `2^62`, `UnsignedModulus` has no undefined
behaviour and returns the mathematical residue in `[0, divisor)`. -/
theorem C55_unsignedModulus (a d : Int) (_ha : -(2 ^ 63) ≤ a ∧ a < 2 ^ 63) (hd : 0 < d) (hd2 : d ≤ 2 ^ 62) :
    ∃ r, unsignedModulus a d = some r ∧ 0 ≤ r ∧ r < d ∧ ∃ q, a = q * d + r := by
  have hle := Int.tmod_lt_of_pos a hd
  have hge : -d < a.tmod d := by
    have := Int.tmod_lt_of_pos (-a) hd
    rw [Int.neg_tmod] at this
    omega
  have hlong : isLong (a.tmod d + d) = true := by
    simp only [isLong, Bool.and_eq_true, decide_eq_true_eq]; omega
  have hnz : ¬(d = 0 ∨ (a = -(2 ^ 63) ∧ d = -1)) := by omega
  refine ⟨(a.tmod d + d).tmod d, by simp only [unsignedModulus, if_neg hnz, hlong, if_true], ?_, ?_, ?_⟩
  · exact Int.tmod_nonneg _ (by omega)
  · exact Int.tmod_lt_of_pos _ hd
  · have e1 := Int.tmod_add_mul_tdiv a d
    have e2 := Int.tmod_add_mul_tdiv (a.tmod d + d) d
    refine ⟨a.tdiv d + (a.tmod d + d).tdiv d - 1, ?_⟩
    rw [Int.sub_mul, Int.add_mul, Int.one_mul, Int.mul_comm (a.tdiv d), Int.mul_comm ((a.tmod d + d).tdiv d)]
    omega

/-- **C55** (boundary). With a divisor above `2^62` in absolute value the intermediate sum can overflow `long` (undefined behaviour), at either end of its
range; so do division by zero and the most negative number divided by -1. -/
theorem C55_unsignedModulus_overflow : unsignedModulus (2 ^ 63 - 2) (2 ^ 63 - 1) = none ∧ unsignedModulus (-(2 ^ 63) + 2) (-(2 ^ 63) + 1) = none ∧
    unsignedModulus (-(2 ^ 63)) (-1) = none ∧ ∀ a, unsignedModulus a 0 = none := by
  refine ⟨by decide, by decide, by decide, fun a => by simp [unsignedModulus]⟩

/-- **C55** (negative divisors). The result has the sign of the divisor: it is the residue in `(divisor, 0]`. -/
theorem C55_unsignedModulus_negative (a d : Int) (_ha : -(2 ^ 63) ≤ a ∧ a < 2 ^ 63) (hd : d < 0) (hd2 : -(2 ^ 62) ≤ d) (hx : ¬ (a = -(2 ^ 63) ∧ d = -1)) :
    ∃ r, unsignedModulus a d = some r ∧ d < r ∧ r ≤ 0 ∧ ∃ q, a = q * d + r := by
  have hle := Int.tmod_lt_of_pos a (b := -d) (by omega)
  have hge : d < a.tmod d := by
    have := Int.tmod_lt_of_pos (-a) (b := -d) (by omega)
    rw [Int.neg_tmod, Int.tmod_neg] at this
    omega
  rw [Int.tmod_neg] at hle
  have hlong : isLong (a.tmod d + d) = true := by
    simp only [isLong, Bool.and_eq_true, decide_eq_true_eq]; omega
  have hnz : ¬(d = 0 ∨ (a = -(2 ^ 63) ∧ d = -1)) := by omega
  have hp := Int.tmod_nonneg (a := -(a.tmod d + d)) (-d) (by omega)
  have hq := Int.tmod_lt_of_pos (-(a.tmod d + d)) (b := -d) (by omega)
  rw [Int.neg_tmod, Int.tmod_neg] at hp hq
  refine ⟨(a.tmod d + d).tmod d, by simp only [unsignedModulus, if_neg hnz, hlong, if_true], by omega, by omega, ?_⟩
  have e1 := Int.tmod_add_mul_tdiv a d
  have e2 := Int.tmod_add_mul_tdiv (a.tmod d + d) d
  refine ⟨a.tdiv d + (a.tmod d + d).tdiv d - 1, ?_⟩
  rw [Int.sub_mul, Int.add_mul, Int.one_mul, Int.mul_comm (a.tdiv d), Int.mul_comm ((a.tmod d + d).tdiv d)]
  omega

example : unsignedModulus 7 (-3) = some (-2) := by decide

example : unsignedModulus (-7) 3 = some 2 := by decide

/-- **C36**. `ISPOW2` is true exactly of the powers of two. -/
theorem C36_ispow2 (n : Nat) : ispow2 n = true ↔ ∃ k, n = 2 ^ k := by
  have h := Nat.ne_zero_and_sub_one_eq_zero_iff_isPowerOfTwo (n := n)
  rw [Nat.isPowerOfTwo] at h
  rw [← h]
  simp only [ispow2, Bool.and_eq_true, decide_eq_true_eq, beq_iff_eq]
  omega

example : ispow2 64 = true ∧ ispow2 0 = false ∧ ispow2 96 = false := by decide
