import Verif.Props.Misc

/-! C36 for every argument up to 2^63: where `UpperPowerOfTwo` is right. -/
open Misc

/-- C36, exactly where the code is right. For every `1 ≤ v ≤ 2^63`: `UpperPowerOfTwo(v)` is the smallest power of two that is at least `v` if and only if
`v - 1` has no 32 zero bits in a row below its leading bit: whenever a bit at or above position `i` is set, one of the bits `i` to `i + 31` is. -/
theorem C36_right_exactly (v : BitVec 64) (h1 : 1 ≤ v.toNat) (h2 : v.toNat ≤ 2 ^ 63) :
    (∃ k, (upperPowerOfTwo v).toNat = 2 ^ k ∧ v.toNat ≤ 2 ^ k ∧ ∀ j, v.toNat ≤ 2 ^ j → 2 ^ k ≤ 2 ^ j) ↔
    ∀ i, (∃ m, i ≤ m ∧ (v.toNat - 1).testBit m = true) → ∃ j, j < 32 ∧ (v.toNat - 1).testBit (i + j) = true := by
  have hw : (v - 1).toNat = v.toNat - 1 := by
    rw [BitVec.toNat_sub]
    have : (1 : BitVec 64).toNat = 1 := rfl
    have := v.isLt
    omega
  obtain ⟨w, hwv⟩ : ∃ w, w = v.toNat - 1 := ⟨_, rfl⟩
  have hs := smear_testBit w
  simp only at hs
  obtain ⟨a, ha⟩ : ∃ a, a = (let a1 := w ||| (w >>> 1)
    let a2 := a1 ||| (a1 >>> 2)
    let a3 := a2 ||| (a2 >>> 4)
    let a4 := a3 ||| (a3 >>> 8)
    a4 ||| (a4 >>> 16)) := ⟨_, rfl⟩
  simp only at ha
  rw [← ha] at hs
  rw [← hwv]
  have hlt : ∀ n, w < 2 ^ n → a < 2 ^ n := by
    intro n hn
    refine Nat.lt_pow_two_of_testBit _ fun i hi => ?_
    cases hb : a.testBit i with
    | false => rfl
    | true =>
      obtain ⟨j, _, hj⟩ := (hs i).1 hb
      rw [Nat.testBit_lt_two_pow (Nat.lt_of_lt_of_le hn (Nat.pow_le_pow_right (by omega) (by omega)))] at hj
      cases hj
  have hval : (upperPowerOfTwo v).toNat = a + 1 := by
    unfold upperPowerOfTwo
    simp only [BitVec.toNat_add, BitVec.toNat_or, BitVec.toNat_ushiftRight, hw]
    rw [← hwv, ← ha]
    have : (1 : BitVec 64).toNat = 1 := rfl
    rw [this, Nat.mod_eq_of_lt]
    have := hlt 63 (by omega)
    omega
  rw [hval]
  by_cases h0 : w = 0
  · have ha0 : a = 0 := by have := hlt 0 (by omega); omega
    constructor
    · rintro _ i ⟨m, _, hm⟩
      rw [h0] at hm
      simp at hm
    · intro _
      exact ⟨0, by omega, by omega, fun j _ => Nat.one_le_two_pow⟩
  have hL1 : w < 2 ^ (w.log2 + 1) := Nat.lt_log2_self
  have hL2 : ∀ j, w < 2 ^ j → w.log2 + 1 ≤ j := fun j hj => by
    have := (Nat.log2_lt h0).mpr hj
    omega
  constructor
  · rintro ⟨k, e1, e2, e3⟩ i ⟨m, hm1, hm2⟩
    have hk : k = w.log2 + 1 := by
      have ha1 := hL2 k (by omega)
      have := e3 (w.log2 + 1) (by omega)
      have := (Nat.pow_le_pow_iff_right (by omega : 1 < 2)).1 this
      omega
    have haeq : a = 2 ^ (w.log2 + 1) - 1 := by rw [← hk]; omega
    have hml : m < w.log2 + 1 := by
      refine Classical.byContradiction fun hn => ?_
      rw [Nat.testBit_lt_two_pow (Nat.lt_of_lt_of_le hL1 (Nat.pow_le_pow_right (by omega) (by omega)))] at hm2
      cases hm2
    refine (hs i).1 ?_
    rw [haeq, Nat.testBit_two_pow_sub_one]
    simp only [decide_eq_true_eq]
    omega
  · intro h
    have haeq : a = 2 ^ (w.log2 + 1) - 1 := by
      apply Nat.eq_of_testBit_eq
      intro i
      rw [Nat.testBit_two_pow_sub_one]
      by_cases hi : i < w.log2 + 1
      · have := (hs i).2 (h i ⟨w.log2, by omega, Nat.testBit_log2 h0⟩)
        simp [this, hi]
      · have : a.testBit i = false := Nat.testBit_lt_two_pow (Nat.lt_of_lt_of_le (hlt _ hL1) (Nat.pow_le_pow_right (by omega) (by omega)))
        simp [this, hi]
    have hpos : 0 < 2 ^ (w.log2 + 1) := Nat.two_pow_pos _
    refine ⟨w.log2 + 1, by omega, by omega, fun j hj => Nat.pow_le_pow_right (by omega) (hL2 j (by omega))⟩

example : (upperPowerOfTwo (BitVec.ofNat 64 (2 ^ 40 - 5))).toNat = 2 ^ 40 ∧ (upperPowerOfTwo (BitVec.ofNat 64 (2 ^ 40 + 1))).toNat ≠ 2 ^ 41 := by decide
