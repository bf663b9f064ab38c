import Mathlib.Algebra.Order.Ring.Rat
/-! # Specification vocabulary for the small replacement functions -/
namespace CompatMiscSpec

/-- A rounding to `double`: monotone, and exact on every number with a significand of at most 53 bits and an
exponent within range.  Every IEEE rounding mode is one. -/
structure Rounding (rnd : ℚ → ℚ) : Prop where
  mono : ∀ x y, x ≤ y → rnd x ≤ rnd y
  exact : ∀ (m : Nat) (e : Nat), m ≤ 2 ^ 53 → e ≤ 900 → rnd (m * 2 ^ e) = m * 2 ^ e ∧ rnd (m / 2 ^ e) = m / 2 ^ e

/-- The variable called `name`, in a list of `name=value` texts. -/
def IsVar (name entry : List UInt8) : Prop := ∃ value, entry = name ++ 61 :: value

/-- A decimal number: digits and points, not empty. -/
def Number (t : List UInt8) : Prop := t ≠ [] ∧ ∀ c ∈ t, (48 ≤ c.toNat ∧ c.toNat ≤ 57) ∨ c = 46

end CompatMiscSpec
