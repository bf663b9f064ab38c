/-! # Model of libutils/misc_lib.c (arithmetic helpers), with 64-bit `size_t` and `long` -/
namespace Misc

/-- `ISPOW2` (misc_lib.h:74), on `size_t` values that do not wrap. -/
def ispow2 (n : Nat) : Bool := decide (n > 0) && (n &&& (n - 1) == 0)

/-- `UpperPowerOfTwo` (misc_lib.c:41-53), `size_t` = 64 bits, wrap-around included. -/
def upperPowerOfTwo (v : BitVec 64) : BitVec 64 :=
  let v := v - 1
  let v := v ||| (v >>> 1)
  let v := v ||| (v >>> 2)
  let v := v ||| (v >>> 4)
  let v := v ||| (v >>> 8)
  let v := v ||| (v >>> 16)
  v + 1

/-- The range of `long`. -/
def isLong (x : Int) : Bool := decide (-(2 ^ 63) ≤ x) && decide (x < 2 ^ 63)

/-- `UnsignedModulus` (misc_lib.c:36-39). C's `%` truncates (`Int.tmod`); division by zero and signed overflow are
undefined behaviour (`none`). -/
def unsignedModulus (dividend divisor : Int) : Option Int :=
  if divisor = 0 ∨ (dividend = -(2 ^ 63) ∧ divisor = -1) then none
  else
    let s := dividend.tmod divisor + divisor
    if isLong s then some (s.tmod divisor) else none

end Misc
