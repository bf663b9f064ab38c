/-! # `long double` arithmetic and the helper functions of the floating-point conversions (libcompat/snprintf.c:1398-1417, 1434-1481)

`LDOUBLE` is `long double` in the format of x86: a significand of 64 bits; every operation gives the exact result rounded to nearest, ties to even. Its exponent range (10^-4932 to 10^4932)
is taken to be enough: results that would be subnormal or overflow are not treated specially. Only non-negative finite numbers are computed with: `m * 2^e`. -/
namespace Flt

structure Num where
  m : Nat
  e : Int
  deriving DecidableEq, Repr

/-- To the nearest integer, ties to even. -/
def nearest (n d : Nat) : Nat :=
  if 2 * (n % d) < d then n / d
  else if 2 * (n % d) > d then n / d + 1
  else if n / d % 2 = 0 then n / d else n / d + 1

/-- `n / d * 2^t` as a fraction. -/
def shifted (n d : Nat) (t : Int) : Nat × Nat := if 0 ≤ t then (n * 2 ^ t.toNat, d) else (n, d * 2 ^ (-t).toNat)

/-- The `t` for which `n / d * 2^t` is at least 2^63 and less than 2^64. -/
def scale (n d : Nat) : Int :=
  let t : Int := 63 + (Nat.log2 d : Int) - Nat.log2 n
  if (shifted n d t).1 < 2 ^ 63 * (shifted n d t).2 then t + 1 else t

/-- `n / d * 2^e` rounded to a `long double`. -/
def round (n d : Nat) (e : Int) : Num :=
  if n = 0 then ⟨0, 0⟩
  else
    let t := scale n d
    ⟨nearest (shifted n d t).1 (shifted n d t).2, e - t⟩

/-- An integer (below 2^64) as a `long double`. -/
def ofNat (n : Nat) : Num := ⟨n, 0⟩
/-- 0.5 -/
def half : Num := ⟨1, -1⟩

/-- Both as multiples of the smaller power of two: `a = x * 2^k`, `b = y * 2^k`. -/
def align (a b : Num) : Nat × Nat × Int :=
  let k := min a.e b.e
  (a.m * 2 ^ (a.e - k).toNat, b.m * 2 ^ (b.e - k).toNat, k)

def lt (a b : Num) : Bool := decide ((align a b).1 < (align a b).2.1)
def mul (a b : Num) : Num := round (a.m * b.m) 1 (a.e + b.e)
def div (a b : Num) : Num := round a.m b.m (a.e - b.e)
/-- `a - b` for `b` not greater than `a`. -/
def sub (a b : Num) : Num := round ((align a b).1 - (align a b).2.1) 1 (align a b).2.2
/-- The conversion to an integer, for numbers below 2^64. -/
def trunc (a : Num) : Nat := if 0 ≤ a.e then a.m * 2 ^ a.e.toNat else a.m / 2 ^ (-a.e).toNat

/-- UINTMAX_MAX, 64 bits. -/
def uintmax : Nat := 18446744073709551615

/-- `cast` (snprintf.c:1434-1456); the conversion rounds to zero, as the standard says. -/
def cast (value : Num) : Nat := if lt value (ofNat uintmax) then trunc value else uintmax

/-- `myround` (snprintf.c:1458-1464). -/
def myround (value : Num) : Nat := if lt (sub value (ofNat (cast value))) half then cast value else cast value + 1

/-- The first loop of `mypow10` (snprintf.c:1471-1474). -/
def powUp : Nat → Num → Num
  | 0, r => r
  | n + 1, r => powUp n (mul r (ofNat 10))
/-- The second loop of `mypow10` (snprintf.c:1475-1478). -/
def powDown : Nat → Num → Num
  | 0, r => r
  | n + 1, r => powDown n (div r (ofNat 10))
/-- `mypow10` (snprintf.c:1466-1480). -/
def mypow10 (exponent : Int) : Num := if 0 ≤ exponent then powUp exponent.toNat (ofNat 1) else powDown (-exponent).toNat (ofNat 1)

/-- The first loop of `getexponent` (snprintf.c:1411-1412); it is done after 99 turns. -/
def expDown : Nat → Num → Int → Num × Int
  | 0, t, e => (t, e)
  | k + 1, t, e => if lt t (ofNat 1) ∧ lt (ofNat 0) t then (if e - 1 > -99 then expDown k (mul t (ofNat 10)) (e - 1) else (t, e - 1)) else (t, e)
/-- The second loop of `getexponent` (snprintf.c:1413-1414). -/
def expUp : Nat → Num → Int → Int
  | 0, _, e => e
  | k + 1, t, e => if !lt t (ofNat 10) then (if e + 1 < 99 then expUp k (div t (ofNat 10)) (e + 1) else e + 1) else e
/-- `getexponent` (snprintf.c:1398-1417) of a number without its sign. The second loop may start at -99, so 198 turns are enough. -/
def getexponent (value : Num) : Int :=
  let r := expDown 99 value 0
  expUp 198 r.1 r.2

end Flt
