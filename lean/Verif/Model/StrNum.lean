import Verif.Model.StrTrim
/-! # Model of string comparison, substrings and integer parsing (libutils/string_lib.c)

A `const char *` argument that is only read is the list of its bytes before the terminating NUL (so no byte is 0); an access through it at
index `i` reads `(s ++ [0])[i]`.  `int` has 32 bits, `long`, `size_t`, `ssize_t`, `intmax_t` have 64 bits (Linux x86-64). -/

namespace Str

/-! ## Comparison -/

/-- The loop of `strcmp`/`strcasecmp` (C standard; libcompat/strcasecmp.c) up to the sign: walk while the characters, mapped by `f`, are equal
and not NUL, then compare as `unsigned char`. -/
def cmpSign (f : UInt8 → UInt8) : List UInt8 → List UInt8 → Int
  | [], [] => 0
  | [], _ :: _ => -1
  | _ :: _, [] => 1
  | x :: xs, y :: ys => if f x = f y then cmpSign f xs ys else if f x < f y then -1 else 1

/-- `strncmp`/`strncasecmp` up to the sign: the same, stopping after `n` characters. -/
def cmpSignN (f : UInt8 → UInt8) : Nat → List UInt8 → List UInt8 → Int
  | 0, _, _ => 0
  | _ + 1, [], [] => 0
  | _ + 1, [], _ :: _ => -1
  | _ + 1, _ :: _, [] => 1
  | n + 1, x :: xs, y :: ys => if f x = f y then cmpSignN f n xs ys else if f x < f y then -1 else 1

/-- A string pointer: NULL, or an address with the string found there. -/
abbrev Ptr := Option (Nat × List UInt8)

/-- `NullCompare` (string_lib.c:206-223); both NULL or both equal violates its assertions. -/
def nullCompare (a b : Ptr) : Option Int :=
  match a, b with
  | some _, none => some 1
  | none, some _ => some (-1)
  | _, _ => none

/-- The common shape of the comparisons (string_lib.c:225-260, 272-300): same address, both non-NULL, else `NullCompare`. -/
def safeCompareWith (cmp : List UInt8 → List UInt8 → Option Int) (a b : Ptr) : Option Int :=
  if a.map Prod.fst = b.map Prod.fst then some 0
  else match a, b with
    | some (_, s), some (_, t) => cmp s t
    | _, _ => nullCompare a b

/-- The value the C library's comparison returns: the right sign, and some magnitude that depends on the platform (`mag`, any function). -/
def libc (mag : List UInt8 → List UInt8 → Nat) (sgn : Int) (s t : List UInt8) : Int := sgn * (mag s t + 1)

/-- `compare_result / abs(compare_result)` when non-zero (string_lib.c:236-241). -/
def normalise (r : Int) : Int := if r ≠ 0 then r.tdiv r.natAbs else r

/-- `StringSafeCompare` (string_lib.c:225-245). -/
def safeCompare (mag : List UInt8 → List UInt8 → Nat) : Ptr → Ptr → Option Int :=
  safeCompareWith fun s t => some (normalise (libc mag (cmpSign id s t) s t))
/-- `StringSafeCompareN` (string_lib.c:247-260). -/
def safeCompareN (mag : List UInt8 → List UInt8 → Nat) (n : Nat) : Ptr → Ptr → Option Int :=
  safeCompareWith fun s t => some (libc mag (cmpSignN id n s t) s t)
/-- `StringSafeCompare_IgnoreCase` (string_lib.c:272-285). -/
def safeCompareI (mag : List UInt8 → List UInt8 → Nat) : Ptr → Ptr → Option Int :=
  safeCompareWith fun s t => some (libc mag (cmpSign toLower s t) s t)
/-- `StringSafeCompareN_IgnoreCase` (string_lib.c:287-300). -/
def safeCompareNI (mag : List UInt8 → List UInt8 → Nat) (n : Nat) : Ptr → Ptr → Option Int :=
  safeCompareWith fun s t => some (libc mag (cmpSignN toLower n s t) s t)
/-- `StringEqual` (string_lib.c:262-265). -/
def equal (mag : List UInt8 → List UInt8 → Nat) (a b : Ptr) : Option Bool := (safeCompare mag a b).map (· == 0)
/-- `StringEqualN` (string_lib.c:267-270). -/
def equalN (mag : List UInt8 → List UInt8 → Nat) (n : Nat) (a b : Ptr) : Option Bool := (safeCompareN mag n a b).map (· == 0)
/-- `StringEqual_IgnoreCase` (string_lib.c:302-305). -/
def equalI (mag : List UInt8 → List UInt8 → Nat) (a b : Ptr) : Option Bool := (safeCompareI mag a b).map (· == 0)
/-- `StringEqualN_IgnoreCase` (string_lib.c:307-310). -/
def equalNI (mag : List UInt8 → List UInt8 → Nat) (n : Nat) (a b : Ptr) : Option Bool := (safeCompareNI mag n a b).map (· == 0)

/-- `IsStrIn` (string_lib.c:939-951), over the entries before the NULL. -/
def isStrIn (str : List UInt8) : List (List UInt8) → Bool
  | [] => false
  | s :: strs => if cmpSign id str s = 0 then true else isStrIn str strs
/-- `IsStrCaseIn` (string_lib.c:953-965). -/
def isStrCaseIn (str : List UInt8) : List (List UInt8) → Bool
  | [] => false
  | s :: strs => if cmpSign toLower str s = 0 then true else isStrCaseIn str strs

/-- `StringMatchesOption` (string_lib.c:1742-1765) with its assertions. The three strings are at the given addresses. -/
def matchesOption (mag : List UInt8 → List UInt8 → Nat) (supplied longopt shortopt : Nat × List UInt8) : Option Bool :=
  if shortopt.2.length = 2 ∧ 3 ≤ longopt.2.length ∧ (shortopt.2[0]? = some 45 ∧ shortopt.2[1]? ≠ some 45) ∧
      (longopt.2[0]? = some 45 ∧ longopt.2[1]? = some 45 ∧ longopt.2[2]? ≠ some 45) then
    if supplied.2.length ≤ 1 then some false
    else if supplied.2.length = 2 then equal mag (some supplied) (some shortopt)
    else equalNI mag supplied.2.length (some supplied) (some longopt)
  else none

/-! ## Tests on all characters -/

/-- The loops `for (; *s; s++) if (!p(*s)) return false; return true` (string_lib.c:434-475). -/
def allLoop (p : UInt8 → Bool) (m : List (Option UInt8)) (i : Nat) : Nat → Option Bool
  | 0 => none
  | k + 1 => do
    let c ← CMem.get m i
    if c = 0 then some true else if p c then allLoop p m (i + 1) k else some false

/-- `isprint` in the C locale. -/
def isprint (c : UInt8) : Bool := 32 ≤ c && c ≤ 126
/-- `StringIsNumeric` (string_lib.c:434-445). -/
def isNumeric (m : List (Option UInt8)) : Option Bool := allLoop isdigit m 0 (m.length + 1)
/-- `StringIsPrintable` (string_lib.c:447-458). -/
def isPrintable (m : List (Option UInt8)) : Option Bool := allLoop isprint m 0 (m.length + 1)
/-- `EmptyString` (string_lib.c:460-473). -/
def emptyString (m : List (Option UInt8)) : Option Bool := allLoop isspace m 0 (m.length + 1)

/-! ## StringSubstring -/

/-- Conversion of an integer to `ssize_t`. -/
def toSSize (x : Int) : Int := x.bmod (2 ^ 64)
/-- Conversion to `size_t`. -/
def toSize (x : Int) : Int := x % 2 ^ 64
/-- Conversion to `int`. -/
def toInt (x : Int) : Int := x.bmod (2 ^ 32)
/-- `x` fits in an `int`. -/
def fitsInt (x : Int) : Bool := -2 ^ 31 ≤ x && x < 2 ^ 31

/-- `end` after string_lib.c:399-412; `start + len - 1` is `int` arithmetic, its overflow is undefined. -/
def substringEnd (sourceLen : Nat) (start len : Int) : Option Int :=
  if len < 0 then some (toSSize (toSize (toSize (sourceLen + len) - 1)))
  else if fitsInt (start + len) && fitsInt (start + len - 1) then some (start + len - 1) else none

/-- `StringSubstring` (string_lib.c:397-430): `some none` is a NULL result, `some (some m)` the allocated block.
`MIN(end, source_len - 1)` compares as `size_t`. -/
def substring (source : List (Option UInt8)) (sourceLen : Nat) (start len : Int) : Option (Option (List (Option UInt8))) :=
  if len = 0 then some (some [some 0])
  else do
    let e ← substringEnd sourceLen start len
    let e := toSSize (min (toSize e) (toSize (sourceLen - 1)))
    let start := if start < 0 then toInt (sourceLen + start) else start
    if start ≥ e then some none
    else if start < 0 then none
    else do
      let result := List.replicate (e - start + 2).toNat (some 0)
      let result ← CMem.memcpy result 0 source start.toNat (e - start + 1).toNat
      some (some result)

/-! ## Integer parsing -/

/-- The optional sign of a numeral: negative?, number of characters (C standard, `strtol`). -/
def signOf (r : List UInt8) : Bool × Nat :=
  match r with
  | [] => (false, 0)
  | c :: _ => if c = 45 then (true, 1) else if c = 43 then (false, 1) else (false, 0)

/-- `strtol(str, &endptr, 10)` and its relatives up to the conversion to the result type (C standard): blanks, an optional sign, decimal digits.
`none`: no digits (`endptr == str`); else sign, magnitude and the offset of `endptr`. -/
def strtoParse (s : List UInt8) : Option (Bool × Nat × Nat) :=
  let i := (s.takeWhile isspace).length
  let r := s.dropWhile isspace
  let sg := signOf r
  let ds := (r.drop sg.2).takeWhile isdigit
  if ds = [] then none
  else some (sg.1, ds.foldl (fun n c => 10 * n + (c.toNat - 48)) 0, i + sg.2 + ds.length)

/-- `strtol` on 64 bits: value, `endptr` offset, `errno == ERANGE`. -/
def strtol (s : List UInt8) : Int × Nat × Bool :=
  match strtoParse s with
  | none => (0, 0, false)
  | some (neg, mag, e) =>
    let v : Int := if neg then -mag else mag
    if v < -2 ^ 63 then (-2 ^ 63, e, true)
    else if v > 2 ^ 63 - 1 then (2 ^ 63 - 1, e, true)
    else (v, e, false)

/-- `strtoul` on 64 bits: a magnitude too large gives ULONG_MAX and ERANGE, a minus sign negates in the unsigned type. -/
def strtoul (s : List UInt8) : Nat × Nat × Bool :=
  match strtoParse s with
  | none => (0, 0, false)
  | some (neg, mag, e) =>
    if mag > 2 ^ 64 - 1 then (2 ^ 64 - 1, e, true)
    else (if neg then (2 ^ 64 - mag) % 2 ^ 64 else mag, e, false)

/-- ERANGE on Linux. -/
def ERANGE : Int := 34

/-- The checks after the conversion, common to the three parsers (string_lib.c:503-528, 668-704, 779-804): bad end pointer, bad terminator. -/
def checkEnd (s : List UInt8) (e : Nat) : Option (Option Int) :=
  if e = 0 then some (some (-81))
  else do
    let c ← (s ++ [0])[e]?
    if c ≠ 0 ∧ isspace c = false then some (some (-83)) else some none

/-- `StringToLong` (string_lib.c:491-529) and `StringToInt64` (765-805): code or value.  `endptr == NULL` (−82) and an unknown `errno` do not
occur with the `strtol` above. -/
def stringToLong (s : List UInt8) : Option (Except Int Int) :=
  let r := strtol s
  if r.2.2 ∧ (r.1 = 2 ^ 63 - 1 ∨ r.1 = -2 ^ 63) then some (.error ERANGE)
  else do
    match ← checkEnd s r.2.1 with
    | some code => some (.error code)
    | none => some (.ok r.1)

/-- The loop skipping blanks in `StringToUlong` (string_lib.c:676): `while (ch < endptr && isspace(*ch)) ch++`. -/
def skipLoop (s : List UInt8) (e : Nat) (i : Nat) : Nat → Option Nat
  | 0 => none
  | k + 1 =>
    if i < e then do
      let c ← (s ++ [0])[i]?
      if isspace c then skipLoop s e (i + 1) k else some i
    else some i

/-- The test for a minus sign in `StringToUlong` (string_lib.c:673-681). -/
def ulongNegative (s : List UInt8) (val e : Nat) : Option Bool :=
  if val > 0 then do
    let i ← skipLoop s e 0 (s.length + 1)
    let c ← (s ++ [0])[i]?
    some (c == 45)
  else some false

/-- `StringToUlong` (string_lib.c:656-705). -/
def stringToUlong (s : List UInt8) : Option (Except Int Nat) :=
  let r := strtoul s
  if r.2.2 ∧ r.1 = 2 ^ 64 - 1 then some (.error ERANGE)
  else do
    if ← ulongNegative s r.1 r.2.1 then some (.error ERANGE)
    else match ← checkEnd s r.2.1 with
      | some code => some (.error code)
      | none => some (.ok r.1)

/-- PRINTSIZE(INT_MAX) = 3 + 53·4/22 (printsize.h:66). -/
def printsizeInt : Nat := 3 + 53 * 4 / 22

/-- `StringDecimalToLong` (string_lib.c:542-564); the copy of the integer part is NUL-terminated at its length. -/
def stringDecimalToLong (s : List UInt8) : Option (Except Int Int) :=
  let len := strcspn s [46]
  if len > printsizeInt then some (.error (-84))
  else do
    let c ← (s ++ [0])[len]?
    if len = 0 ∨ c = 0 then stringToLong s else stringToLong (s.take len)

/-- `StringToLongDefaultOnError` (string_lib.c:604-615). -/
def stringToLongDefault (s : List UInt8) (d : Int) : Option Int := do
  match ← stringToLong s with
  | .ok v => some v
  | .error _ => some d

/-- `printf` of a number in decimal (C library). -/
def natText (n : Nat) : List UInt8 := (Nat.toDigits 10 n).map fun c => UInt8.ofNat c.toNat
/-- `StringFromLong` (string_lib.c:877-882): 32 zeroed cells, `snprintf(str, 32, "%ld", number)`. -/
def stringFromLong (v : Int) : Option (List (Option UInt8)) :=
  let text := (if v < 0 then 45 :: natText v.natAbs else natText v.natAbs).take 31
  CMem.store (List.replicate 32 (some 0)) 0 (text ++ [0])

end Str
