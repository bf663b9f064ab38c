import Verif.Model.StrCopy
import Verif.Model.StrNum
/-!
# Macros and inline functions of the headers

`printsize.h`, `platform.h` (byte order), `string_lib.h`, `misc_lib.h` and `definitions.h`.  A string argument that may be NULL is an
`Option` of its bytes; `none` as an outcome is undefined behaviour.
-/
namespace Hdr

/-! ## printsize.h -/

/-- `PRINTSIZE(what)` for an object of `n` bytes (printsize.h:66), in `size_t`. -/
def printsize (n : Nat) : Nat := (3 + (53 * n) % 2 ^ 64 / 22) % 2 ^ 64

/-- `sprintf(buf, "%d", v)` (`plus`: `"%+d"`) into a block of `PRINTSIZE(v)` uninitialised bytes, `v` of `n` bytes (the use that
printsize.h:31-44 describes, printsize.h:27-66). -/
def printSigned (n : Nat) (plus : Bool) (v : Int) : Option (List (Option UInt8)) :=
  CMem.store (List.replicate (printsize n) none) 0
    ((if v < 0 then 45 :: Str.natText v.natAbs else if plus then 43 :: Str.natText v.natAbs else Str.natText v.natAbs) ++ [0])

/-- `sprintf(buf, "%u", v)` into a block of `PRINTSIZE(v)` uninitialised bytes, `v` of `n` bytes (printsize.h:27-66). -/
def printUnsigned (n : Nat) (v : Nat) : Option (List (Option UInt8)) :=
  CMem.store (List.replicate (printsize n) none) 0 (Str.natText v ++ [0])

/-! ## platform.h: little-endian words -/

/-- The four bytes of a `uint32_t` in memory, lowest address first, on a big-endian (`WORDS_BIGENDIAN`) or little-endian machine. -/
def wordBytes (big : Bool) (v : UInt32) : List UInt8 :=
  let le := [UInt8.ofNat v.toNat, UInt8.ofNat (v.toNat / 256), UInt8.ofNat (v.toNat / 65536), UInt8.ofNat (v.toNat / 16777216)]
  if big then le.reverse else le

/-- The `uint32_t` that four bytes of memory represent. -/
def wordOf (big : Bool) (m : List UInt8) : Option UInt32 :=
  match if big then m.reverse else m with
  | [a, b, c, d] => some (UInt32.ofNat (a.toNat + 256 * b.toNat + 65536 * c.toNat + 16777216 * d.toNat))
  | _ => none

/-- `ByteSwap32` (platform.h:439-449). -/
def byteSwap32 (big : Bool) (le32uint : UInt32) : Option UInt32 := do
  let le := wordBytes big le32uint
  let m : List UInt8 := [0, 0, 0, 0]
  let m ← CMem.write m 0 (← CMem.read le 3)
  let m ← CMem.write m 1 (← CMem.read le 2)
  let m ← CMem.write m 2 (← CMem.read le 1)
  let m ← CMem.write m 3 (← CMem.read le 0)
  wordOf big m

/-- `le32toh` (platform.h:450-464). -/
def le32toh (big : Bool) (x : UInt32) : Option UInt32 := if big then byteSwap32 big x else some x
/-- `htole32` (platform.h:450-464). -/
def htole32 (big : Bool) (x : UInt32) : Option UInt32 := if big then byteSwap32 big x else some x

/-! ## string_lib.h and its NULL-tolerant functions -/

/-- Conversion of a `size_t` to `int` (implementation-defined, modulo 2^32 with gcc and clang). -/
def toInt (n : Nat) : Int := (BitVec.ofNat 32 n).toInt

/-- `SafeStringLength` (string_lib.c:195-203). -/
def safeStringLength : Option (List UInt8) → Int
  | none => 0
  | some s => toInt s.length

/-- `SafeStringDuplicate` (string_lib.c:171-179): a new block (`xstrdup`, alloc.c:56-59). -/
def safeStringDuplicate : Option (List UInt8) → Option (Option (List (Option UInt8)))
  | none => some none
  | some s => do some (some (← CMem.store (List.replicate (s.length + 1) none) 0 (s ++ [0])))

/-- `SafeStringNDuplicate` (string_lib.c:183-191): a new block with at most `size` bytes of the string (`xstrndup`, alloc.c:61-64). -/
def safeStringNDuplicate (size : Nat) : Option (List UInt8) → Option (Option (List (Option UInt8)))
  | none => some none
  | some s => do some (some (← CMem.store (List.replicate (min size s.length + 1) none) 0 (s.take size ++ [0])))

/-- `NULLStringToEmpty` (string_lib.c:905-913): the argument, or the empty literal. -/
def nullStringToEmpty : Option (List UInt8) → List UInt8
  | none => []
  | some s => s

/-- `NULL_OR_EMPTY` (string_lib.h:43-44). -/
def nullOrEmpty : Option (List UInt8) → Option Bool
  | none => some true
  | some s => do some ((← (s ++ [0])[0]?) == 0)

/-- `NOT_NULL_AND_EMPTY` (string_lib.h:46-47). -/
def notNullAndEmpty : Option (List UInt8) → Option Bool
  | none => some false
  | some s => do some ((← (s ++ [0])[0]?) == 0)

/-- `SAFENULL` (string_lib.h:52-53). -/
def safeNull : Option (List UInt8) → List UInt8
  | some s => s
  | none => [40, 110, 117, 108, 108, 41]

/-- `NULL_TO_EMPTY_STRING` (string_lib.h:58-60). -/
def nullToEmpty : Option (List UInt8) → List UInt8
  | some s => s
  | none => []

/-- `EMPTY_STRING_TO_NULL` (string_lib.h:55-57): decides with `SafeStringLength`. -/
def emptyToNull (s : Option (List UInt8)) : Option (List UInt8) := if safeStringLength s ≠ 0 then s else none

/-- `strncmp` (C library): the difference of the first differing bytes, stopping at a NUL; `none` reads outside a block. -/
def strncmp : Nat → List UInt8 → List UInt8 → Option Int
  | 0, _, _ => some 0
  | n + 1, a :: as, b :: bs => if a ≠ b then some ((a.toNat : Int) - b.toNat) else if a = 0 then some 0 else strncmp n as bs
  | _ + 1, _, _ => none

/-- `STARTSWITH` (string_lib.h:49-50). -/
def startsWith (str start : List UInt8) : Option Bool := do some ((← strncmp start.length (str ++ [0]) (start ++ [0])) == 0)

/-- `strstr` (C library): does the needle match at the start of the haystack? -/
def matchAt : List UInt8 → List UInt8 → Bool
  | [], _ => true
  | _ :: _, [] => false
  | n :: ns, h :: hs => n == h && matchAt ns hs
/-- `strstr` (C library): the first offset at which the needle occurs. -/
def strstr (needle : List UInt8) : List UInt8 → Option Nat
  | [] => if matchAt needle [] then some 0 else none
  | h :: hs => if matchAt needle (h :: hs) then some 0 else (strstr needle hs).map (· + 1)

/-- `StringContains` (string_lib.h:114-117). -/
def stringContains (haystack needle : List UInt8) : Bool := (strstr needle haystack).isSome

/-- `strchr` (C library): the terminating NUL is part of the string. -/
def strchr (c : UInt8) (s : List UInt8) : Option Nat := (s ++ [0]).findIdx? (· == c)

/-- `StringContainsChar` (string_lib.h:119-122). -/
def stringContainsChar (haystack : List UInt8) (needle : UInt8) : Bool := (strchr needle haystack).isSome

/-- The `int` value of a `char` with byte `c`; `signed`: is plain `char` signed on the platform? -/
def charVal (signed : Bool) (c : UInt8) : Int := if signed ∧ 128 ≤ c.toNat then (c.toNat : Int) - 256 else c.toNat

/-- `CharIsPrintableAscii` (string_lib.h:108-111). -/
def charIsPrintableAscii (signed : Bool) (c : UInt8) : Bool := decide (charVal signed c ≥ 32) && decide (charVal signed c ≤ 126)

/-! ## misc_lib.h, definitions.h: macros that paste their argument

The argument of a macro is text.  `atom` is an identifier, a literal or a parenthesised expression; `add a b` and `sub a b` are the
unparenthesised texts `a + b` and `a - b`. -/

inductive Arg where
  | atom (v : Int)
  | add (a b : Int)
  | sub (a b : Int)

/-- Does the value fit an `int`? (overflow is undefined) -/
def int32 (v : Int) : Option Int := if -2 ^ 31 ≤ v ∧ v < 2 ^ 31 then some v else none

/-- The text evaluated on its own (as between parentheses), in `int`. -/
def Arg.val : Arg → Option Int
  | .atom v => int32 v
  | .add a b => int32 (a + b)
  | .sub a b => int32 (a - b)

/-- The text behind a minus sign: `-a + b` and `-a - b`. -/
def Arg.negated : Arg → Option Int
  | .atom v => int32 (-v)
  | .add a b => do int32 ((← int32 (-a)) + b)
  | .sub a b => do int32 ((← int32 (-a)) - b)

/-- `ABS(n)` (misc_lib.h:76): `( (n<0) ? (-n) : (n) )`. -/
def absM (n : Arg) : Option Int := do
  if (← n.val) < 0 then n.negated else n.val

/-- The text in front of `* k`, in `unsigned` arithmetic of `w` bits: `a + b * k`, `a - b * k`. -/
def Arg.times (w : Nat) (k : Int) : Arg → Nat
  | .atom v => ((v * k) % 2 ^ w).toNat
  | .add a b => ((a + b * k) % 2 ^ w).toNat
  | .sub a b => ((a - b * k) % 2 ^ w).toNat

/-- `KIBIBYTE(n)` (definitions.h:31); `w` is the width of `unsigned long`. -/
def kibibyte (w : Nat) (n : Arg) : Nat := n.times w 1024
/-- `MEBIBYTE(n)` (definitions.h:32). -/
def mebibyte (w : Nat) (n : Arg) : Nat := n.times w (1024 * 1024)
/-- `GIBIBYTE(n)` (definitions.h:33); `unsigned long long` has 64 bits. -/
def gibibyte (n : Arg) : Nat := n.times 64 (1024 * 1024 * 1024)
/-- `TEBIBYTE(n)` (definitions.h:34). -/
def tebibyte (n : Arg) : Nat := n.times 64 (1024 * 1024 * 1024 * 1024)

end Hdr
