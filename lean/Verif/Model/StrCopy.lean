import Verif.Model.Csv
/-! # Model of the bounded string copying functions of libutils/string_lib.c and libcompat

A destination is an allocation (`List (Option UInt8)`, `none` = uninitialised cell).  A source C string is the list of its bytes
before the terminator.  `size_t` subtraction that would wrap is written out (`2^64 - 1`). -/

namespace CMem

/-- `memset(m + off, v, n)`. -/
def memset (m : List (Option UInt8)) (off : Nat) (v : UInt8) (n : Nat) : Option (List (Option UInt8)) :=
  if off + n ≤ m.length then some (m.take off ++ List.replicate n (some v) ++ m.drop (off + n)) else none

/-- `memcpy(m + off, bytes, len)` from a source whose bytes are the list. -/
def store (m : List (Option UInt8)) (off : Nat) (bytes : List UInt8) : Option (List (Option UInt8)) :=
  if off + bytes.length ≤ m.length then some (m.take off ++ bytes.map some ++ m.drop (off + bytes.length)) else none

/-- `strncpy(m + off, s, n)` (C11 7.24.2.4): at most `n` bytes of `s`, then zero bytes up to `n`. -/
def strncpy (m : List (Option UInt8)) (off : Nat) (s : List UInt8) (n : Nat) : Option (List (Option UInt8)) :=
  store m off (s.take n ++ List.replicate (n - s.length) 0)

/-- `strlen(m + off)`. -/
def strlen (m : List (Option UInt8)) (off : Nat) : Option Nat := (str (m.drop off)).map List.length

end CMem

namespace Str

/-- `SIZE_MAX`. -/
def sizeMax : Nat := 18446744073709551615

/-- `StringCopy` (string_lib.c:60-87): block and return value. With `buf_size = 0` the index wraps. -/
def stringCopy (src : List UInt8) (to : List (Option UInt8)) (n : Nat) : Option (List (Option UInt8) × Nat) := do
  let m ← CMem.memset to 0 0 n
  let m ← CMem.strncpy m 0 src n
  let last := if n = 0 then sizeMax else n - 1
  let c ← CMem.get m last
  if c ≠ 0 then do
    let m ← CMem.write m last (some 0)
    some (m, n)
  else do
    let l ← CMem.strlen m 0
    some (m, l)

/-- The copy loop of `strlcpy` (strlcpy.c:42-45), entered after `--n`; `k` counts `s++`. -/
def strlcpyLoop (m : List (Option UInt8)) (d k : Nat) (s : List UInt8) : Nat → Option (List (Option UInt8) × Nat × Nat × List UInt8 × Nat)
  | 0 => some (m, d, k, s, 0)
  | n + 1 =>
    match s with
    | [] => do
      let m ← CMem.write m d (some 0)
      some (m, d + 1, k + 1, [], n + 1)
    | c :: s => do
      let m ← CMem.write m d (some c)
      strlcpyLoop m (d + 1) (k + 1) s n

/-- `strlcpy` (libcompat/strlcpy.c:33-57). -/
def strlcpy (m : List (Option UInt8)) (src : List UInt8) (siz : Nat) : Option (List (Option UInt8) × Nat) := do
  let (m, d, k, s, n) ← if siz ≠ 0 then strlcpyLoop m 0 0 src (siz - 1) else some (m, 0, 0, src, 0)
  if n = 0 then do
    let m ← if siz ≠ 0 then CMem.write m d (some 0) else some m
    some (m, k + s.length + 1 - 1)
  else some (m, k - 1)

/-- Advance to the terminator, at most `n` cells (strlcat.c:44-45, string_lib.c:1569-1571). -/
def scan (m : List (Option UInt8)) (i : Nat) : Nat → Option Nat
  | 0 => some i
  | n + 1 => do
    let c ← CMem.get m i
    if c = 0 then some i else scan m (i + 1) n

/-- The append loop of `strlcat` (strlcat.c:51-57): the block, `d`, and the number of `s++`. -/
def strlcatLoop (m : List (Option UInt8)) (d n : Nat) : List UInt8 → Option (List (Option UInt8) × Nat)
  | [] => some (m, d)
  | c :: s =>
    if n ≠ 1 then do
      let m ← CMem.write m d (some c)
      strlcatLoop m (d + 1) (n - 1) s
    else strlcatLoop m d n s

/-- `strlcat` (libcompat/strlcat.c:35-61). -/
def strlcat (m : List (Option UInt8)) (src : List UInt8) (siz : Nat) : Option (List (Option UInt8) × Nat) := do
  let dlen ← scan m 0 siz
  let n := siz - dlen
  if n = 0 then some (m, dlen + src.length)
  else do
    let (m, d) ← strlcatLoop m dlen n src
    let m ← CMem.write m d (some 0)
    some (m, dlen + src.length)

/-- The append loop of `StringAppend` (string_lib.c:1572-1575): the block, `i`, and the rest of `src`. -/
def appendLoop (m : List (Option UInt8)) (i n : Nat) : List UInt8 → Option (List (Option UInt8) × Nat × List UInt8)
  | [] => some (m, i, [])
  | c :: s =>
    if i < n then do
      let m ← CMem.write m i (some c)
      appendLoop m (i + 1) n s
    else some (m, i, c :: s)

/-- `StringAppend` (string_lib.c:1565-1578). -/
def stringAppend (m : List (Option UInt8)) (src : List UInt8) (n : Nat) : Option (List (Option UInt8) × Bool) := do
  let n := if n = 0 then sizeMax else n - 1
  let i ← scan m 0 n
  let (m, i, s) ← appendLoop m i n src
  let m ← CMem.write m i (some 0)
  some (m, decide (i < n) || s.isEmpty)

/-- `strcspn(isp, exclude)`. -/
def strcspn (s exclude : List UInt8) : Nat := (s.takeWhile fun c => !exclude.contains c).length

/-- `StringNotMatchingSetCapped` (string_lib.c:1546-1563). The source is readable up to and including its terminator. -/
def notMatchingSetCapped (isp : List UInt8) (limit : Nat) (exclude : List UInt8) (m : List (Option UInt8)) : Option (List (Option UInt8) × Bool) := do
  let l := strcspn isp exclude
  let cap := if limit = 0 then sizeMax else limit - 1
  if l < cap then do
    let m ← CMem.memcpy m 0 ((isp ++ [0]).map some) 0 l
    let m ← CMem.write m l (some 0)
    some (m, false)
  else do
    let m ← CMem.memcpy m 0 ((isp ++ [0]).map some) 0 cap
    let m ← CMem.write m cap (some 0)
    some (m, true)

/-- The inner loop of `stpncpy` (stpncpy.c:52-55). -/
def zeroFill (m : List (Option UInt8)) (j : Nat) : Nat → Option (List (Option UInt8))
  | 0 => some m
  | n + 1 => do
    let m ← CMem.write m j (some 0)
    zeroFill m (j + 1) n

/-- The loop of `stpncpy` (stpncpy.c:45-58) with `i` bytes done and `n` to go; gives the block and the returned offset. -/
def stpncpyLoop (m : List (Option UInt8)) (i : Nat) (s : List UInt8) : Nat → Option (List (Option UInt8) × Nat)
  | 0 => some (m, i)
  | n + 1 =>
    match s with
    | [] => do
      let m ← CMem.write m i (some 0)
      let m ← zeroFill m (i + 1) n
      some (m, i)
    | c :: s => do
      let m ← CMem.write m i (some c)
      stpncpyLoop m (i + 1) s n

/-- `stpncpy` (libcompat/stpncpy.c:39-60). Lengths are below INT_MAX (the loop counters are `int`). -/
def stpncpy (m : List (Option UInt8)) (src : List UInt8) (len : Nat) : Option (List (Option UInt8) × Nat) := stpncpyLoop m 0 src len

/-- `PathAppend` (string_lib.c:1611-1631). -/
def pathAppend (m : List (Option UInt8)) (pathSize : Nat) (leaf : List UInt8) (sep : UInt8) : Option (List (Option UInt8) × Bool) := do
  let path ← CMem.str m
  let pathLen := if path.length > 0 ∧ path[path.length - 1]? = some sep then path.length - 1 else path.length
  if pathLen + 1 + leaf.length ≥ pathSize then some (m, false)
  else do
    let m ← CMem.write m pathLen (some sep)
    let m ← CMem.store m (pathLen + 1) (leaf ++ [0])
    some (m, true)

/-- `dlen` of `StrCat` and `StrCatDelim` (string_lib.c:1654, 1694): the given length, or `strlen(dst)` for a NULL pointer. -/
def dstLenOf (m : List (Option UInt8)) : Option Nat → Option Nat
  | some l => some l
  | none => CMem.strlen m 0

/-- `slen` of `StrCat` (string_lib.c:1655). -/
def srcLenOf (src : List UInt8) (srcLen : Nat) : Option Nat :=
  if srcLen ≠ 0 then some srcLen else CMem.strlen ((src ++ [0]).map some) 0

/-- The writes of `StrCat` (string_lib.c:1659-1673). -/
def catWrite (m : List (Option UInt8)) (dstSize dlen slen : Nat) (src : List UInt8) : Option (List (Option UInt8)) :=
  if dlen + 1 ≥ dstSize then some m
  else if dlen + slen < dstSize then do
    let m ← CMem.memcpy m dlen ((src ++ [0]).map some) 0 slen
    CMem.write m (dlen + slen) (some 0)
  else do
    let m ← CMem.memcpy m dlen ((src ++ [0]).map some) 0 (dstSize - dlen - 1)
    CMem.write m (dstSize - 1) (some 0)

/-- `StrCat` (string_lib.c:1651-1679). `dstLen = none` is a NULL pointer; the result is the block and the new `*dst_len`. `src` is
readable for its bytes and the terminator. -/
def strCat (m : List (Option UInt8)) (dstSize : Nat) (dstLen : Option Nat) (src : List UInt8) (srcLen : Nat) :
    Option (List (Option UInt8) × Option Nat) := do
  let dlen ← dstLenOf m dstLen
  let slen ← srcLenOf src srcLen
  let m ← catWrite m dstSize dlen slen src
  some (m, dstLen.map fun _ => dlen + slen)

/-- The separator of `StrCatDelim` (string_lib.c:1711-1715): the block and the new `dlen`. -/
def delimWrite (m : List (Option UInt8)) (dlen : Nat) (sep : UInt8) : Option (List (Option UInt8) × Nat) :=
  if dlen > 0 then do
    let m ← CMem.write m dlen (some sep)
    some (m, dlen + 1)
  else some (m, dlen)

/-- The writes of `StrCatDelim` (string_lib.c:1703-1721). -/
def catDelimWrite (m : List (Option UInt8)) (dstSize dlen needed : Nat) (src : List UInt8) (sep : UInt8) : Option (List (Option UInt8)) :=
  if dlen + 1 ≥ dstSize then some m
  else if needed < dstSize then do
    let (m, dlen) ← delimWrite m dlen sep
    let m ← CMem.store m dlen src
    CMem.write m needed (some 0)
  else some m

/-- `StrCatDelim` (string_lib.c:1691-1727). -/
def strCatDelim (m : List (Option UInt8)) (dstSize : Nat) (dstLen : Option Nat) (src : List UInt8) (sep : UInt8) :
    Option (List (Option UInt8) × Option Nat) := do
  let dlen ← dstLenOf m dstLen
  let needed := if dlen > 0 then dlen + src.length + 1 else dlen + src.length
  let m ← catDelimWrite m dstSize dlen needed src sep
  some (m, dstLen.map fun _ => needed)

/-- `strcat(m, s)`: appends `s` and a terminator at the terminator of the string in `m`. -/
def strcat (m : List (Option UInt8)) (s : List UInt8) : Option (List (Option UInt8)) := do
  let l ← CMem.strlen m 0
  CMem.store m l (s ++ [0])

/-- The `strcat` calls of `StringConcatenate` (string_lib.c:376-389); NULL arguments (`none`) are skipped. -/
def catLoop (m : List (Option UInt8)) : List (Option (List UInt8)) → Option (List (Option UInt8))
  | [] => some m
  | none :: as => catLoop m as
  | some s :: as => do
    let m ← strcat m s
    catLoop m as

/-- The summand of the length computation of `StringConcatenate` (string_lib.c:361-371). -/
def argLen : Option (List UInt8) → Nat
  | some s => s.length
  | none => 0

/-- `StringConcatenate(count, first, ...)` (string_lib.c:354-393): the arguments in order; `some none` is the NULL result for a count of
zero. The block is the calloc'ed result. -/
def stringConcatenate (args : List (Option (List UInt8))) : Option (Option (List (Option UInt8))) :=
  if args.length < 1 then some none
  else do
    let total := (args.map argLen).sum
    let m ← catLoop (List.replicate (total + 1) (some 0)) args
    some (some m)

/-- The loop of `StringBytesToHex` (string_lib.c:925-931) from index `i`; gives the block and the final `i`. -/
def hexLoop (m : List (Option UInt8)) (dstSize i : Nat) : List UInt8 → Option (List (Option UInt8) × Nat)
  | [] => some (m, i)
  | b :: bs =>
    if i * 2 + 2 < dstSize then do
      let hi ← ([48, 49, 50, 51, 52, 53, 54, 55, 56, 57, 97, 98, 99, 100, 101, 102] : List UInt8)[((b >>> 4) &&& 0xf).toNat]?
      let lo ← ([48, 49, 50, 51, 52, 53, 54, 55, 56, 57, 97, 98, 99, 100, 101, 102] : List UInt8)[(b &&& 0xf).toNat]?
      let m ← CMem.write m (2 * i) (some hi)
      let m ← CMem.write m (2 * i + 1) (some lo)
      hexLoop m dstSize (i + 1) bs
    else some (m, i)

/-- `StringBytesToHex` (string_lib.c:919-937). -/
def bytesToHex (m : List (Option UInt8)) (dstSize : Nat) (src : List UInt8) : Option (List (Option UInt8) × Nat) := do
  let (m, i) ← hexLoop m dstSize 0 src
  if 2 * i < dstSize then do                      -- assert, line 933
    let m ← CMem.write m (2 * i) (some 0)
    some (m, 2 * i)
  else none

end Str
