import Verif.Model.StrCopy
/-! # Model of libutils/path.c and of the digest printing of libutils/hash.c -/

namespace Path

/-- `ToLower` (string_lib.c:118-128): upper-case letters gain 32. -/
def toLower (c : UInt8) : UInt8 := if 65 ≤ c ∧ c ≤ 90 then c + 32 else c

/-- The loop of `StringEndsWithCase` (string_lib.c:1468-1482) with `k` iterations left at index `i`. Reading outside the strings is `none`. -/
def endsLoop (str suffix : List UInt8) (caseFold : Bool) (i : Nat) : Nat → Option Bool
  | 0 => some true
  | k + 1 => do
    let a ← str[str.length - i - 1]?
    let b ← suffix[suffix.length - i - 1]?
    let a := if caseFold then toLower a else a
    let b := if caseFold then toLower b else b
    if a ≠ b then some false else endsLoop str suffix caseFold (i + 1) k

/-- `StringEndsWithCase(str, suffix, case_fold)` (string_lib.c:1458-1485). -/
def endsWithCase (str suffix : List UInt8) (caseFold : Bool) : Option Bool :=
  if suffix.length > str.length then some false else endsLoop str suffix caseFold 0 suffix.length

/-- `StringEndsWith` (string_lib.c:1487-1490). -/
def endsWith (str suffix : List UInt8) : Option Bool := endsWithCase str suffix false

/-- The loop of `StringStartsWith` (string_lib.c:1502-1508). -/
def startsLoop (str pre : List UInt8) (i : Nat) : Nat → Option Bool
  | 0 => some true
  | k + 1 => do
    let a ← str[i]?
    let b ← pre[i]?
    if a ≠ b then some false else startsLoop str pre (i + 1) k

/-- `StringStartsWith` (string_lib.c:1492-1510); lengths below INT_MAX. -/
def startsWith (str pre : List UInt8) : Option Bool :=
  if pre.length > str.length then some false else startsLoop str pre 0 pre.length

/-- `strrchr(path, '/')`, as an offset. -/
def strrchr (s : List UInt8) (c : UInt8) : Option Nat :=
  match s.reverse.findIdx? (· == c) with
  | none => none
  | some j => some (s.length - 1 - j)

/-- `Path_Basename` (path.c:5-26); the result is an offset into the path, `none` is NULL. -/
def basename (path : List UInt8) : Option Nat :=
  let off := match strrchr path 47 with
    | some i => i + 1
    | none => 0
  if off = path.length then none else some off

/-- `Path_JoinAlloc` (path.c:28-35). -/
def joinAlloc (dir leaf : List UInt8) : Option (Option (List (Option UInt8))) :=
  (endsWith dir [47]).bind fun e =>
    if e then Str.stringConcatenate [some dir, some leaf] else Str.stringConcatenate [some dir, some [47], some leaf]

/-- The character test of `Path_GetQuoted` (path.c:55-60); `IsFileSep` is `'/'` on Unix. -/
def plainChar (c : UInt8) : Bool :=
  (97 ≤ c && c ≤ 122) || (65 ≤ c && c ≤ 90) || (48 ≤ c && c ≤ 57) || c == 95 || c == 45 || c == 47

/-- `Path_GetQuoted` (path.c:37-70) for a non-NULL path; the result's block. -/
def getQuoted (path : List UInt8) : Option (Option (List (Option UInt8))) :=
  if path[0]? = some 34 ∧ path[path.length - 1]? = some 34 then some (some ((path ++ [0]).map some))
  else if path.any (fun c => !plainChar c) then Str.stringConcatenate [some [34], some path, some [34]]
  else some (some ((path ++ [0]).map some))

end Path

namespace Hash

/-- `HashMethod` (hash_method.h:35-47). -/
inductive Method | md5 | sha224 | sha256 | sha384 | sha512 | sha1 | sha | best | crypt | none
deriving DecidableEq, Repr

/-- `CF_DIGEST_SIZES` (hash.c:53-65, hash_method.h:48-60), `HashSizeFromId`. -/
def size : Method → Nat
  | .md5 => 16 | .sha224 => 28 | .sha256 => 32 | .sha384 => 48 | .sha512 => 64 | .sha1 => 20 | .sha => 20 | .best => 0 | .crypt => 64 | .none => 0

/-- `HashPrintSafe` (hash.c:612-647), with its assertions. `digest` is the array passed in. -/
def printSafe (m : List (Option UInt8)) (dstSize : Nat) (digest : List UInt8) (type : Method) (usePrefix : Bool) : Option (List (Option UInt8)) := do
  let pre : List UInt8 := if usePrefix then (if type = .md5 then [77, 68, 53, 61] else [83, 72, 65, 61]) else []
  let dstLen := min (if dstSize = 0 then Str.sizeMax else dstSize - 1) pre.length
  let m ← CMem.memcpy m 0 ((pre ++ [0]).map some) 0 dstLen
  let len := size type
  if dstSize ≥ pre.length + len * 2 + 1 ∧ len ≤ digest.length then do       -- assert, line 632; reading digest[0..len)
    let (tail, ret) ← Str.bytesToHex (m.drop dstLen) (dstSize - dstLen) (digest.take len)
    if ret = 2 * len then some (m.take dstLen ++ tail) else none             -- assert, line 639
  else none

/-- The loop of `HashCalculatePrintableRepresentation` (hash.c:108-114): each `snprintf(printable + 4 + 2 i, .., "%02x", digest[i])` stores two
hex digits and a NUL when they fit in `size - (4 + 2 i)`. The `printable` member has 256 bytes (EVP_MAX_MD_SIZE = 64), so they do. -/
def printLoop (m : List (Option UInt8)) (i : Nat) : List UInt8 → Option (List (Option UInt8))
  | [] => some m
  | b :: bs => do
    let hi ← ([48, 49, 50, 51, 52, 53, 54, 55, 56, 57, 97, 98, 99, 100, 101, 102] : List UInt8)[b.toNat / 16]?
    let lo ← ([48, 49, 50, 51, 52, 53, 54, 55, 56, 57, 97, 98, 99, 100, 101, 102] : List UInt8)[b.toNat % 16]?
    let m ← CMem.store m (4 + 2 * i) [hi, lo, 0]
    printLoop m (i + 1) bs

/-- `HashCalculatePrintableRepresentation` (hash.c:88-116); `printable` is the 256-byte member. -/
def calculatePrintable (printable : List (Option UInt8)) (digest : List UInt8) (method : Method) : Option (List (Option UInt8)) := do
  let pre : List UInt8 := match method with
    | .md5 => [77, 68, 53, 61]
    | .sha224 | .sha256 | .sha384 | .sha512 | .sha | .sha1 => [83, 72, 65, 61]
    | _ => [85, 78, 75, 61]
  let m ← CMem.store printable 0 (pre ++ [0])
  let m ← printLoop m 0 (digest.take (size method))
  CMem.write m (4 + 2 * size method) (some 0)

/-- `SkipHashType` (hash.c:650-660), as an offset. -/
def skipHashType (hash : List UInt8) : Nat :=
  if hash.take 4 = [77, 68, 53, 61] ∨ hash.take 4 = [83, 72, 65, 61] then 4 else 0

/-- `HashesMatch` (hash.c:594-606). -/
def hashesMatch (d1 d2 : List UInt8) (type : Method) : Bool :=
  if size type = 0 then false else d1.take (size type) == d2.take (size type)

/-- The loop of `StringCopyTruncateAndHashIfNecessary` (hash.c:703-707): writes two digits per byte at `off`. -/
def hexAt (m : List (Option UInt8)) (off : Nat) : List UInt8 → Option (List (Option UInt8))
  | [] => some m
  | b :: bs => do
    let hi ← ([48, 49, 50, 51, 52, 53, 54, 55, 56, 57, 97, 98, 99, 100, 101, 102] : List UInt8)[(b >>> 4).toNat]?
    let lo ← ([48, 49, 50, 51, 52, 53, 54, 55, 56, 57, 97, 98, 99, 100, 101, 102] : List UInt8)[(b &&& 0xf).toNat]?
    let m ← CMem.write m off (some hi)
    let m ← CMem.write m (off + 1) (some lo)
    hexAt m (off + 2) bs

/-- `StringCopyTruncateAndHashIfNecessary` (hash.c:662-713). `md5` is the digest function of OpenSSL (16 bytes are used). -/
def copyTruncateAndHash (md5 : List UInt8 → List UInt8) (src : List UInt8) (dst : List (Option UInt8)) (dstSize : Nat) :
    Option (List (Option UInt8) × Nat) := do
  if dstSize > 37 then do                                                     -- assert, line 667
    let (m, length) ← Str.stringCopy src dst dstSize
    if length < dstSize then some (m, length)
    else do
      let start := dstSize - 1 - 37
      let m ← CMem.store m start [35, 77, 68, 53, 61]
      let m ← hexAt m (start + 5) ((md5 src).take 16)
      some (m, dstSize)
  else none

end Hash
