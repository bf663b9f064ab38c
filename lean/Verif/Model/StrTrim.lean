import Verif.Model.StrEdit
import Verif.Model.Path
/-! # Model of the in-place string functions of libutils/string_lib.c: trimming, case, canonification, escaping -/

namespace Str

/-- `isspace` in the C locale. -/
def isspace (c : UInt8) : Bool := (9 ≤ c && c ≤ 13) || c == 32
/-- `isalnum` in the C locale. -/
def isalnum (c : UInt8) : Bool := (48 ≤ c && c ≤ 57) || (65 ≤ c && c ≤ 90) || (97 ≤ c && c ≤ 122)
/-- `isdigit`. -/
def isdigit (c : UInt8) : Bool := 48 ≤ c && c ≤ 57
/-- `ispunct` in the C locale: printable, neither a space nor alphanumeric. -/
def ispunct (c : UInt8) : Bool := (33 ≤ c && c ≤ 126) && !isalnum c
/-- `isupper` in the C locale. -/
def isupper (c : UInt8) : Bool := 65 ≤ c && c ≤ 90

/-- `while (i > 0 && p(str[i-1])) i--` (string_lib.c:1304-1307, 1342-1345). -/
def backLoop (p : UInt8 → Bool) (m : List (Option UInt8)) : Nat → Option Nat
  | 0 => some 0
  | i + 1 => do
    let c ← CMem.get m i
    if p c then backLoop p m i else some (i + 1)

/-- `max_length + 1` in `size_t`. -/
def succSize (n : Nat) : Nat := if n = sizeMax then 0 else n + 1

/-- The common shape of `StripTrailingNewline` (string_lib.c:1295-1313) and `Chop` (1331-1351) for a non-NULL string, with the assertion. -/
def chopWith (p : UInt8 → Bool) (m : List (Option UInt8)) (maxLength : Nat) : Option (List (Option UInt8) × Int) := do
  let i ← scan m 0 (succSize maxLength)
  if i > maxLength then some (m, -1)
  else do
    let i ← backLoop p m i
    let c ← CMem.get m i
    if c = 0 ∨ p c = true then do
      let m ← CMem.write m i (some 0)
      some (m, 0)
    else none

/-- `StripTrailingNewline` (string_lib.c:1295-1313). -/
def stripTrailingNewline := chopWith (· == 10)
/-- `Chop` (string_lib.c:1331-1351). -/
def chop := chopWith isspace

/-- `while (isspace(s[0])) ++s` (string_lib.c:1358-1361). -/
def leadLoop (m : List (Option UInt8)) (i : Nat) : Nat → Option Nat
  | 0 => none
  | k + 1 => do
    let c ← CMem.get m i
    if isspace c then leadLoop m (i + 1) k else some i

/-- `while (isspace(end[0])) --end` (string_lib.c:1371-1374); going below the start of the block is `none`. -/
def endLoop (m : List (Option UInt8)) : Nat → Option Nat
  | 0 => do
    let c ← CMem.get m 0
    if isspace c then none else some 0
  | e + 1 => do
    let c ← CMem.get m (e + 1)
    if isspace c then endLoop m e else some (e + 1)

/-- `TrimWhitespace` (string_lib.c:1353-1378): block and the returned pointer as an offset. -/
def trimWhitespace (m : List (Option UInt8)) : Option (List (Option UInt8) × Nat) := do
  let i ← leadLoop m 0 (m.length + 1)
  let c ← CMem.get m i
  if c = 0 then some (m, i)
  else do
    let l ← CMem.strlen m i
    let e ← endLoop m (i + l - 1)
    let m ← CMem.write m (e + 1) (some 0)
    some (m, i)

/-- `TrimCSVLineCRLF` (string_lib.c:1394-1416). -/
def trimCRLF (m : List (Option UInt8)) : Option (List (Option UInt8) × Nat) := do
  let length ← CMem.strlen m 0
  if length < 2 then some (m, length)
  else do
    let a ← CMem.get m (length - 2)
    let b ← CMem.get m (length - 1)
    if a = 13 ∧ b = 10 then do
      let m ← CMem.write m (length - 2) (some 0)
      let m ← CMem.write m (length - 1) (some 0)
      some (m, length - 2)
    else some (m, length)

/-- `TrimCSVLineCRLFStrict` (string_lib.c:1428-1442) with active assertions (without them it is `TrimCSVLineCRLF`). -/
def trimCRLFStrict (m : List (Option UInt8)) : Option (List (Option UInt8) × Nat) := do
  let len ← CMem.strlen m 0
  let c ← CMem.get m 0
  if 0 < len ∧ len < 4096 ∧ isspace c = false then do
    let r ← trimCRLF m
    let l ← CMem.strlen r.1 0
    if r.2 = l ∧ 0 < r.2 then do
      let d ← CMem.get r.1 (r.2 - 1)
      let c ← CMem.get r.1 0
      if isspace d = false ∧ isspace c = false then some r else none
    else none
  else none

/-- `StringCloseHole` (string_lib.c:1444-1456), with its assertions. -/
def closeHole (m : List (Option UInt8)) (start stop : Nat) : Option (List (Option UInt8)) := do
  let l ← CMem.strlen m 0
  if start ≤ stop ∧ stop ≤ l then
    if stop > start then do
      let n ← CMem.strlen m stop
      CMem.memmove m start stop (n + 1)
    else some m
  else none

/-- `for (; *s != '\0'; s++) *s = f(*s)` (string_lib.c:151-157, 161-167, 1731-1740). -/
def mapLoop (f : UInt8 → UInt8) (m : List (Option UInt8)) (i : Nat) : Nat → Option (List (Option UInt8))
  | 0 => none
  | k + 1 => do
    let c ← CMem.get m i
    if c = 0 then some m
    else do
      let m ← CMem.write m i (some (f c))
      mapLoop f m (i + 1) k

/-- `ToLower` (string_lib.c:118-128). -/
def toLower (c : UInt8) : UInt8 := if isupper c then c - 65 + 97 else c
/-- `ToUpper` (string_lib.c:132-147). -/
def toUpper (c : UInt8) : UInt8 := if isdigit c || ispunct c then c else if isupper c then c else c - 97 + 65

/-- `ToLowerStrInplace` (string_lib.c:161-167). -/
def toLowerStr (m : List (Option UInt8)) : Option (List (Option UInt8)) := mapLoop toLower m 0 (m.length + 1)
/-- `ToUpperStrInplace` (string_lib.c:151-157). -/
def toUpperStr (m : List (Option UInt8)) : Option (List (Option UInt8)) := mapLoop toUpper m 0 (m.length + 1)

/-- The character map of `CanonifyNameInPlace` and `StringCanonify`. -/
def canonChar (c : UInt8) : UInt8 := if isalnum c then c else 95
/-- `CanonifyNameInPlace` (string_lib.c:1731-1740). -/
def canonifyInPlace (m : List (Option UInt8)) : Option (List (Option UInt8)) := mapLoop canonChar m 0 (m.length + 1)

/-- `StringCanonify` (string_lib.c:1587-1606): the block and the returned pointer as an offset. -/
def stringCanonify (m : List (Option UInt8)) (d : Nat) : List UInt8 → Option (List (Option UInt8) × Nat)
  | [] => do
    let m ← CMem.write m d (some 0)
    some (m, d)
  | c :: s => do
    let m ← CMem.write m d (some (canonChar c))
    stringCanonify m (d + 1) s

/-- The loop of `ReplaceChar` (string_lib.c:1006-1016). -/
def replaceCharLoop (m : List (Option UInt8)) (i outSz : Nat) (a b : UInt8) : List UInt8 → Option (List (Option UInt8))
  | [] => some m
  | c :: s =>
    if i + 1 < outSz then do
      let m ← CMem.write m i (some (if c = a then b else c))
      replaceCharLoop m (i + 1) outSz a b s
    else some m

/-- `ReplaceChar` (string_lib.c:996-1017), `outSz ≥ 0`. -/
def replaceChar (src : List UInt8) (m : List (Option UInt8)) (outSz : Nat) (a b : UInt8) : Option (List (Option UInt8)) := do
  let m ← CMem.memset m 0 0 outSz
  replaceCharLoop m 0 outSz a b src

/-- `ReplaceTrailingChar` (string_lib.c:1079-1095). -/
def replaceTrailingChar (m : List (Option UInt8)) (a b : UInt8) : Option (List (Option UInt8)) := do
  let l ← CMem.strlen m 0
  if l = 0 then some m
  else do
    let c ← CMem.get m (l - 1)
    if c = a then CMem.write m (l - 1) (some b) else some m

/-- `CountChar` (string_lib.c:967-994). Reading the byte after a backslash is inside the string or its terminator. -/
def countChar (sep : UInt8) : List UInt8 → Nat
  | [] => 0
  | [c] => if c = sep then 1 else 0
  | c :: d :: s =>
    if c = 92 ∧ d = sep then countChar sep s
    else if c = sep then countChar sep (d :: s) + 1
    else countChar sep (d :: s)

/-- The copy loop of `EscapeCharCopy` (string_lib.c:1270-1278). -/
def escapeLoop (esc w : UInt8) (m : List (Option UInt8)) (o : Nat) : List UInt8 → Option (List (Option UInt8))
  | [] => some m
  | c :: s =>
    if c = esc then do
      let m ← CMem.write m o (some w)
      let m ← CMem.write m (o + 1) (some c)
      escapeLoop esc w m (o + 2) s
    else do
      let m ← CMem.write m o (some c)
      escapeLoop esc w m (o + 1) s

/-- `EscapeCharCopy` (string_lib.c:1248-1281) for strings below the ProgrammingError limit: the result's block, of `out_size` zeroed bytes.
`CountChar` is passed a separator other than NUL. -/
def escapeCharCopy (str : List UInt8) (esc w : UInt8) : Option (List (Option UInt8)) :=
  escapeLoop esc w (List.replicate (str.length + countChar esc str + 1) (some 0)) 0 str

/-- `ScanPastChars` (string_lib.c:1283-1293): the offset returned. The string `input` excludes its terminator, which is the loop's first test;
`strchr` is membership in the string `scanpast` (its terminator is never searched for, since `*pos` is not NUL). -/
def scanPastChars (set : List UInt8) : List UInt8 → Nat
  | [] => 0
  | c :: cs => if set.contains c then scanPastChars set cs + 1 else 0

/-- `memcchr` (string_lib.c:1521-1532) for a `char` value, as an offset into the `buf_size` bytes. -/
def memcchr (c : UInt8) : List UInt8 → Nat → Option Nat
  | [], _ => none
  | b :: bs, i => if b ≠ c then some i else memcchr c bs (i + 1)

end Str
