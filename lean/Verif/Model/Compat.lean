import Verif.Model.Mem
import Verif.Model.StrNum
/-! # Model of the string functions in libcompat (used where the C library lacks them)

A C string is the list of its bytes before the terminator (no byte is 0); its memory is that list followed by 0. A returned pointer into the argument is an
offset; the inner `none` is NULL; the outer `none` is undefined behaviour. `char` is signed. -/
namespace Compat

/-- The memory of a C string. -/
def cstr (s : List UInt8) : List UInt8 := s ++ [0]

/-! ## Searching -/

/-- The inner loop of `memmem` (libcompat/memmem.c:42-47); the first number is `needlelen - len`. -/
def memmemInner (h n : List UInt8) (start : Nat) : Nat → Nat → Option Nat
  | 0, len => some len
  | k + 1, len =>
    if start + len < h.length then do
      let a ← CMem.read h (start + len)
      let b ← CMem.read n len
      if a = b then memmemInner h n start k (len + 1) else some len
    else some len

/-- The outer loop of `memmem` (libcompat/memmem.c:39-54); the first number is how many starts are left. -/
def memmemLoop (h n : List UInt8) : Nat → Nat → Option (Option Nat)
  | 0, _ => some none
  | k + 1, start => do
    let len ← memmemInner h n start n.length 0
    if len = n.length then some (some start) else memmemLoop h n k (start + 1)

/-- `memmem` (libcompat/memmem.c:31-56). -/
def memmem (h n : List UInt8) : Option (Option Nat) := memmemLoop h n h.length 0

/-- `memrchr` (libcompat/memrchr.c:32-46): `n` bytes left to look at. -/
def memrchrLoop (s : List UInt8) (c : UInt8) : Nat → Option (Option Nat)
  | 0 => some none
  | n + 1 => do
    let x ← CMem.read s n
    if x = c then some (some n) else memrchrLoop s c n

/-- `memrchr` (libcompat/memrchr.c:32-46). -/
def memrchr (s : List UInt8) (c : UInt8) : Option (Option Nat) := memrchrLoop s c s.length

/-- `strstr` (libcompat/strstr.c:35-48), `strcasestr` (libcompat/strcasestr.c:36-48): `f` is the identity or `tolower`; `i` is `sp - haystack`. The library's
`strncmp` compares up to the needle's length or the terminator. -/
def strstrLoop (f : UInt8 → UInt8) (n : List UInt8) : List UInt8 → Nat → Option Nat
  | [], _ => none
  | c :: sp, i => if Str.cmpSignN f n.length (c :: sp) n = 0 then some i else strstrLoop f n sp (i + 1)

/-- `strstr` (libcompat/strstr.c:35-48). -/
def strstr (h n : List UInt8) : Option Nat := strstrLoop id n h 0

/-- `strcasestr` (libcompat/strcasestr.c:36-48). -/
def strcasestr (h n : List UInt8) : Option Nat := strstrLoop Str.toLower n h 0

/-- The loop of `strrstr` (libcompat/strrstr.c:56-58): `p - str`; reading `*p` and `*pat`. -/
def strrstrLoop (str pat : List UInt8) : Nat → Option (Option Nat)
  | 0 => some none
  | p + 1 => do
    let a ← CMem.read (cstr str) (p + 1)
    let b ← CMem.read (cstr pat) 0
    if a = b ∧ Str.cmpSignN id pat.length (str.drop (p + 1)) pat = 0 then some (some (p + 1)) else strrstrLoop str pat p

/-- `strrstr` (libcompat/strrstr.c:44-60). -/
def strrstr (str pat : List UInt8) : Option (Option Nat) :=
  if pat.length > str.length then some none else strrstrLoop str pat (str.length - pat.length)

/-- `strchrnul` (libcompat/strchrnul.c:9-21) with the library's `strchr` (which also finds the terminator). -/
def strchrnul (s : List UInt8) (c : UInt8) : Nat :=
  match (cstr s).findIdx? (· == c) with
  | some i => i
  | none => s.length

/-! ## Lengths and copies -/

/-- The loop of `strnlen` (libcompat/strnlen.c:37): `maxlen` left, `cp` in memory `m`. -/
def strnlenLoop (m : List UInt8) : (maxlen : Nat) → (cp : Nat) → Option Nat
  | 0, cp => some cp
  | k + 1, cp => do
    let x ← CMem.read m cp
    if x ≠ 0 then strnlenLoop m k (cp + 1) else some cp

/-- `strnlen` (libcompat/strnlen.c:31-40); the argument is the memory from the pointer on, terminated or not. -/
def strnlen (m : List UInt8) (maxlen : Nat) : Option Nat := strnlenLoop m maxlen 0

/-- `strndup` (libcompat/strndup.c:38-51): the new block. -/
def strndup (m : List UInt8) (maxlen : Nat) : Option (List (Option UInt8)) := do
  let len ← strnlen m maxlen
  let d ← CMem.memcpy (List.replicate (len + 1) none) 0 (m.map some) 0 len
  CMem.write d len (some 0)

/-- `strdup` (libcompat/strdup.c:36-47). -/
def strdup (s : List UInt8) : Option (List (Option UInt8)) :=
  CMem.memcpy (List.replicate (s.length + 1) none) 0 ((cstr s).map some) 0 (s.length + 1)

/-- `memdup` (libcompat/memdup.c:36-46) of a whole block. -/
def memdup (m : List UInt8) : Option (List (Option UInt8)) := CMem.memcpy (List.replicate m.length none) 0 (m.map some) 0 m.length

/-- The zero fill of `stpncpy` (libcompat/stpncpy.c:52-55): `k` cells from `j` on. -/
def zeroFill : (k : Nat) → (j : Nat) → List (Option UInt8) → Option (List (Option UInt8))
  | 0, _, d => some d
  | k + 1, j, d => do
    let d ← CMem.write d j (some 0)
    zeroFill k (j + 1) d

/-- The loop of `stpncpy` (libcompat/stpncpy.c:45-58): `k = len - i`; the result is the offset returned. -/
def stpncpyLoop (src : List UInt8) : (k : Nat) → (i : Nat) → List (Option UInt8) → Option (Nat × List (Option UInt8))
  | 0, i, d => some (i, d)
  | k + 1, i, d => do
    let c ← CMem.read (cstr src) i
    let d ← CMem.write d i (some c)
    if c = 0 then do
      let d ← zeroFill k (i + 1) d
      some (i, d)
    else stpncpyLoop src k (i + 1) d

/-- `stpncpy` (libcompat/stpncpy.c:39-60) for `len` below 2^31 (the loop counter is an `int`). -/
def stpncpy (dst : List (Option UInt8)) (src : List UInt8) (len : Nat) : Option (Nat × List (Option UInt8)) := stpncpyLoop src len 0 dst

/-! ## Comparing -/

/-- A `char` as an `int`. -/
def sc (c : UInt8) : Int := if c < 128 then c.toNat else (c.toNat : Int) - 256

/-- `tolower` of a `char` (C locale; for negative arguments other than EOF the C standard leaves it undefined, and the usual tables return the argument). -/
def tolower (c : UInt8) : Int := if 65 ≤ c ∧ c ≤ 90 then sc c + 32 else sc c

/-- `strcasecmp` (libcompat/strcasecmp.c:33-61). -/
def strcasecmp : List UInt8 → List UInt8 → Int
  | [], [] => 0
  | [], _ :: _ => -1
  | _ :: _, [] => 1
  | x :: xs, y :: ys => if tolower x < tolower y then -1 else if tolower x > tolower y then 1 else strcasecmp xs ys

/-- `strncasecmp` (libcompat/strncasecmp.c:33-61). -/
def strncasecmp : Nat → List UInt8 → List UInt8 → Int
  | 0, _, _ => 0
  | _ + 1, [], [] => 0
  | _ + 1, [], _ :: _ => -1
  | _ + 1, _ :: _, [] => 1
  | n + 1, x :: xs, y :: ys => if tolower x < tolower y then -1 else if tolower x > tolower y then 1 else strncasecmp n xs ys

/-! ## strsep -/

/-- The inner loop of `strsep` (libcompat/strsep.c:64-74): is `c` in `delim` or its terminator? The memory of `delim` is scanned up to the terminator. -/
def inSpan (c : UInt8) : List UInt8 → Bool
  | [] => c == 0
  | d :: ds => d == c || inSpan c ds

/-- The loop of `strsep` (libcompat/strsep.c:61-75) on the memory of the string, `s` being the offset of the next character. The result is the memory
and the new `*stringp`. -/
def strsepLoop (delim : List UInt8) (m : List UInt8) (s : Nat) : (fuel : Nat) → Option (List UInt8 × Option Nat)
  | 0 => none
  | fuel + 1 => do
    let c ← CMem.read m s
    if inSpan c delim then
      if c = 0 then some (m, none)
      else do
        let m ← CMem.write m s 0
        some (m, some (s + 1))
    else strsepLoop delim m (s + 1) fuel

/-- `strsep` (libcompat/strsep.c:52-77): the token's offset, the memory, the new `*stringp`. -/
def strsep (delim : List UInt8) (m : List UInt8) (stringp : Option Nat) : Option (Option Nat × List UInt8 × Option Nat) :=
  match stringp with
  | none => some (none, m, none)
  | some s => do
    let r ← strsepLoop delim m s (m.length + 1)
    some (some s, r)

/-! ## getline -/

def growBy : Nat := 4096
def minLen : Nat := 4

/-- `realloc` of the line buffer; NULL or a block (libcompat/getline.c:67, 91); allocation succeeds. -/
def regrow (buf : Option (List (Option UInt8))) (n : Nat) : List (Option UInt8) := CMem.realloc (buf.getD []) n

/-- The reading loop of `getdelim` (libcompat/getline.c:81-107) over the characters still to come; `buf`, `*n`, `bytes`; `pos` is `buf + bytes`. The result is the
buffer, `*n`, `bytes`, and the characters left. -/
def getdelimLoop (delimiter : UInt8) : List UInt8 → List (Option UInt8) → Nat → Nat → Option (List (Option UInt8) × Nat × Nat × List UInt8)
  | [], buf, n, bytes => some (buf, n, bytes, [])
  | c :: s, buf, n, bytes =>
    let grow := bytes + 1 ≥ n - 1
    let buf' := if grow then regrow (some buf) (n + growBy) else buf
    let n' := if grow then n + growBy else n
    do
      let buf'' ← CMem.write buf' bytes (some c)
      if c = delimiter then some (buf'', n', bytes + 1, s) else getdelimLoop delimiter s buf'' n' (bytes + 1)

/-- `getdelim` (libcompat/getline.c:52-124) on a stream without errors, for lines shorter than SSIZE_MAX. `lineptr` is NULL or a block of which `*n` bytes are usable.
The result is the buffer, `*n`, the characters left, and the return value (`none` is -1). -/
def getdelim (delimiter : UInt8) (lineptr : Option (List (Option UInt8))) (n : Nat) (stream : List UInt8) :
    Option (List (Option UInt8) × Nat × List UInt8 × Option Nat) := do
  let fresh := lineptr.isNone ∨ n < minLen
  let buf := if fresh then regrow lineptr growBy else lineptr.getD []
  let n := if fresh then growBy else n
  let r ← getdelimLoop delimiter stream buf n 0
  if r.2.2.1 = 0 then some (r.1, r.2.1, r.2.2.2, none)
  else do
    let b ← CMem.write r.1 r.2.2.1 (some 0)
    some (b, r.2.1, r.2.2.2, some r.2.2.1)

end Compat
