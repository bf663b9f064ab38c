import Verif.Model.Path
import Verif.Model.StrCopy
import Verif.Spec.FileName
/-!
# Model of the functions on file names of libutils/file_lib.c

`IsAbsoluteFileName`, `MapName`, `MapNameCopy` for each system, `MapNameForward`, `File_CopyToDir`.  A string modified in place lives in an allocation;
`none` is undefined behaviour.
-/
namespace FileName

/-- `f[i]` of a C string with its terminator. -/
def at_ (f : List UInt8) (i : Nat) : Option UInt8 := (f ++ [0])[i]?

/-- The loop that skips quotation marks (file_lib.c:339-341). -/
def skipQuotes (f : List UInt8) (off : Nat) : Nat → Option Nat
  | 0 => none
  | fuel + 1 => do
    let c ← at_ f off
    if c = 34 then skipQuotes f (off + 1) fuel else some off

/-- `IsAbsoluteFileName` (file_lib.c:333-360), not Windows. -/
def isAbsolute (f : List UInt8) : Option Bool := do
  let off ← skipQuotes f 0 (f.length + 1)
  let c ← at_ f off
  some (c == 47)

/-- `IsFileSep` on Windows (file_lib.h:97). -/
def winSep (c : UInt8) : Bool := c == 92 || c == 47

/-- `isalpha` in the C locale of a `char`, which is signed: a negative argument is undefined. -/
def isalpha (c : UInt8) : Option Bool := if 128 ≤ c then none else some ((65 ≤ c && c ≤ 90) || (97 ≤ c && c ≤ 122))

/-- `IsAbsoluteFileName` (file_lib.c:333-360) on Windows. -/
def isAbsoluteWin (f : List UInt8) : Option Bool := do
  let off ← skipQuotes f 0 (f.length + 1)
  let c ← at_ f off
  let unc ← if winSep c then (at_ f (off + 1)).map winSep else some false
  if unc then some true
  else do
    let alpha ← isalpha c
    let drive ← if alpha then do
        let c1 ← at_ f (off + 1)
        if c1 = 58 then (at_ f (off + 2)).map winSep else some false
      else some false
    if drive then some true else some (winSep c)

/-- `strchr(s, c)` for `c ≠ 0`, of the memory from a pointer on: an offset, or NULL. -/
def strchr (c : UInt8) : List (Option UInt8) → Option (Option Nat)
  | [] => none
  | none :: _ => none
  | some b :: m => if b = c then some (some 0) else if b = 0 then some none else (strchr c m).map (·.map (· + 1))

/-- The loop `while ((c = strchr(c, a))) *c = b;` from offset `i` (file_lib.c:373-377, 386-389, 446-449). -/
def mapLoop (a b : UInt8) (m : List (Option UInt8)) (i : Nat) : Nat → Option (List (Option UInt8))
  | 0 => none
  | fuel + 1 => do
    match ← strchr a (m.drop i) with
    | none => some m
    | some j => do
      let m ← CMem.write m (i + j) (some b)
      mapLoop a b m (i + j) fuel

/-- `MapName` (file_lib.c:382-390), MinGW: the memory, and the pointer returned as an offset. -/
def mapNameWin (m : List (Option UInt8)) : Option (List (Option UInt8) × Option Nat) := do
  let m ← mapLoop 47 92 m 0 (m.length + 1)
  some (m, some 0)

/-- `MapNameCopy` (file_lib.c:369-380), MinGW: the new block. -/
def mapNameCopyWin (s : List UInt8) : Option (List (Option UInt8)) := mapLoop 47 92 ((s ++ [0]).map some) 0 (s.length + 2)

/-- `MapNameForward` (file_lib.c:443-451): the loop variable is the parameter itself, and it is returned after the last `strchr`. -/
def mapNameForward (m : List (Option UInt8)) : Option (List (Option UInt8) × Option Nat) := do
  let m ← mapLoop 92 47 m 0 (m.length + 1)
  some (m, none)

/-- `IsFileSep(*s)` (file_lib.c:409); the terminator is none. -/
def headSep : List UInt8 → Bool
  | [] => false
  | d :: _ => winSep d

/-- The loop of `MapNameCopy` on Cygwin (file_lib.c:406-417). The text written. -/
def cygLoop : List UInt8 → List UInt8
  | [] => []
  | c :: s =>
    if winSep c && headSep s then cygLoop s
    else (if c = 92 then 47 else c) :: cygLoop s

/-- `MapNameCopy` (file_lib.c:395-420) on Cygwin. -/
def mapNameCopyCyg (s : List UInt8) : Option (List UInt8) :=
  match s with
  | [] => some []
  | c :: r => do
    let alpha ← isalpha c
    match alpha, r with
    | true, 58 :: r => some ([47, 99, 121, 103, 100, 114, 105, 118, 101, 47, c] ++ cygLoop r)
    | _, _ => some (cygLoop s)

/-- `MAX_FILENAME` (platform.h:51; 227 on some systems, platform.h:42). -/
def maxFilename : Nat := 254

/-- `MapName` on Cygwin (file_lib.c:422-434): the buffer afterwards; `inr` is `FatalError` (which is declared nowhere: this variant does not compile). The
buffer `m` holds the string `s`. -/
def mapNameCyg (m : List (Option UInt8)) (s : List UInt8) : Option (List (Option UInt8) ⊕ Unit) := do
  let r ← mapNameCopyCyg s
  let q ← Str.strlcpy m r maxFilename
  if q.2 ≥ maxFilename then some (.inr ()) else some (.inl q.1)

/-- `PATH_MAX` (platform.h:176). -/
def pathMax : Nat := 4096

/-- `File_CopyToDir` (file_lib.c:178-205), assertions not active; `copy` is `File_Copy`. The result, and the destination `File_Copy` was called with. -/
def copyToDir (copy : List UInt8 → List UInt8 → Bool) (src dir : List UInt8) : Bool × Option (List UInt8) :=
  match Path.basename src with
  | none => (false, none)
  | some off =>
    let dst := dir ++ src.drop off
    if dst.length ≥ pathMax then (false, none)
    else if !copy src dst then (false, some dst)
    else (true, some dst)

end FileName
