import Verif.Model.StrCopy
import Verif.Model.Environ
import Mathlib.Algebra.Order.Ring.Rat
import Mathlib.Algebra.Order.Field.Basic
/-!
# Small replacement functions of libcompat, and two helpers of libutils

`nanosleep`, `unsetenv` (Windows), `dirfd`, `drand48`, `getloadavg` (Linux and NetBSD), `clock_gettime`, `xclock_gettime`, `seteuid`,
`gmtime_r`.  `none` as an outcome is undefined behaviour.
-/
namespace CompatMisc

/-! ## nanosleep -/

/-- The argument of `Sleep`: milliseconds as a `DWORD`; all ones is `INFINITE`. -/
inductive Sleep where
  | ms (n : Nat)
  | forever
  deriving DecidableEq

/-- `Sleep` (Windows API). -/
def sleep (dword : Nat) : Sleep := if dword = 2 ^ 32 - 1 then .forever else .ms dword

/-- `nanosleep` of Windows (nanosleep.c:39-50): the sleep, and what is stored in `*rmtp` (if it is not NULL).  The sum is computed in the
type of `tv_sec` (64 bits; C division truncates) and converted to `DWORD`. -/
def nanosleep (tvSec tvNsec : Int) (rmtp : Bool) : Sleep × Option (Int × Int) :=
  (sleep (((tvSec * 1000 + (tvNsec + 999999).tdiv 1000000) % 2 ^ 32).toNat), if rmtp then some (0, 0) else none)

/-! ## unsetenv on Windows -/

/-- `putenv` of the Windows C library with a string `name=value`: it copies the string; an empty value removes the variable.  (Names are
compared byte by byte here; Windows ignores the case of letters.) -/
def putenvWin (str : List UInt8) (env : List (List UInt8)) : Int × List (List UInt8) :=
  let name := str.takeWhile (· != 61)
  let value := (str.dropWhile (· != 61)).drop 1
  if value = [] then (0, env.filter fun e => !(name ++ [61]).isPrefixOf e) else (0, Environ.putenv name value env)

/-- `unsetenv` of Windows (unsetenv.c:43-66): the result, `errno` and the environment; `alloc`: does `malloc` succeed?  EINVAL is 22,
ENOMEM 12. -/
def unsetenvWin (name : Option (List UInt8)) (alloc : Bool) (env : List (List UInt8)) : Option (Int × Nat × List (List UInt8)) :=
  match name with
  | none => some (-1, 22, env)
  | some n =>
    if n = [] ∨ Environ.hasEq n = true then some (-1, 22, env)
    else if alloc = false then some (-1, 12, env)
    else do
      let buf ← CMem.store (List.replicate (n.length + 2) none) 0 (n ++ [61] ++ [0])
      let r := putenvWin (← CMem.str buf) env
      some (r.1, 0, r.2)

/-! ## dirfd -/

/-- `dirfd` of Solaris (dirfd.c:44-47) and of HP-UX and AIX (dirfd.c:51-54), which differ in the name of the field; `enotsup` is the value
of ENOTSUP. -/
def dirfd (enotsup d_fd : Int) : Int := if d_fd ≠ -1 then d_fd else enotsup

/-! ## drand48 -/

/-- `drand48` (drand48.c:36-40) on the value `r` of `rand()`; `rnd` is the rounding to a `double`. -/
def drand48 (rnd : ℚ → ℚ) (randMax r : Nat) : ℚ := rnd (rnd r / rnd (rnd randMax + 1))

/-- `srand48` (srand48.c:35-38): the seed handed to `srand`, an `unsigned` of 32 bits. -/
def srand48 (seed : Int) : Nat := (seed % 2 ^ 32).toNat

/-! ## getloadavg -/

/-- A character of a decimal number. -/
def numChar (c : UInt8) : Bool := (48 ≤ c && c ≤ 57) || c == 46
/-- White space for `sscanf`. -/
def blank (c : UInt8) : Bool := c == 32 || (9 ≤ c && c ≤ 13)

/-- `sscanf`: skip white space from cell `i`; `none`: reads a cell that was not written, or outside of the block. -/
def skipBlank (m : List (Option UInt8)) (i : Nat) : Nat → Option Nat
  | 0 => none
  | fuel + 1 => do
    let c ← CMem.get m i
    if blank c then skipBlank m (i + 1) fuel else some i

/-- `sscanf`: the characters of a number from cell `i`, up to the first other one, which is read as well. -/
def takeNum (m : List (Option UInt8)) (i : Nat) : Nat → Option (List UInt8 × Nat)
  | 0 => none
  | fuel + 1 => do
    let c ← CMem.get m i
    if numChar c then do
      let r ← takeNum m (i + 1) fuel
      some (c :: r.1, r.2)
    else some ([], i)

/-- `sscanf(buf, "%lf %lf %lf", …)` (C library): the texts of the numbers converted.  Numbers are runs of digits and points here: no
signs, exponents, hexadecimal or special numbers; `k` conversions are left. -/
def scanNums (m : List (Option UInt8)) (i : Nat) : Nat → Option (List (List UInt8))
  | 0 => some []
  | k + 1 => do
    let i ← skipBlank m i (m.length + 1)
    let r ← takeNum m i (m.length + 1)
    if r.1 = [] then some [] else do
      let rest ← scanNums m r.2 k
      some (r.1 :: rest)

/-- The loop that copies the result: `elem` from 0 while `elem < nelem && elem < count`; the caller's array has `nelem` cells. -/
def copyOut (vals : List (List UInt8)) (nelem : Nat) : Nat → List (List UInt8)
  | 0 => []
  | fuel + 1 => if nelem = 0 then [] else match vals with
    | [] => []
    | v :: vs => v :: copyOut vs (nelem - 1) fuel

/-- `getloadavg` on Linux (getloadavg.c:575-605): `file` is the text that one `read` of at most 40 bytes sees, `none` if it cannot be
opened; the result is the number returned and the averages stored, as the texts converted. -/
def getloadavgLinux (file : Option (List UInt8)) (nelem : Nat) : Option (Int × List (List UInt8)) :=
  match file with
  | none => some (-1, [])
  | some t => do
    let data := t.take 40
    let buf ← CMem.store (List.replicate 40 none) 0 data
    if data.length = 0 then some (-1, [])
    else do
      let vals ← scanNums buf 0 3
      if vals.length < 1 then some (-1, [])
      else
        let out := copyOut vals nelem 3
        some (out.length, out)

/-- The copying loop of `getloadavg` on NetBSD (getloadavg.c:629-632): it runs to `nelem` and indexes an array of three. -/
def copyNetBSD (load : List Nat) (scale : Nat) (elem : Nat) : Nat → Option (List (Nat × Nat))
  | 0 => some []
  | k + 1 => do
    let v ← CMem.read load elem
    let rest ← copyNetBSD load scale (elem + 1) k
    some ((v, scale) :: rest)

/-- `getloadavg` on NetBSD (getloadavg.c:607-634): the four numbers that `fscanf` converted (fewer if the text is not of that form); each
average is stored as a quotient. -/
def getloadavgNetBSD (file : Option (List Nat)) (nelem : Nat) : Option (Int × List (Nat × Nat)) :=
  match file with
  | some [a, b, c, scale] => do
    let out ← copyNetBSD [a, b, c] scale 0 nelem
    some (out.length, out)
  | _ => some (-1, [])

/-! ## Clocks, times, identities -/

/-- `clock_gettime` of libcompat (clock_gettime.c:30-35): the return value and the time stored. -/
def clockGettime (time : Int) : Int × (Int × Int) := (0, (time, 0))

/-- `xclock_gettime` (misc_lib.c:94-104): `r` is what `clock_gettime` returned and stored, `time` the value of `time(NULL)`; the result is
the time stored and whether a message was logged. -/
def xclockGettime (r : Int × (Int × Int)) (time : Int) : (Int × Int) × Bool := if r.1 ≠ 0 then ((time, 0), true) else (r.2, false)

/-- `seteuid` (seteuid.c:28-35): a process has a real and an effective user; `setreuid(-1, uid)` changes the effective one if the system
allows it. -/
def seteuid (haveSetreuid allowed : Bool) (uid : Nat) (p : Nat × Nat) : Int × (Nat × Nat) :=
  if haveSetreuid then (if allowed then (0, (p.1, uid)) else (-1, p)) else (-1, p)

/-- `gmtime_r` (gmtime_r.c:41-49) and `localtime_r` (localtime_r.c:41-49): `tm` is what the system function returned, `old` the caller's
structure; the result is the caller's structure afterwards and whether a non-NULL pointer is returned. -/
def timeR {Tm : Type} (tm : Option Tm) (old : Tm) : Tm × Bool :=
  match tm with
  | some t => (t, true)
  | none => (old, false)

end CompatMisc
