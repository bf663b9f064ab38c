import Verif.Model.Mem
import Verif.Model.Misc
/-! # Model of libutils/buffer.c

A buffer owns an allocation of `capacity` bytes (cells are `none` while uninitialised). Bytes are `UInt8`; `size_t` sums are
naturals, only `UpperPowerOfTwo` is evaluated on 64-bit words.  `printf` formatting is a parameter: the model functions
take the text the format produces. -/
namespace Buffer

/-- `BufferBehavior` (buffer.h:41-45). -/
inductive Mode where
  | cstring
  | bytearray
deriving DecidableEq, Repr

/-- `struct Buffer` (buffer.h:49-57) without the unused `unsafe` flag. The allocation has exactly `capacity` cells. -/
structure Buf where
  mem : List (Option UInt8)
  mode : Mode
  capacity : Nat
  used : Nat

/-- `BufferNewWithCapacity` (buffer.c:35-46): writes a terminator at index 0 of a malloc'ed block. -/
def newWithCapacity (n : Nat) : Option Buf := do
  let mem ← CMem.write (List.replicate n none) 0 (some 0)
  some { mem, mode := .cstring, capacity := n, used := 0 }

/-- `ExpandIfNeeded` (buffer.c:53-62). -/
def expandIfNeeded (b : Buf) (needed : Nat) : Buf :=
  if needed ≥ b.capacity then
    let cap := (Misc.upperPowerOfTwo (BitVec.ofNat 64 (needed + 1))).toNat
    { b with mem := CMem.realloc b.mem cap, capacity := cap }
  else b

/-- `strnlen(s, n)` on a block of which the first `n` bytes are readable, or that contains a NUL before. -/
def strnlen (s : List UInt8) : Nat → Option Nat
  | 0 => some 0
  | n + 1 =>
    match s with
    | [] => none
    | c :: rest => if c = 0 then some 0 else (strnlen rest n).map (· + 1)

/-- `BufferAppend` (buffer.c:276-304). -/
def append (b : Buf) (bytes : List UInt8) (length : Nat) : Option Buf :=
  if length = 0 then some b
  else
    match b.mode with
    | .cstring => do
      let actual ← strnlen bytes length
      let b := expandIfNeeded b (b.used + actual + 1)
      let mem ← CMem.memcpy b.mem b.used (bytes.map some) 0 actual
      let used := b.used + actual
      let mem ← CMem.write mem used (some 0)
      some { b with mem, used }
    | .bytearray => do
      let b := expandIfNeeded b (b.used + length)
      let mem ← CMem.memcpy b.mem b.used (bytes.map some) 0 length
      some { b with mem, used := b.used + length }

/-- `BufferClear` (buffer.c:473-478). -/
def clear (b : Buf) : Option Buf := do
  let mem ← CMem.write b.mem 0 (some 0)
  some { b with mem, used := 0 }

/-- `BufferSet` (buffer.c:236-244). -/
def set (b : Buf) (bytes : List UInt8) (length : Nat) : Option Buf := do
  let b ← clear b
  append b bytes length

/-- `BufferAppendString` (buffer.c:253-262); `str` is the text before its terminator. -/
def appendString (b : Buf) (str : List UInt8) : Option Buf := do
  let len := str.length
  let b := expandIfNeeded b (b.used + len + 1)
  let mem ← CMem.memcpy b.mem b.used (str.map some) 0 len
  let used := b.used + len
  let mem ← CMem.write mem used (some 0)
  some { b with mem, used }

/-- `BufferTrimToMaxLength` (buffer.c:264-274). -/
def trimToMaxLength (b : Buf) (max : Nat) : Option Buf :=
  if b.used > max then do
    let mem ← CMem.write b.mem max (some 0)
    some { b with mem, used := max }
  else some b

/-- `BufferAppendChar` (buffer.c:306-323); `capacity - 1` is evaluated on `size_t`, capacity being at least 1. -/
def appendChar (b : Buf) (byte : UInt8) : Option Buf :=
  if b.used < b.capacity - 1 then do
    let mem ← CMem.write b.mem b.used (some byte)
    let used := b.used + 1
    let mem ← if b.mode = .cstring then CMem.write mem used (some 0) else some mem
    some { b with mem, used }
  else append b [byte] 1

/-- `vsnprintf(mem + off, n, …)` producing `text`: at most `n-1` bytes and a terminator are stored. -/
def vsnprintf (mem : List (Option UInt8)) (off n : Nat) (text : List UInt8) : Option (List (Option UInt8)) :=
  if n = 0 then some mem
  else do
    let k := min (n - 1) text.length
    let mem ← CMem.memcpy mem off (text.map some) 0 k
    CMem.write mem (off + k) (some 0)

/-- `BufferAppendF` (buffer.c:325-354). -/
def appendF (b : Buf) (text : List UInt8) : Option Buf := do
  let mem ← vsnprintf b.mem b.used (b.capacity - b.used) text
  let b := { b with mem }
  if text.length ≥ b.capacity - b.used then do
    let b := expandIfNeeded b (b.used + text.length)
    let mem ← vsnprintf b.mem b.used (b.capacity - b.used) text
    some { b with mem, used := b.used + text.length }
  else some { b with used := b.used + text.length }

/-- `BufferPrintf`, `BufferVPrintf` (buffer.c:356-438), with a `vsnprintf` that does not fail. -/
def printf (b : Buf) (text : List UInt8) : Option Buf := do
  let mem ← vsnprintf b.mem 0 b.capacity text
  let b := { b with mem }
  if text.length ≥ b.capacity then do
    let b := expandIfNeeded b text.length
    let mem ← vsnprintf b.mem 0 b.capacity text
    some { b with mem, used := text.length }
  else some { b with used := text.length }

/-- The scan in `BufferSetMode` (buffer.c:518-525): the index of the first NUL among the first `used` bytes. -/
def firstNul (mem : List (Option UInt8)) (used : Nat) : Nat → Nat → Option Nat
  | 0, _ => some used
  | fuel + 1, i =>
    if i < used then do
      let c ← CMem.get mem i
      if c = 0 then some i else firstNul mem used fuel (i + 1)
    else some used

/-- `BufferSetMode` (buffer.c:508-528). -/
def setMode (b : Buf) (mode : Mode) : Option Buf :=
  if mode = .cstring then do
    let used ← firstNul b.mem b.used (b.used + 1) 0
    some { b with used, mode }
  else some { b with mode }

/-- The loop of `BufferFilter` (buffer.c:535-547). -/
def filterLoop (src : Buf) (p : UInt8 → Bool) (invert : Bool) : Nat → Nat → Buf → Option Buf
  | 0, _, out => some out
  | fuel + 1, i, out =>
    if i < src.used then do
      let c ← CMem.get src.mem i
      let test := if invert then !p c else p c
      let out ← if test then appendChar out c else some out
      filterLoop src p invert fuel (i + 1) out
    else some out

/-- `BufferFilter` (buffer.c:530-550); the result is a new buffer of the default capacity 4096 (buffer.h:47). -/
def filter (b : Buf) (p : UInt8 → Bool) (invert : Bool) : Option Buf := do
  let out ← newWithCapacity 4096
  filterLoop b p invert (b.used + 1) 0 out

/-- `BufferSize` (buffer.c:480-484) and `BufferData` (486-490) together: the `used` bytes of the buffer. -/
def data (b : Buf) : Option (List UInt8) := CMem.getRange b.mem 0 b.used

/-- `BufferRewrite` (buffer.c:552-559). The bytes passed to `BufferSet` are the new buffer's contents. -/
def rewrite (b : Buf) (p : UInt8 → Bool) (invert : Bool) : Option Buf := do
  let r ← filter b p invert
  let bytes ← data r
  set b bytes r.used

/-- `BufferNewFrom` (buffer.c:64-70). -/
def newFrom (bytes : List UInt8) (length : Nat) : Option Buf := do
  let b ← newWithCapacity (length + 1)
  append b bytes length

/-- `BufferCopy` (buffer.c:90-94). `BufferAppend` on the copy scans the source's own allocation. -/
def copy (b : Buf) : Option Buf := do
  let bytes ← data b
  newFrom bytes b.used

/-- A `char` as the signed number it is on the platforms libntech runs on. -/
def schar (c : UInt8) : Int := if c.toNat < 128 then c.toNat else (c.toNat : Int) - 256

/-- One of the byte loops of `BufferCompare` (buffer.c:132-142, 147-157, 161-171 and the identical ones below): compares the
first `n` bytes as signed chars. -/
def cmpLoop (m1 m2 : List (Option UInt8)) : Nat → Nat → Option Int
  | 0, _ => some 0
  | n + 1, i => do
    let x ← CMem.get m1 i
    let y ← CMem.get m2 i
    if schar x < schar y then some (-1)
    else if schar x > schar y then some 1
    else cmpLoop m1 m2 n (i + 1)

/-- `strcmp` on two blocks (C11 7.24.4: bytes compared as unsigned char), normalised to its sign as buffer.c:116-121 does. -/
def strcmp (m1 m2 : List (Option UInt8)) : Nat → Nat → Option Int
  | 0, _ => none
  | fuel + 1, i => do
    let x ← CMem.get m1 i
    let y ← CMem.get m2 i
    if x < y then some (-1)
    else if y < x then some 1
    else if x = 0 then some 0
    else strcmp m1 m2 fuel (i + 1)

/-- `BufferCompare` (buffer.c:96-234). -/
def compare (b1 b2 : Buf) : Option Int :=
  if b1.mode = b2.mode ∧ b1.mode = .cstring then strcmp b1.mem b2.mem (b1.mem.length + 1) 0
  else if b1.used < b2.used then do
    let r ← cmpLoop b1.mem b2.mem b1.used 0
    some (if r = 0 then -1 else r)
  else if b1.used = b2.used then cmpLoop b1.mem b2.mem b1.used 0
  else do
    let r ← cmpLoop b1.mem b2.mem b2.used 0
    some (if r = 0 then 1 else r)

end Buffer
