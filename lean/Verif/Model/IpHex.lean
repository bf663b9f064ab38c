import Verif.Model.Ip
import Verif.Model.StrTrim
/-! # Model of the rest of libutils/ip_address.c: hexadecimal addresses as in procfs, and IPAddressIsIPAddress -/
namespace Ip

/-- At most `w` hexadecimal digits. -/
def takeHex : Nat → List UInt8 → List UInt8 × List UInt8
  | 0, s => ([], s)
  | _, [] => ([], [])
  | w + 1, c :: s => if isxdigit c then ((c :: (takeHex w s).1), (takeHex w s).2) else ([], c :: s)

/-- The digits of a `%x` conversion: "0x" is skipped (its 0 counts as a digit, as in glibc). -/
def hexRun (w : Nat) (s : List UInt8) : List UInt8 × List UInt8 :=
  match s with
  | 48 :: c :: t => if 2 ≤ w ∧ (c = 120 ∨ c = 88) then (48 :: (takeHex (w - 2) t).1, (takeHex (w - 2) t).2) else takeHex w s
  | _ => takeHex w s

/-- The number of a `%x` conversion; no digit is a failure. -/
def scanDigits (w : Nat) (s : List UInt8) : Option (Nat × List UInt8) :=
  if (hexRun w s).1 = [] then none else some ((hexRun w s).1.foldl char2Hex 0, (hexRun w s).2)

/-- `sscanf`'s conversion `%x` with a width (C library): white space is skipped and does not count; then a sign; the result is an `unsigned int`. -/
def scanX (w : Nat) (s : List UInt8) : Option (Nat × List UInt8) :=
  match s.dropWhile Str.isspace with
  | 45 :: t => (scanDigits (w - 1) t).map fun r => ((2 ^ 32 - r.1) % 2 ^ 32, r.2)
  | 43 :: t => scanDigits (w - 1) t
  | t => scanDigits w t

/-- `n` conversions one after another. -/
def scanN (w : Nat) : Nat → List UInt8 → Option (List Nat × List UInt8)
  | 0, s => some ([], s)
  | n + 1, s => (scanX w s).bind fun r => (scanN w n r.2).map fun q => (r.1 :: q.1, q.2)

/-- `":%4x"` in the format. -/
def scanPort (s : List UInt8) : Option Nat :=
  match s with
  | 58 :: t => (scanX 4 t).map (·.1)
  | _ => none

/-- `IPV4_hex_parser` (ip_address.c:83-112); `strlen(source)` is the length of the text. -/
def hex4 (src : List UInt8) : Option V4 :=
  if src.length = 8 then (scanN 2 4 src).map fun r => ⟨(r.1.map (· % 256)).reverse, 0⟩
  else if src.length = 13 then (scanN 2 4 src).bind fun r => (scanPort r.2).map fun p => ⟨(r.1.map (· % 256)).reverse, p % 65536⟩
  else none

/-- `IPV6_hex_parser` (ip_address.c:374-411): the groups, and the port if it is stored. -/
def hex6 (src : List UInt8) : Option (List Nat × Option Nat) :=
  if src.length = 32 then (scanN 4 8 src).map fun r => (r.1.map (· % 65536), none)
  else if src.length = 37 then (scanN 4 8 src).bind fun r => (scanPort r.2).map fun p => (r.1.map (· % 65536), some (p % 65536))
  else none

/-- An address whose port may be uninitialised memory. -/
inductive HexAddr where
  | v4 (a : V4)
  | v6 (groups : List Nat) (port : Option Nat)
deriving DecidableEq, Repr

/-- `IPAddressNewHex` (ip_address.c:992-1029); `none` is NULL. -/
def newHex (src : List UInt8) : Option HexAddr :=
  match hex4 src with
  | some a => some (.v4 a)
  | none => (hex6 src).map fun r => .v6 r.1 r.2

/-- `IPAddressGetPort` (ip_address.c:1105-1127); `none`: uninitialised memory is read. -/
def HexAddr.getPort : HexAddr → Option Nat
  | .v4 a => some a.port
  | .v6 _ p => p

/-- The address without its port, for `IPAddressGetAddress` (ip_address.c:1055-1103). -/
def HexAddr.addr : HexAddr → Addr
  | .v4 a => .v4 a
  | .v6 g p => .v6 ⟨g, p.getD 0⟩

/-- The blocks a call allocates, in order, and frees: the two structures and the object. -/
inductive Mem where
  | ipv4
  | ipv6
  | object
deriving DecidableEq, Repr

/-- `IPAddressIsIPAddress` (ip_address.c:1272-1333): the result, what is stored in `*address` (if `create`), and the blocks still allocated at the end. -/
def isIPAddress (src : List UInt8) (create : Bool) : R (Bool × Option Addr × List Mem) :=
  match parse4 src with
  | some a => .ok (true, if create then (some (.v4 a), [.ipv4, .object]) else (none, []))
  | none =>
    match parse6 src with
    | .oob => .oob
    | .ok a => .ok (true, if create then (some (.v6 a), [.ipv6, .object]) else (none, []))
    | .reject => .ok (false, none, [])

end Ip
