import Mathlib.Data.List.Basic
/-! # Specification: decoding base64 (RFC 4648, section 4; MIME line breaks) -/
namespace Base64Spec

abbrev Bytes := List UInt8

/-- The value of a character of the alphabet. -/
def value (c : UInt8) : Option Nat :=
  if 0x41 ≤ c ∧ c ≤ 0x5a then some (c.toNat - 0x41)
  else if 0x61 ≤ c ∧ c ≤ 0x7a then some (c.toNat - 0x61 + 26)
  else if 0x30 ≤ c ∧ c ≤ 0x39 then some (c.toNat - 0x30 + 52)
  else if c = 0x2b then some 62
  else if c = 0x2f then some 63
  else none

/-- Decode text without line breaks: groups of four characters; padding only at the end. -/
def decodeLine : Bytes → Option Bytes
  | [] => some []
  | [a, b, 0x3d, 0x3d] => do
    let a ← value a; let b ← value b
    some [UInt8.ofNat (a * 4 + b / 16)]
  | [a, b, c, 0x3d] => do
    let a ← value a; let b ← value b; let c ← value c
    some [UInt8.ofNat (a * 4 + b / 16), UInt8.ofNat (b % 16 * 16 + c / 4)]
  | a :: b :: c :: d :: rest => do
    let a ← value a; let b ← value b; let c ← value c; let d ← value d
    let r ← decodeLine rest
    some (UInt8.ofNat (a * 4 + b / 16) :: UInt8.ofNat (b % 16 * 16 + c / 4) :: UInt8.ofNat (c % 4 * 64 + d) :: r)
  | _ => none

/-- Decoding ignores line breaks. -/
def decode (s : Bytes) : Option Bytes := decodeLine (s.filter (· ≠ 0x0a))

/-- The lines of a text. -/
def lines (s : Bytes) : List Bytes := s.splitOn 0x0a

end Base64Spec
