import Verif.Spec.Ip
/-! # Specification: addresses as Linux prints them in /proc/net (tcp, tcp6) on a little-endian machine -/
namespace IpSpec

/-- The character of a hexadecimal digit, upper case. -/
def upperHexDigit (n : Nat) : UInt8 := if n < 10 then UInt8.ofNat (48 + n) else UInt8.ofNat (55 + n)

/-- Exactly `k` upper-case hexadecimal digits (`%02X`, `%04X`, ...). -/
def fixedHex : Nat → Nat → List UInt8
  | 0, _ => []
  | k + 1, n => fixedHex k (n / 16) ++ [upperHexDigit (n % 16)]

/-- The four bytes of a word of memory, printed with `%08X` on a little-endian machine. -/
def procWord (b0 b1 b2 b3 : Nat) : List UInt8 := fixedHex 2 b3 ++ fixedHex 2 b2 ++ fixedHex 2 b1 ++ fixedHex 2 b0

/-- `a.b.c.d:p` in /proc/net/tcp. -/
def procV4 (a b c d p : Nat) : List UInt8 := procWord a b c d ++ [58] ++ fixedHex 4 p

/-- An IPv6 address of sixteen bytes in /proc/net/tcp6. -/
def procV6 (b : Fin 16 → Nat) : List UInt8 :=
  procWord (b 0) (b 1) (b 2) (b 3) ++ procWord (b 4) (b 5) (b 6) (b 7) ++ procWord (b 8) (b 9) (b 10) (b 11) ++ procWord (b 12) (b 13) (b 14) (b 15)

/-- A hexadecimal digit of either case and its value. -/
def HexDigit (c : UInt8) (v : Nat) : Prop := (48 ≤ c.toNat ∧ c.toNat ≤ 57 ∧ v = c.toNat - 48) ∨ (65 ≤ c.toNat ∧ c.toNat ≤ 70 ∧ v = c.toNat - 55) ∨ (97 ≤ c.toNat ∧ c.toNat ≤ 102 ∧ v = c.toNat - 87)

/-- Digits and the number they denote. -/
inductive HexNumber : List UInt8 → Nat → Prop
  | nil : HexNumber [] 0
  | snoc {s : List UInt8} {n : Nat} {c : UInt8} {v : Nat} : HexNumber s n → HexDigit c v → HexNumber (s ++ [c]) (16 * n + v)

end IpSpec
