import Verif.Spec.Strings
/-! # Specification: textual IP addresses -/
namespace IpSpec
open NumSpec TrimSpec

/-- A decimal number without sign, at most `max`. -/
def Dec (max : Nat) (ds : List UInt8) (v : Nat) : Prop := ds ≠ [] ∧ ds.all digit = true ∧ value ds = v ∧ v ≤ max

/-- `A.B.C.D` with four numbers up to 255. -/
def Quad (s : List UInt8) (a b c d : Nat) : Prop :=
  ∃ A B C D, s = A ++ [46] ++ B ++ [46] ++ C ++ [46] ++ D ∧ Dec 255 A a ∧ Dec 255 B b ∧ Dec 255 C c ∧ Dec 255 D d

/-- `A.B.C.D:P` with a port up to 65535. -/
def QuadPort (s : List UInt8) (a b c d p : Nat) : Prop := ∃ q P, s = q ++ [58] ++ P ∧ Quad q a b c d ∧ Dec 65535 P p

/-- Value of a hexadecimal digit (lower case letters only). -/
def hexValue (c : UInt8) : Nat := if digit c then c.toNat - 48 else c.toNat - 87
def hexChar (c : UInt8) : Bool := digit c || (97 ≤ c.toNat && c.toNat ≤ 102)
/-- A group: lower-case hexadecimal digits denoting a number of 16 bits. -/
def Group (g : List UInt8) (v : Nat) : Prop := g ≠ [] ∧ g.all hexChar = true ∧ g.foldl (fun n c => 16 * n + hexValue c) 0 = v ∧ v ≤ 65535

/-- Groups separated by colons. -/
inductive Groups : List UInt8 → List Nat → Prop
  | one (g : List UInt8) (v : Nat) : Group g v → Groups g [v]
  | cons (g : List UInt8) (v : Nat) (s : List UInt8) (vs : List Nat) : Group g v → Groups s vs → Groups (g ++ [58] ++ s) (v :: vs)

/-- Groups or nothing. -/
def Groups0 (s : List UInt8) (vs : List Nat) : Prop := (s = [] ∧ vs = []) ∨ Groups s vs

/-- Strict lexicographic order on equally long lists of numbers. -/
inductive Lex : List Nat → List Nat → Prop
  | first (x y : Nat) (xs ys : List Nat) : x < y → Lex (x :: xs) (y :: ys)
  | rest (x : Nat) (xs ys : List Nat) : Lex xs ys → Lex (x :: xs) (x :: ys)

/-- Lower-case hexadecimal text, without leading zeros. -/
def hexTextSpec (n : Nat) : List UInt8 := if n < 16 then [StrSpec.hexDigit n] else hexTextSpec (n / 16) ++ [StrSpec.hexDigit (n % 16)]

end IpSpec
