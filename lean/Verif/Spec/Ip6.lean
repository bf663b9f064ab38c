import Verif.Spec.Ip
/-! # Specification: the IPv6 texts that are accepted, and how they are read -/
namespace Ip6Spec
open IpSpec

/-- Number denoted by hexadecimal digits; none denote 0. -/
def hexNumber (f : List UInt8) : Nat := f.foldl (fun n c => 16 * n + hexValue c) 0

/-- A field: any number of lower-case hexadecimal digits (also none) denoting a number of 16 bits. -/
def Field (f : List UInt8) : Prop := f.all hexChar = true ∧ hexNumber f ≤ 65535

/-- Fields written one after another with colons between them. -/
def colons : List (List UInt8) → List UInt8
  | [] => []
  | [f] => f
  | f :: g :: r => f ++ 58 :: colons (g :: r)

/-- Eight fields, of which only the first and the last can be empty. -/
structure Full (fs : List (List UInt8)) : Prop where
  fields : ∀ f ∈ fs, Field f
  eight : fs.length = 8
  inner : ∀ f ∈ (fs.drop 1).dropLast, f ≠ []

/-- The fields before and behind `::`: at least one (possibly empty) and at most six before it, of which only the first can be empty; behind it at
least one, of which the last can be empty and, if there are two or more before `::`, the first. Counting at least two before it, they are at most
eight. -/
structure Gap (front back : List (List UInt8)) : Prop where
  fields : ∀ f ∈ front ++ back, Field f
  front1 : 1 ≤ front.length
  front6 : front.length ≤ 6
  back1 : 1 ≤ back.length
  eight : max front.length 2 + back.length ≤ 8
  inFront : ∀ f ∈ front.drop 1, f ≠ []
  inBack : ∀ f ∈ back.dropLast.drop (if front.length = 1 then 0 else 1), f ≠ []

/-- Text of the fields around `::`. -/
def gapText (front back : List (List UInt8)) : List UInt8 := colons front ++ [58, 58] ++ colons back

/-- `xs`, zeros, `ys`: eight numbers. -/
def fill (xs ys : List Nat) : List Nat := xs ++ List.replicate (8 - xs.length - ys.length) 0 ++ ys

/-- The texts that are accepted, with the eight numbers and the port that are read. -/
inductive Reads : List UInt8 → List Nat → Nat → Prop
  /-- Eight fields, the last not empty. -/
  | full (fs : List (List UInt8)) : Full fs → fs.getLast? ≠ some [] → Reads (colons fs) (fs.map hexNumber) 0
  /-- `::` with at most five fields behind one, or at most seven in all. -/
  | gap (front back : List (List UInt8)) : Gap front back → max front.length 2 + back.length ≤ 7 →
      Reads (gapText front back) (fill (front.map hexNumber) (back.map hexNumber)) 0
  /-- More: of those behind `::` all but the last are dropped. -/
  | long (front back : List (List UInt8)) (l : List UInt8) : Gap front (back ++ [l]) → max front.length 2 + (back ++ [l]).length = 8 → l ≠ [] →
      Reads (gapText front (back ++ [l])) (fill (front.map hexNumber) [hexNumber l]) 0
  /-- The same between brackets: eight fields; -/
  | bFull (fs : List (List UInt8)) : Full fs → Reads ([91] ++ colons fs ++ [93]) (fs.map hexNumber) 0
  /-- with `::`, those behind it are stored in reverse order; -/
  | bGap (front back : List (List UInt8)) : Gap front back → max front.length 2 + back.length ≤ 7 →
      Reads ([91] ++ gapText front back ++ [93]) (fill (front.map hexNumber) (back.map hexNumber).reverse) 0
  /-- if there are more, the last is dropped. -/
  | bLong (front back : List (List UInt8)) (l : List UInt8) : Gap front (back ++ [l]) → max front.length 2 + (back ++ [l]).length = 8 →
      Reads ([91] ++ gapText front (back ++ [l]) ++ [93]) (fill (front.map hexNumber) (back.map hexNumber).reverse) 0
  /-- With a port behind the brackets: eight fields; -/
  | pFull (fs : List (List UInt8)) (P : List UInt8) (p : Nat) : Full fs → Dec 65535 P p →
      Reads ([91] ++ colons fs ++ [93, 58] ++ P) (fs.map hexNumber) p
  /-- with `::`, those behind it are dropped; -/
  | pGap (front back : List (List UInt8)) (P : List UInt8) (p : Nat) : Gap front back → max front.length 2 + back.length ≤ 7 → Dec 65535 P p →
      Reads ([91] ++ gapText front back ++ [93, 58] ++ P) (fill (front.map hexNumber) []) p
  /-- if there are more, all but the last. -/
  | pLong (front back : List (List UInt8)) (l : List UInt8) (P : List UInt8) (p : Nat) : Gap front (back ++ [l]) →
      max front.length 2 + (back ++ [l]).length = 8 → Dec 65535 P p →
      Reads ([91] ++ gapText front (back ++ [l]) ++ [93, 58] ++ P) (fill (front.map hexNumber) [hexNumber l]) p

end Ip6Spec
