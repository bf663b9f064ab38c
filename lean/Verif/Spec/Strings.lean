/-! # Specification vocabulary for C strings in caller-supplied blocks -/
namespace StrSpec

/-- The block holds the C string `s`: its bytes, then a NUL. -/
def HoldsStr (m : List (Option UInt8)) (s : List UInt8) : Prop := 0 ∉ s ∧ ∃ rest, m = s.map some ++ some 0 :: rest

/-- From block `m` to block `m'`, nothing changed outside the first `n` cells, and now the block holds the C string `s`, terminated
inside those `n` cells. -/
structure Stored (m m' : List (Option UInt8)) (n : Nat) (s : List UInt8) : Prop where
  size : m'.length = m.length
  outside : m'.drop n = m.drop n
  fits : s.length < n
  string : HoldsStr m' s

/-- Lower-case hexadecimal text of a byte string. -/
def hexDigit (n : Nat) : UInt8 := if n < 10 then UInt8.ofNat (48 + n) else UInt8.ofNat (87 + n)
def hex (bs : List UInt8) : List UInt8 := bs.flatMap fun b => [hexDigit (b.toNat / 16), hexDigit (b.toNat % 16)]

end StrSpec

/-! ## Replacing every occurrence -/
namespace ReplaceSpec

/-- `out` is `src` with every occurrence of `search` replaced, scanning left to right: as long as there is an occurrence, the leftmost one
(at the smallest possible distance) is replaced and the scan goes on behind it. -/
inductive Replaced (search replace : List UInt8) : List UInt8 → List UInt8 → Prop
  | done (src : List UInt8) : ¬ search <:+: src → Replaced search replace src src
  | step (pre rest out : List UInt8) : (∀ pre' rest', pre ++ search ++ rest = pre' ++ search ++ rest' → pre.length ≤ pre'.length) →
      Replaced search replace rest out → Replaced search replace (pre ++ search ++ rest) (pre ++ replace ++ out)

end ReplaceSpec

/-! ## Tokens -/
namespace TokenSpec

/-- The text cut at every separator: one piece more than there are separators. -/
def pieces (sep : UInt8 → Bool) : List UInt8 → List (List UInt8)
  | [] => [[]]
  | c :: s =>
    if sep c then [] :: pieces sep s
    else match pieces sep s with
      | [] => [[c]]
      | p :: ps => (c :: p) :: ps

/-- The tokens: the non-empty pieces, that is, the maximal separator-free runs, in order. -/
def tokens (sep : UInt8 → Bool) (s : List UInt8) : List (List UInt8) := (pieces sep s).filter (· ≠ [])

end TokenSpec

/-! ## Trimming and case -/
namespace TrimSpec

/-- The string without its longest suffix of characters satisfying `p`. -/
def trimRight (p : UInt8 → Bool) (s : List UInt8) : List UInt8 := (s.reverse.dropWhile p).reverse
/-- Without the longest prefix as well. -/
def trim (p : UInt8 → Bool) (s : List UInt8) : List UInt8 := trimRight p (s.dropWhile p)

/-- White space: tab, newline, vertical tab, form feed, carriage return, blank. -/
def space (c : UInt8) : Bool := c ∈ ([9, 10, 11, 12, 13, 32] : List UInt8)
def lowerLetter (c : UInt8) : Bool := 97 ≤ c.toNat && c.toNat ≤ 122
def upperLetter (c : UInt8) : Bool := 65 ≤ c.toNat && c.toNat ≤ 90
def digit (c : UInt8) : Bool := 48 ≤ c.toNat && c.toNat ≤ 57
/-- A graphic ASCII character. -/
def graphic (c : UInt8) : Bool := 33 ≤ c.toNat && c.toNat ≤ 126
def lower (c : UInt8) : UInt8 := if upperLetter c then UInt8.ofNat (c.toNat + 32) else c
def upper (c : UInt8) : UInt8 := if lowerLetter c then UInt8.ofNat (c.toNat - 32) else c
/-- Letters and digits stay, everything else becomes `_`. -/
def canon (c : UInt8) : UInt8 := if lowerLetter c || upperLetter c || digit c then c else 95

end TrimSpec

/-! ## Escaping and substrings -/
namespace EscapeSpec

/-- The text with `w` in front of every occurrence of `esc`. -/
def escaped (esc w : UInt8) (s : List UInt8) : List UInt8 := s.flatMap fun c => if c = esc then [w, c] else [c]

/-- The bytes `start .. start+n-1` of the string, as far as they exist. -/
def slice (s : List UInt8) (start n : Nat) : List UInt8 := (s.drop start).take n

end EscapeSpec

/-! ## Order of strings -/
namespace OrderSpec

/-- Lexicographic order of byte strings, bytes compared as unsigned numbers after `f`; a proper prefix comes first. -/
inductive Less (f : UInt8 → UInt8) : List UInt8 → List UInt8 → Prop
  | prefix (y : UInt8) (ys : List UInt8) : Less f [] (y :: ys)
  | first (x y : UInt8) (xs ys : List UInt8) : (f x).toNat < (f y).toNat → Less f (x :: xs) (y :: ys)
  | rest (x y : UInt8) (xs ys : List UInt8) : f x = f y → Less f xs ys → Less f (x :: xs) (y :: ys)

/-- The same with NULL (`none`) below every string. -/
inductive NLess (f : UInt8 → UInt8) : Option (List UInt8) → Option (List UInt8) → Prop
  | null (s : List UInt8) : NLess f none (some s)
  | str (s t : List UInt8) : Less f s t → NLess f (some s) (some t)

end OrderSpec

/-! ## Numerals -/
namespace NumSpec
open TrimSpec

/-- The number denoted by a string of decimal digits. -/
def value (ds : List UInt8) : Nat := ds.foldl (fun n c => 10 * n + (c.toNat - 48)) 0

/-- `s` starts with a numeral: blanks, an optional sign, at least one digit; `rest` follows and does not continue the digits. -/
def Numeral (s : List UInt8) (neg : Bool) (mag : Nat) (rest : List UInt8) : Prop :=
  ∃ blanks sign ds, s = blanks ++ sign ++ ds ++ rest ∧ blanks.all space = true ∧ (sign = [] ∨ sign = [43] ∨ sign = [45]) ∧ (neg = true ↔ sign = [45]) ∧
    ds ≠ [] ∧ ds.all digit = true ∧ (∀ c tl, rest = c :: tl → digit c = false) ∧ mag = value ds

/-- End of the text or a blank. -/
def Terminated (rest : List UInt8) : Prop := ∀ c tl, rest = c :: tl → space c = true

def signed (neg : Bool) (mag : Nat) : Int := if neg then -mag else mag

/-- Decimal text of a number, without leading zeros. -/
def decimal (n : Nat) : List UInt8 := if n < 10 then [UInt8.ofNat (48 + n)] else decimal (n / 10) ++ [UInt8.ofNat (48 + n % 10)]
/-- Decimal text of an integer. -/
def decimalInt (v : Int) : List UInt8 := if v < 0 then 45 :: decimal v.natAbs else decimal v.natAbs

end NumSpec

/-! ## Substrings -/
namespace SubSpec

/-- The slice of `s` from position `a` up to but not including position `b`. -/
def between (s : List UInt8) (a b : Nat) : List UInt8 := (s.drop a).take (b - a)
/-- A position counted from the end when negative. -/
def pos (n : Nat) (i : Int) : Int := if i < 0 then n + i else i

end SubSpec

/-! ## Sequences of strings -/
namespace SeqStrSpec

/-- `seq` are the fields of `str` between delimiters `d`; an empty field after the last delimiter is not counted. -/
def Fields (d : UInt8) (str : List UInt8) (seq : List (List UInt8)) : Prop :=
  (∀ p ∈ seq, d ∉ p) ∧
  (str = seq.flatMap (· ++ [d]) ∨ ∃ init last, seq = init ++ [last] ∧ last ≠ [] ∧ str = init.flatMap (· ++ [d]) ++ last)

/-- One record of the file format: the length in decimal, padded with blanks to ten characters, the string, a newline. -/
def record (s : List UInt8) : List UInt8 := NumSpec.decimal s.length ++ List.replicate (10 - (NumSpec.decimal s.length).length) 32 ++ s ++ [10]

end SeqStrSpec

/-! ## Lines of an environment file -/
namespace EnvSpec
open TrimSpec

/-- What a value stands for: a text, or an unescaped quote in the middle, or a backslash with nothing after it. -/
inductive Value where
  | text (t : List UInt8)
  | badQuote
  | dangling
deriving DecidableEq, Repr

def Value.cons (c : UInt8) : Value → Value
  | .text t => .text (c :: t)
  | v => v

/-- `"` or `'`. -/
def quote (c : UInt8) : Bool := c = 34 || c = 39

/-- Up to the closing quote `q` (or to the end): `\n` is a newline, a backslash before any other character stands for that character; outside quotes
an unescaped quote is an error. -/
def decode (q : Option UInt8) : List UInt8 → Value
  | [] => .text []
  | c :: r =>
    if some c = q then .text []
    else if q = none ∧ quote c then .badQuote
    else if c = 92 then
      match r with
      | [] => .dangling
      | d :: r => (decode q r).cons (if d = 110 then 10 else d)
    else (decode q r).cons c

/-- The value may start with an opening quote. -/
def value : List UInt8 → Value
  | [] => .text []
  | c :: r => if quote c then decode (some c) r else decode none (c :: r)

/-- The line has a key and a right-hand side: after trimming, not a comment, and `a = b` with a non-empty `a` free of `=`. -/
def Assignment (line a b : List UInt8) : Prop := trim space line = a ++ [61] ++ b ∧ 61 ∉ a ∧ a ≠ [] ∧ a.head? ≠ some 35

end EnvSpec

/-! ## Version numbers -/
namespace VersionSpec
open NumSpec

/-- `xs` are the dotted numbers at the start of `s`, at most `k` of them. -/
inductive Dotted : Nat → List UInt8 → List Int → Prop
  | zero (s : List UInt8) : Dotted 0 s []
  | stop (k : Nat) (s : List UInt8) : (¬ ∃ neg mag rest, Numeral s neg mag rest) → Dotted (k + 1) s []
  | last (k : Nat) (s rest : List UInt8) (neg : Bool) (mag : Nat) : Numeral s neg mag rest → rest.head? ≠ some 46 → Dotted (k + 1) s [signed neg mag]
  | dot (k : Nat) (s rest : List UInt8) (neg : Bool) (mag : Nat) (xs : List Int) : Numeral s neg mag (46 :: rest) → Dotted k rest xs →
      Dotted (k + 1) s (signed neg mag :: xs)

/-- Lexicographic comparison of the numbers both have. -/
def compareCommon : List Int → List Int → Ordering
  | x :: xs, y :: ys => if x < y then .lt else if x > y then .gt else compareCommon xs ys
  | _, _ => .eq

end VersionSpec
