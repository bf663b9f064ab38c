import Verif.Spec.Strings
/-! # What data files stand for -/

namespace DataFileSpec
open TrimSpec EnvSpec


/-- The longest list of first lines that together have at most `max` bytes. -/
def within : Nat → List (List UInt8) → List (List UInt8)
  | _, [] => []
  | max, l :: ls => if l.length ≤ max then l :: within (max - l.length) ls else []

/-- What comes before the first NUL byte: a line as a C string. -/
def cut (l : List UInt8) : List UInt8 := l.takeWhile (· ≠ 0)

/-! ## ENV files -/

/-- The line gives the name `k` the value `v`. -/
def Defines (line k v : List UInt8) : Prop := ∃ a b, Assignment line a b ∧ k = trim space a ∧ value (trim space b) = .text v
/-- The value on the line ends in a backslash with nothing after it. -/
def Dangling (line : List UInt8) : Prop := ∃ a b, Assignment line a b ∧ value (trim space b) = .dangling
/-- The last line about `k` gives it the value `v`. -/
def LastDefines (lines : List (List UInt8)) (k v : List UInt8) : Prop :=
  ∃ before line after, lines = before ++ line :: after ∧ Defines line k v ∧ ∀ l ∈ after, ∀ w, ¬ Defines l k w

/-! ## CSV files -/

/-- The bytes form a whole record: they end in CR LF, and the quotes in them pair up. -/
def Closed (l : List UInt8) : Prop := [13, 10] <:+ l ∧ l.count 34 % 2 = 0
/-- `lines` are the records of the file: each as short as possible, the last one possibly unfinished. -/
inductive Records : List UInt8 → List (List UInt8) → Prop
  | nil : Records [] []
  | last (l : List UInt8) : l ≠ [] → (∀ p, p <+: l → ¬ Closed p) → Records l [l]
  | cons (l : List UInt8) (rest : List UInt8) (ls : List (List UInt8)) : Closed l → (∀ p, p <+: l → p ≠ l → ¬ Closed p) → Records rest ls → Records (l ++ rest) (l :: ls)

end DataFileSpec
