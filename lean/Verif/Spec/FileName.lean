/-! # What the functions on file names are meant to do (C153) -/
namespace FileNameSpec

/-- Every `a` replaced by `b`. -/
def swapped (a b : UInt8) (s : List UInt8) : List UInt8 := s.map fun c => if c = a then b else c

/-- A separator on Windows. -/
def winSep (c : UInt8) : Prop := c = 47 ∨ c = 92

/-- The names between separators, empty ones left out. -/
def names (sep : UInt8 → Bool) : List UInt8 → List UInt8 → List (List UInt8)
  | cur, [] => if cur = [] then [] else [cur]
  | cur, c :: s => if sep c then (if cur = [] then names sep [] s else cur :: names sep [] s) else names sep (cur ++ [c]) s

/-- A letter of the English alphabet. -/
def letter (c : UInt8) : Prop := (65 ≤ c.toNat ∧ c.toNat ≤ 90) ∨ (97 ≤ c.toNat ∧ c.toNat ≤ 122)

/-- Without the quotation marks it begins with. -/
def unquoted (f : List UInt8) : List UInt8 := f.dropWhile (· == 34)

/-- Absolute on Unix: begins with a slash. -/
def absolute (f : List UInt8) : Prop := ∃ r, f = 47 :: r

/-- Absolute on Windows: begins with a separator, or a drive, a colon and a separator. -/
def winAbsolute (f : List UInt8) : Prop := (∃ c r, winSep c ∧ f = c :: r) ∨ ∃ d c r, letter d ∧ winSep c ∧ f = d :: 58 :: c :: r

end FileNameSpec
