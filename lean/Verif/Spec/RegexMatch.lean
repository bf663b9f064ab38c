import Verif.Spec.Strings
/-! # Regular expression matching: what the library is asked, and what its users must get

A compiled pattern is what it does: how many capturing groups it has, what they are called, and the match it finds in a text. -/
namespace RegexSpec

abbrev Bytes := List UInt8

/-- Offsets of the whole match and of the groups, `none` for a group that took no part in the match. -/
abbrev Match := List (Option (Nat × Nat))

/-- A compiled pattern. `names`: numbers of the named groups with their names, in the order of the library's table. -/
structure Pattern where
  groups : Nat
  names : List (Nat × Bytes)
  find : Bytes → Option Match

/-- Offsets are within the text and in order. -/
def Inside (len : Nat) : Option (Nat × Nat) → Prop
  | some (a, b) => a ≤ b ∧ b ≤ len
  | none => True

/-- What the regular expression library guarantees (`\K` inside a lookahead, which can put the end before the start, is excluded). -/
structure Good (p : Pattern) : Prop where
  shape : ∀ s m, p.find s = some m → m.length = p.groups + 1 ∧ (∃ a b, m[0]? = some (some (a, b))) ∧ ∀ g ∈ m, Inside s.length g
  names : ∀ n ∈ p.names, n.1 < 65536 ∧ 0 ∉ n.2 ∧ n.2.length ≤ 32 ∧ n.2.head? ≠ some 48 ∧ n.1 ≠ 0

/-- Text of a group: empty when it took no part. -/
def textOf (s : Bytes) : Option (Nat × Nat) → Bytes
  | some (a, b) => (s.drop a).take (b - a)
  | none => []

/-- What a group is called: its name if it has one, otherwise its number in decimal. -/
def label (p : Pattern) (i : Nat) : Bytes :=
  match p.names.find? (fun n => n.1 == i) with
  | some n => n.2
  | none => NumSpec.decimal i

/-- The captures of a match: whole match first, then every group of the pattern. -/
def captures (p : Pattern) (s : Bytes) (m : Match) : List (Bytes × Bytes) :=
  (List.range (p.groups + 1)).map fun i => (label p i, textOf s (m.getD i none))

/-- Offsets of the whole match. -/
def whole (m : Match) : Nat × Nat := (m.getD 0 none).getD (0, 0)

/-- No group numbered 10 or more took part in the match. -/
def FewGroups (m : Match) : Prop := ∀ i, 10 ≤ i → m.getD i none = none

/-- Value a JSON object must have under a key: the text of the last group called that, leaving out the whole match. -/
def member (p : Pattern) (s : Bytes) (m : Match) (k : Bytes) : Option Bytes :=
  if k = [48] then none else ((captures p s m).reverse.find? (fun c => c.1 == k)).map (·.2)

end RegexSpec
