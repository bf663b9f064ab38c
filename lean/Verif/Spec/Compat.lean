/-! # Specification of searching in strings -/
namespace CompatSpec

/-- `n` occurs in `h` at offset `i`, up to `f` (identity, or case folding). -/
def OccursAt (f : UInt8 → UInt8) (n h : List UInt8) (i : Nat) : Prop := i ≤ h.length ∧ n.map f <+: (h.drop i).map f

/-- `r` is the offset of the first occurrence, or there is none. -/
def IsFirst (P : Nat → Prop) : Option Nat → Prop
  | some i => P i ∧ ∀ j, j < i → ¬ P j
  | none => ∀ j, ¬ P j

/-- `r` is the offset of the last occurrence, or there is none. -/
def IsLast (P : Nat → Prop) : Option Nat → Prop
  | some i => P i ∧ ∀ j, i < j → ¬ P j
  | none => ∀ j, ¬ P j

/-- `line` is the next line of the stream and `rest` what follows: not empty, the delimiter nowhere but at its end, and there unless the stream ends. -/
def IsLine (d : UInt8) (line rest stream : List UInt8) : Prop :=
  stream = line ++ rest ∧ line ≠ [] ∧ d ∉ line.dropLast ∧ (rest ≠ [] → line.getLast? = some d)

end CompatSpec
