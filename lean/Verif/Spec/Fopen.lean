/-! # Specification of the modes of fopen (C11 7.21.5.3, with `x`, and glibc's limit of five characters looked at) -/
namespace FopenSpec

/-- `r`, `w` or `a`, then at most four of `+`, `b`, `t`, `x`. -/
def Standard (m : List UInt8) : Prop := ∃ c rest, m = c :: rest ∧ (c = 114 ∨ c = 119 ∨ c = 97) ∧ (∀ x ∈ rest, x = 43 ∨ x = 98 ∨ x = 116 ∨ x = 120) ∧ rest.length ≤ 4

def mayRead (m : List UInt8) : Bool := m.head? = some 114 || m.contains 43
def mayWrite (m : List UInt8) : Bool := m.head? ≠ some 114 || m.contains 43
def creates (m : List UInt8) : Bool := m.head? ≠ some 114
def truncates (m : List UInt8) : Bool := m.head? = some 119
def appends (m : List UInt8) : Bool := m.head? = some 97
def exclusive (m : List UInt8) : Bool := m.contains 120

end FopenSpec
