/-! # Specification vocabulary for the header macros -/
namespace HdrSpec

/-- Little-endian text of a 32-bit number: byte `i` has weight 256^i. -/
def LittleEndian (v : Nat) (m : List UInt8) : Prop := m.length = 4 ∧ ∀ i, i < 4 → (m[i]?).map UInt8.toNat = some (v / 256 ^ i % 256)

end HdrSpec
