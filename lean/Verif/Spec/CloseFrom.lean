/-! # Specification: a directory listing of numbers -/
namespace CloseFromSpec

/-- The decimal text of a number. -/
def decimal (n : Nat) : List UInt8 := if n < 10 then [UInt8.ofNat (48 + n)] else decimal (n / 10) ++ [UInt8.ofNat (48 + n % 10)]

/-- What POSIX says of a directory read to its end while entries are removed: every entry is one of the two special ones or the name of something that was there at some time, and what was there all the time is among them. `still` are the descriptors open at the end. -/
def Listing (names : List (List UInt8)) (still : List Nat) : Prop :=
  (∀ e ∈ names, e = [46] ∨ e = [46, 46] ∨ ∃ n, e = decimal n) ∧ ∀ f ∈ still, decimal f ∈ names

end CloseFromSpec
