import Verif.Model.StrNum
/-! # Model of the remaining integer parsers of libutils/string_lib.c

The variants that return a default or end the program, and the unchecked one. -/
namespace Str

/-- `StringToUlongDefaultOnError` (string_lib.c:716-727). -/
def stringToUlongDefault (s : List UInt8) (d : Nat) : Option Nat := do
  match ← stringToUlong s with
  | .ok v => some v
  | .error _ => some d

/-- `StringToInt64DefaultOnError` (string_lib.c:842-853). -/
def stringToInt64Default (s : List UInt8) (d : Int) : Option Int := do
  match ← stringToLong s with
  | .ok v => some v
  | .error _ => some d

/-- What calling a function that may end the program does: `DoCleanupAndExit(EXIT_FAILURE)`, after a message with this error code, or return. -/
inductive Exits (α : Type) where
  | returns (v : α)
  | exits (code : Int) (logged : Int)
deriving DecidableEq, Repr

/-- `StringToLongExitOnError` (string_lib.c:628-639). -/
def stringToLongExit (s : List UInt8) : Option (Exits Int) := do
  match ← stringToLong s with
  | .ok v => some (.returns v)
  | .error e => some (.exits 1 e)

/-- `StringToUlongExitOnError` (string_lib.c:741-752). -/
def stringToUlongExit (s : List UInt8) : Option (Exits Nat) := do
  match ← stringToUlong s with
  | .ok v => some (.returns v)
  | .error e => some (.exits 1 e)

/-- `StringToInt64ExitOnError` (string_lib.c:819-831). -/
def stringToInt64Exit (s : List UInt8) : Option (Exits Int) := do
  match ← stringToLong s with
  | .ok v => some (.returns v)
  | .error e => some (.exits 1 e)

/-- `StringToLongUnsafe` (string_lib.c:864-875), assertions not active (configure.ac:241). -/
def stringToLongUnsafe (s : List UInt8) : Int := (strtol s).1

end Str
