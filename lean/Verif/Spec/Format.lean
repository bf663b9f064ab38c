import Verif.Model.Snprintf
import Verif.Spec.Snprintf
/-! # What formatted output is -/
namespace FormatSpec
open Snprintf (Bytes Arg)

/-- `snprintf` says that `t` is the text of the format and its arguments: into every buffer it puts as much of it as fits, and it returns its length. -/
def Prints (sep format : Bytes) (args : List Arg) (t : Bytes) : Prop :=
  t.length < 2147483647 ∧ ∀ (str : Option (List (Option UInt8))) (size : Nat), (∀ b, str = some b → size ≤ b.length) →
    ∃ st, Snprintf.vsnprintf sep str size format args = some ((match str with | none => [] | some b => Snprintf.Spec.filled b size t), (t.length : Int), st)

/-- `snprintf` refuses: it returns -1, with whatever in the buffer. -/
def Refused (sep format : Bytes) (args : List Arg) : Prop :=
  ∀ (str : Option (List (Option UInt8))) (size : Nat), (∀ b, str = some b → size ≤ b.length) → ∃ b st, Snprintf.vsnprintf sep str size format args = some (b, -1, st)

/-- The behaviour is undefined (wrong arguments for the format). -/
def Undefined (sep format : Bytes) (args : List Arg) : Prop :=
  ∀ (str : Option (List (Option UInt8))) (size : Nat), (∀ b, str = some b → size ≤ b.length) → Snprintf.vsnprintf sep str size format args = none

end FormatSpec
