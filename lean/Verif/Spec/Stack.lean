import Verif.Model.Stack
/-! # Specification of a stack: a list whose head is the top -/
namespace StackSpec
open Stack (Op Out)

/-- One call on the abstract stack (top first). -/
def step {α : Type} (l : List α) : Op α → List α × Out α
  | .push x => (x :: l, .unit)
  | .pushReport x => (x :: l, .count (l.length + 1))
  | .pop => (l.tail, .item l.head?)
  | .copy => (l, .unit)

/-- A history on the abstract stack. -/
def run {α : Type} : List α → List (Op α) → List α × List (Out α)
  | l, [] => (l, [])
  | l, op :: ops =>
    let (l, o) := step l op
    let (l, os) := run l ops
    (l, o :: os)

end StackSpec
