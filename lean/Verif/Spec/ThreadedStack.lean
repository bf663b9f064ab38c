import Verif.Spec.Linearizable
/-! # The sequential stack the threaded stack must look like -/
namespace TStackSpec

/-- Operations of the API. -/
inductive Op (α : Type) where
  | push (x : α)
  | pushReport (x : α)
  | pop
  | count
  | capacity
  | isEmpty
  | copy
deriving DecidableEq

/-- Results; `copied xs cap` is a new stack holding `xs` (top first) with capacity `cap`. -/
inductive Res (α : Type) where
  | unit
  | num (n : Nat)
  | item (x : Option α)
  | bool (b : Bool)
  | copied (xs : List α) (cap : Nat)
deriving DecidableEq

/-- A stack: its items, top first, and the room it has. -/
structure St (α : Type) where
  items : List α
  cap : Nat

/-- Room after making sure one more item fits: doubled when full. -/
def room {α : Type} (s : St α) : Nat := if s.items.length = s.cap then s.cap * 2 else s.cap

/-- What each operation does when performed alone. -/
def step {α : Type} (s : St α) : Op α → St α × Res α
  | .push x => (⟨x :: s.items, room s⟩, .unit)
  | .pushReport x => (⟨x :: s.items, room s⟩, .num (s.items.length + 1))
  | .pop => (⟨s.items.tail, s.cap⟩, .item s.items.head?)
  | .count => (s, .num s.items.length)
  | .capacity => (s, .num s.cap)
  | .isEmpty => (s, .bool (s.items.length == 0))
  | .copy => (s, .copied s.items s.cap)

end TStackSpec
