import Verif.Model.Mem
/-! # Model of libutils/stack_base.c, libutils/stack.c (and the critical sections of libutils/threaded_stack.c) -/
namespace Stack

/-- `struct Stack_` (stack_base.c:46-51). `data` has `capacity` cells; a cell is `none` while NULL/uninitialised. -/
structure S (α : Type) where
  hasDestroy : Bool
  data : List (Option α)
  size : Nat
  capacity : Nat

/-- `StackInit`/`StackNew` (stack_base.c:53-66, stack.c:30-37): capacity 0 means 16. -/
def new {α : Type} (initialCapacity : Nat) (hasDestroy : Bool) : S α :=
  let cap := if initialCapacity = 0 then 16 else initialCapacity
  { hasDestroy, data := List.replicate cap none, size := 0, capacity := cap }

/-- `DestroyRange` (stack_base.c:76-92). -/
def destroyRange {α : Type} (s : S α) (start stop : Nat) : Option (List α) :=
  if s.capacity < start ∨ s.capacity < stop then some []
  else if s.hasDestroy then CMem.getRange s.data start (stop - start) else some []

/-- `StackPop` (stack.c:58-75): NULL (`none` inside) on an empty stack. -/
def pop {α : Type} (s : S α) : Option (S α × Option α) :=
  if s.size > 0 then do
    let item ← CMem.get s.data (s.size - 1)
    let data ← CMem.write s.data (s.size - 1) none
    some ({ s with data := data, size := s.size - 1 }, some item)
  else some (s, none)

/-- `StackTop` (stack.c:77-89). -/
def top {α : Type} (s : S α) : Option (Option α) :=
  if s.size > 0 then (CMem.get s.data (s.size - 1)).map some else some none

/-- `ExpandIfNecessary` (stack.c:96-106). -/
def expand {α : Type} (s : S α) : S α :=
  if s.size = s.capacity then
    { s with capacity := s.capacity * 2, data := CMem.realloc s.data (s.capacity * 2) }
  else s

/-- `StackPush` (stack.c:108-114). -/
def push {α : Type} (s : S α) (item : α) : Option (S α) := do
  let s := expand s
  let data ← CMem.write s.data s.size (some item)
  some { s with data := data, size := s.size + 1 }

/-- `StackPushReportCount` (stack.c:116-125). -/
def pushReportCount {α : Type} (s : S α) (item : α) : Option (S α × Nat) := do
  let s ← push s item
  some (s, s.size)

/-- `StackCount` (stack.c:127-134). -/
def count {α : Type} (s : S α) : Nat := s.size
/-- `StackCapacity` (stack.c:136-143). -/
def capacity {α : Type} (s : S α) : Nat := s.capacity
/-- `StackIsEmpty` (stack.c:145-152). -/
def isEmpty {α : Type} (s : S α) : Bool := s.size == 0

/-- `StackCopy` (stack.c:155-163): a fresh array of `capacity` uninitialised cells, `size` cells copied. -/
def copy {α : Type} (s : S α) : Option (S α) := do
  let data ← CMem.memcpy (List.replicate s.capacity none) 0 s.data 0 s.size
  some { s with data := data }

/-- `StackDestroy` (stack.c:39-47): the items handed to the destructor. -/
def destroy {α : Type} (s : S α) : Option (List α) := destroyRange s 0 s.size

/-- API calls. `copy` continues with the copy. -/
inductive Op (α : Type)
  | push (x : α)
  | pushReport (x : α)
  | pop
  | copy

/-- What an API call returns. -/
inductive Out (α : Type)
  | unit
  | count (n : Nat)
  | item (x : Option α)
  deriving DecidableEq

/-- One call. -/
def step {α : Type} (s : S α) : Op α → Option (S α × Out α)
  | .push x => (push s x).map (·, .unit)
  | .pushReport x => (pushReportCount s x).map fun r => (r.1, .count r.2)
  | .pop => (pop s).map fun r => (r.1, .item r.2)
  | .copy => (copy s).map (·, .unit)

/-- A history of calls. -/
def run {α : Type} : S α → List (Op α) → Option (S α × List (Out α))
  | s, [] => some (s, [])
  | s, op :: ops => do
    let (s, o) ← step s op
    let (s, os) ← run s ops
    some (s, o :: os)

end Stack
