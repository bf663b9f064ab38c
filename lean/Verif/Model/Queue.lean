import Verif.Model.Mem
/-! # Model of libutils/queue.c (doubly linked nodes in an explicit heap) -/
namespace Queue

/-- `struct QueueNode_` (queue.c:29-33); `data` is an opaque pointer value. -/
structure Node (α : Type) where
  data : α
  next : Option Nat
  previous : Option Nat

/-- The malloc heap for nodes: `none` is unallocated (or freed) memory. `fresh` is the address the next malloc returns;
addresses ≥ `fresh` were never handed out (simplification: malloc does not reuse freed addresses). -/
structure Heap (α : Type) where
  cells : Nat → Option (Node α)
  fresh : Nat

/-- `struct Queue_` (queue.c:35-40) together with the heap its nodes live in. -/
structure Q (α : Type) where
  heap : Heap α
  nodeCount : Nat
  hasDestroy : Bool
  head : Option Nat
  tail : Option Nat

/-- Store a node at an address. -/
def Heap.put {α : Type} (h : Heap α) (a : Nat) (n : Node α) : Heap α :=
  { h with cells := fun b => if b = a then some n else h.cells b }

/-- Write a node through a pointer: undefined behaviour when the address is not allocated. -/
def Heap.store {α : Type} (h : Heap α) (a : Nat) (n : Node α) : Option (Heap α) :=
  match h.cells a with
  | none => none
  | some _ => some (h.put a n)

/-- `free(node)`: undefined behaviour when not allocated (double free). -/
def Heap.free {α : Type} (h : Heap α) (a : Nat) : Option (Heap α) :=
  match h.cells a with
  | none => none
  | some _ => some { h with cells := fun b => if b = a then none else h.cells b }

/-- `QueueNew` (queue.c:42-49): calloc'ed, so count 0 and NULL pointers. -/
def new {α : Type} (hasDestroy : Bool) : Q α :=
  { heap := { cells := fun _ => none, fresh := 0 }, nodeCount := 0, hasDestroy, head := none, tail := none }

/-- `QueueNodeNew` (queue.c:71-80). -/
def nodeNew {α : Type} (h : Heap α) (element : α) : Nat × Heap α :=
  (h.fresh, { (h.put h.fresh { data := element, next := none, previous := none }) with fresh := h.fresh + 1 })

/-- `QueueEnqueue` (queue.c:82-101). -/
def enqueue {α : Type} (q : Q α) (element : α) : Option (Q α) :=
  let (node, heap) := nodeNew q.heap element
  match q.tail with
  | some t => do
    let tn ← heap.cells t
    let heap ← heap.store t { tn with next := some node }
    let nn ← heap.cells node
    let heap ← heap.store node { nn with previous := q.tail }
    some { q with heap, tail := some node, nodeCount := q.nodeCount + 1 }
  | none => some { q with heap, tail := some node, head := some node, nodeCount := q.nodeCount + 1 }

/-- `QueueDequeue` (queue.c:103-125). `q->head` is dereferenced without a check: NULL dereference on an empty queue. -/
def dequeue {α : Type} (q : Q α) : Option (Q α × α) := do
  let node ← q.head
  let n ← q.heap.cells node
  match n.next with
  | some h => do
    let hn ← q.heap.cells h
    let heap ← q.heap.store h { hn with previous := none }
    let heap ← heap.free node
    some ({ q with heap, head := n.next, nodeCount := q.nodeCount - 1 }, n.data)
  | none => do
    let heap ← q.heap.free node
    some ({ q with heap, head := none, tail := none, nodeCount := q.nodeCount - 1 }, n.data)

/-- `QueueHead` (queue.c:127-131): NULL dereference on an empty queue. -/
def headData {α : Type} (q : Q α) : Option α := do
  let node ← q.head
  let n ← q.heap.cells node
  some n.data

/-- `QueueCount` (queue.c:133-137). -/
def count {α : Type} (q : Q α) : Nat := q.nodeCount

/-- `QueueIsEmpty` (queue.c:139-143). -/
def isEmpty {α : Type} (q : Q α) : Bool := q.nodeCount == 0

/-- The loop of `QueueDestroy` (queue.c:55-65); `fuel` bounds the number of iterations (running out of fuel is reported
as failure, so a theorem giving `some` also says the loop terminates). Returns the remaining heap and the destroyed items. -/
def destroyLoop {α : Type} (hasDestroy : Bool) : Nat → Heap α → Option Nat → Option (Heap α × List α)
  | _, heap, none => some (heap, [])
  | 0, _, some _ => none
  | fuel + 1, heap, some cur => do
    let n ← heap.cells cur
    let heap ← heap.free cur
    let (heap, ds) ← destroyLoop hasDestroy fuel heap n.next
    some (heap, if hasDestroy then n.data :: ds else ds)

/-- `QueueDestroy` (queue.c:51-69). -/
def destroy {α : Type} (q : Q α) (fuel : Nat) : Option (Heap α × List α) :=
  destroyLoop q.hasDestroy fuel q.heap q.head

/-- API calls. -/
inductive Op (α : Type)
  | enqueue (x : α)
  | dequeue

/-- One call: new queue and the element returned by a dequeue. -/
def step {α : Type} (q : Q α) : Op α → Option (Q α × List α)
  | .enqueue x => (enqueue q x).map (·, [])
  | .dequeue => (dequeue q).map fun r => (r.1, [r.2])

/-- A history of calls, with the list of dequeued elements in order. -/
def run {α : Type} : Q α → List (Op α) → Option (Q α × List α)
  | q, [] => some (q, [])
  | q, op :: ops => do
    let (q, o) ← step q op
    let (q, os) ← run q ops
    some (q, o ++ os)

end Queue
