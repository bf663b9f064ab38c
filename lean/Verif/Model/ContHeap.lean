import Verif.Model.Stack
import Verif.Model.RingBuffer
/-!
# Several stacks, queues, ring buffers and iterators in one memory (libutils/stack.c, queue.c, ring_buffer.c)

A container is a pointer to its structure. Items are numbers, NULL is 0. A use of memory that is not allocated, or an index outside an array, is undefined
behaviour (`none`). Addresses are not used again after `free`; `xrealloc` always moves. Destructors only record what they are called with. The copy function of a
ring buffer is left out (NULL). `destroyed` is what destructors were called with, in order.
-/
namespace ContHeap

/-- What an allocation holds. -/
inductive Block
  /-- `struct Stack_` (stack_base.c:46-51) -/
  | stack (data size capacity : Nat) (hasDestroy : Bool)
  /-- the array of a stack: `none` is a cell not initialised or NULL after `StackPop` -/
  | cells (c : List (Option Nat))
  /-- `struct Queue_` (queue.c:35-40) -/
  | queue (count : Nat) (hasDestroy : Bool) (head tail : Option Nat)
  /-- `struct QueueNode_` (queue.c:29-33) -/
  | node (data : Nat) (next previous : Option Nat)
  /-- `struct RingBuffer_` (ring_buffer.c:29-38) -/
  | ring (data capacity end_ len : Nat) (hasDestroy : Bool)
  /-- the array of a ring buffer: item pointers, 0 is NULL -/
  | slots (c : List Nat)
  /-- `struct RingBufferIterator_` (ring_buffer.c:40-44) -/
  | iter (buf numRead : Nat)

/-- Memory, and the items handed to destructors so far. -/
structure Heap where
  mem : Nat → Option Block
  next : Nat
  destroyed : List Nat

/-- Change of one address. -/
def upd (m : Nat → Option Block) (a : Nat) (b : Option Block) : Nat → Option Block := fun x => if x = a then b else m x

/-- `xmalloc`, `xcalloc`. -/
def alloc (h : Heap) (b : Block) : Heap × Nat := ({ h with mem := upd h.mem h.next (some b), next := h.next + 1 }, h.next)

/-- Writing the block at `a`. -/
def store (h : Heap) (a : Nat) (b : Block) : Option Heap :=
  match h.mem a with
  | none => none
  | some _ => some { h with mem := upd h.mem a (some b) }

/-- `free`. -/
def free (h : Heap) (a : Nat) : Option Heap :=
  match h.mem a with
  | none => none
  | some _ => some { h with mem := upd h.mem a none }

/-- A call of a destructor. -/
def kill (h : Heap) (x : Nat) : Heap := { h with destroyed := h.destroyed ++ [x] }

/-! ## Stacks -/

/-- Reading the structure of a stack. -/
def stackAt (h : Heap) (p : Nat) : Option (Nat × Nat × Nat × Bool) :=
  match h.mem p with
  | some (.stack d s c o) => some (d, s, c, o)
  | _ => none

/-- Reading the array of a stack. -/
def cellsAt (h : Heap) (a : Nat) : Option (List (Option Nat)) :=
  match h.mem a with
  | some (.cells c) => some c
  | _ => none

/-- `StackNew` with `StackInit` (stack.c:30-37, stack_base.c:53-66). -/
def stackNew (h : Heap) (initialCapacity : Nat) (hasDestroy : Bool) : Option (Heap × Nat) := do
  let (h, p) := alloc h (.stack 0 0 0 false)
  let cap := if initialCapacity = 0 then 16 else initialCapacity
  let (h, d) := alloc h (.cells (List.replicate cap none))
  let h ← store h p (.stack d 0 cap hasDestroy)
  some (h, p)

/-- `StackSoftDestroy` (stack.c:49-56). -/
def stackSoftDestroy (h : Heap) (p : Nat) : Option Heap := do
  let (d, _, _, _) ← stackAt h p
  let h ← free h d
  free h p

/-- The loop of `DestroyRange` (stack_base.c:85-91) for the cells `i, …, i+n-1`. -/
def destroyCells (d : Nat) : Heap → Nat → Nat → Option Heap
  | h, _, 0 => some h
  | h, i, n + 1 => do
    let c ← cellsAt h d
    let x ← CMem.get c i
    destroyCells d (kill h x) (i + 1) n

/-- `StackDestroy` (stack.c:39-47) with `DestroyRange` (stack_base.c:76-92). -/
def stackDestroy (h : Heap) (p : Nat) : Option Heap := do
  let (d, size, cap, o) ← stackAt h p
  let h ← if cap < size then some h else if o then destroyCells d h 0 size else some h
  stackSoftDestroy h p

/-- `StackPop` (stack.c:58-75). -/
def stackPop (h : Heap) (p : Nat) : Option (Heap × Nat) := do
  let (d, size, cap, o) ← stackAt h p
  if size > 0 then do
    let c ← cellsAt h d
    let item ← CMem.get c (size - 1)
    let c ← CMem.write c (size - 1) none
    let h ← store h d (.cells c)
    let h ← store h p (.stack d (size - 1) cap o)
    some (h, item)
  else some (h, 0)

/-- `StackTop` (stack.c:77-89). -/
def stackTop (h : Heap) (p : Nat) : Option Nat := do
  let (d, size, _, _) ← stackAt h p
  if size > 0 then do
    let c ← cellsAt h d
    CMem.get c (size - 1)
  else some 0

/-- `ExpandIfNecessary` (stack.c:96-106): `xrealloc` is a new array and the old one freed. -/
def stackExpand (h : Heap) (p : Nat) : Option Heap := do
  let (d, size, cap, o) ← stackAt h p
  if size ≤ cap then
    if size = cap then do
      let c ← cellsAt h d
      let (h, d') := alloc h (.cells (CMem.realloc c (cap * 2)))
      let h ← free h d
      store h p (.stack d' size (cap * 2) o)
    else some h
  else none

/-- `StackPush` and `StackPushReportCount` (stack.c:108-125): the count is returned by the second. -/
def stackPush (h : Heap) (p item : Nat) : Option (Heap × Nat) := do
  let h ← stackExpand h p
  let (d, size, cap, o) ← stackAt h p
  let c ← cellsAt h d
  let c ← CMem.write c size (some item)
  let h ← store h d (.cells c)
  let h ← store h p (.stack d (size + 1) cap o)
  some (h, size + 1)

/-- `StackCount` (stack.c:127-134). -/
def stackCount (h : Heap) (p : Nat) : Option Nat := do
  let (_, size, _, _) ← stackAt h p
  some size

/-- `StackCopy` (stack.c:154-163): the structure is duplicated, destructor included; then the array. -/
def stackCopy (h : Heap) (p : Nat) : Option (Heap × Nat) := do
  let (d, size, cap, o) ← stackAt h p
  let (h, p') := alloc h (.stack d size cap o)
  let (h, d') := alloc h (.cells (List.replicate cap none))
  let h ← store h p' (.stack d' size cap o)
  let c ← cellsAt h d
  let c' ← CMem.memcpy (List.replicate cap none) 0 c 0 size
  let h ← store h d' (.cells c')
  some (h, p')

/-! ## Queues -/

/-- Reading the structure of a queue. -/
def queueAt (h : Heap) (p : Nat) : Option (Nat × Bool × Option Nat × Option Nat) :=
  match h.mem p with
  | some (.queue n o a b) => some (n, o, a, b)
  | _ => none

/-- Reading a node. -/
def nodeAt (h : Heap) (a : Nat) : Option (Nat × Option Nat × Option Nat) :=
  match h.mem a with
  | some (.node x n p) => some (x, n, p)
  | _ => none

/-- `QueueNew` (queue.c:42-49). -/
def queueNew (h : Heap) (hasDestroy : Bool) : Heap × Nat := alloc h (.queue 0 hasDestroy none none)

/-- The loop of `QueueDestroy` (queue.c:55-65); `none` inside when it is still running after `fuel` rounds. -/
def queueDestroyLoop (o : Bool) : Nat → Heap → Option Nat → Option (Option Heap)
  | _, h, none => some (some h)
  | 0, _, some _ => some none
  | fuel + 1, h, some a => do
    let (x, n, _) ← nodeAt h a
    let h := if o then kill h x else h
    let h ← free h a
    queueDestroyLoop o fuel h n

/-- `QueueDestroy` (queue.c:51-69); the loop is followed for at most one round per node that can be there. -/
def queueDestroy (h : Heap) (p : Nat) : Option (Option Heap) := do
  let (n, o, head, _) ← queueAt h p
  match ← queueDestroyLoop o (n + 1) h head with
  | none => some none
  | some h => do
    let h ← free h p
    some (some h)

/-- `QueueEnqueue` (queue.c:82-101) with `QueueNodeNew` (71-80). -/
def enqueue (h : Heap) (p item : Nat) : Option Heap := do
  let (h, a) := alloc h (.node item none none)
  let (n, o, head, tail) ← queueAt h p
  match tail with
  | some t => do
    let (x, _, b) ← nodeAt h t
    let h ← store h t (.node x (some a) b)
    let (y, c, _) ← nodeAt h a
    let h ← store h a (.node y c (some t))
    store h p (.queue (n + 1) o head (some a))
  | none => store h p (.queue (n + 1) o (some a) (some a))

/-- `QueueDequeue` (queue.c:103-125): NULL is dereferenced when the queue is empty. -/
def dequeue (h : Heap) (p : Nat) : Option (Heap × Nat) := do
  let (n, o, head, tail) ← queueAt h p
  let a ← head
  let (x, nx, _) ← nodeAt h a
  match nx with
  | some b => do
    let (y, c, _) ← nodeAt h b
    let h ← store h b (.node y c none)
    let h ← store h p (.queue (n - 1) o (some b) tail)
    let h ← free h a
    some (h, x)
  | none => do
    let h ← store h p (.queue (n - 1) o none none)
    let h ← free h a
    some (h, x)

/-- `QueueHead` (queue.c:127-131). -/
def queueHead (h : Heap) (p : Nat) : Option Nat := do
  let (_, _, head, _) ← queueAt h p
  let a ← head
  let (x, _, _) ← nodeAt h a
  some x

/-- `QueueCount` (queue.c:133-137), and `QueueIsEmpty` (139-143) as its being 0. -/
def queueCount (h : Heap) (p : Nat) : Option Nat := do
  let (n, _, _, _) ← queueAt h p
  some n

/-! ## Ring buffers -/

/-- Reading the structure of a ring buffer. -/
def ringAt (h : Heap) (p : Nat) : Option (Nat × Nat × Nat × Nat × Bool) :=
  match h.mem p with
  | some (.ring d c e l o) => some (d, c, e, l, o)
  | _ => none

/-- Reading the array of a ring buffer. -/
def slotsAt (h : Heap) (a : Nat) : Option (List Nat) :=
  match h.mem a with
  | some (.slots c) => some c
  | _ => none

/-- `RingBufferNew` (ring_buffer.c:46-61), with its assertion. -/
def ringNew (h : Heap) (capacity : Nat) (hasDestroy : Bool) : Option (Heap × Nat) :=
  if capacity > 0 then do
    let (h, p) := alloc h (.ring 0 0 0 0 false)
    let (h, d) := alloc h (.slots (List.replicate capacity 0))
    let h ← store h p (.ring d (max capacity 1) 0 0 hasDestroy)
    some (h, p)
  else none

/-- `RingBufferAppend` (ring_buffer.c:63-77). -/
def ringAppend (h : Heap) (p item : Nat) : Option Heap := do
  let (d, c, e, l, o) ← ringAt h p
  let s ← slotsAt h d
  let old ← CMem.read s e
  let h := if old ≠ 0 ∧ o = true then kill h old else h
  let s ← CMem.write s e item
  let h ← store h d (.slots s)
  store h p (.ring d c ((e + 1) % c) (if l < c then l + 1 else l) o)

/-- The loop of `RingBufferClear` (ring_buffer.c:83-90) for the slots `i, …, i+n-1`. -/
def ringClearLoop (d : Nat) : Heap → Nat → Nat → Option Heap
  | h, _, 0 => some h
  | h, i, n + 1 => do
    let s ← slotsAt h d
    let x ← CMem.read s i
    if x ≠ 0 then do
      let s ← CMem.write s i 0
      let h ← store (kill h x) d (.slots s)
      ringClearLoop d h (i + 1) n
    else ringClearLoop d h (i + 1) n

/-- `RingBufferClear` (ring_buffer.c:79-95). -/
def ringClear (h : Heap) (p : Nat) : Option Heap := do
  let (d, c, _, _, o) ← ringAt h p
  let h ← if o then ringClearLoop d h 0 c else some h
  store h p (.ring d c 0 0 o)

/-- `RingBufferDestroy` (ring_buffer.c:134-142). -/
def ringDestroy (h : Heap) (p : Nat) : Option Heap := do
  let h ← ringClear h p
  let (d, _, _, _, _) ← ringAt h p
  let h ← free h d
  free h p

/-- `RingBufferLength` (ring_buffer.c:97-100). -/
def ringLength (h : Heap) (p : Nat) : Option Nat := do
  let (_, _, _, l, _) ← ringAt h p
  some l

/-- `RingBufferHead` (ring_buffer.c:107-122). -/
def ringHead (h : Heap) (p : Nat) : Option Nat := do
  let (d, c, e, l, _) ← ringAt h p
  if l = 0 then some 0
  else do
    let s ← slotsAt h d
    if e = 0 then CMem.read s (c - 1) else CMem.read s (e - 1)

/-! ## Iterators over ring buffers -/

/-- Reading an iterator. -/
def iterAt (h : Heap) (p : Nat) : Option (Nat × Nat) :=
  match h.mem p with
  | some (.iter b n) => some (b, n)
  | _ => none

/-- `RingBufferIteratorNew` (ring_buffer.c:124-132). -/
def iterNew (h : Heap) (p : Nat) : Heap × Nat := alloc h (.iter p 0)

/-- `RingBufferIteratorDestroy` (ring_buffer.c:144-150). -/
def iterDestroy (h : Heap) (p : Nat) : Option Heap := free h p

/-- `RingBufferIteratorNext` (ring_buffer.c:152-169): the difference `len - num_read` is a `size_t`, so it is zero only if the two are equal. -/
def iterNext (h : Heap) (p : Nat) : Option (Heap × Nat) := do
  let (b, n) ← iterAt h p
  let (d, c, e, l, _) ← ringAt h b
  if l = n then some (h, 0)
  else do
    let offset := if l = c then (e + n) % c else n
    let s ← slotsAt h d
    let x ← CMem.read s offset
    let h ← store h p (.iter b (n + 1))
    some (h, x)

/-! ## Programs -/

/-- What the program holds: the C types keep the kinds apart. -/
inductive Held
  | stack (p : Nat)
  | queue (p : Nat)
  | ring (p : Nat)
  | iter (p : Nat)
  /-- destroyed by the program, the pointer must not be used again -/
  | gone
deriving DecidableEq

/-- The calls of a program; `i` says which of the things it made, oldest first. -/
inductive Op
  | stackNew (capacity : Nat) (hasDestroy : Bool)
  | queueNew (hasDestroy : Bool)
  | ringNew (capacity : Nat) (hasDestroy : Bool)
  | iterNew (i : Nat)
  | push (i x : Nat)
  | pop (i : Nat)
  | top (i : Nat)
  | stackCopy (i : Nat)
  | softDestroy (i : Nat)
  | enqueue (i x : Nat)
  | dequeue (i : Nat)
  | queueHead (i : Nat)
  | ringAppend (i x : Nat)
  | ringClear (i : Nat)
  | ringHead (i : Nat)
  | iterNext (i : Nat)
  | count (i : Nat)
  | destroy (i : Nat)

/-- Memory and what the program made, oldest first. -/
structure World where
  heap : Heap
  held : List Held

/-- One call, and the number or pointer it returns (0 if it returns nothing). A call with something not held, or of another kind, is not a program. -/
def step (w : World) : Op → Option (World × Nat)
  | .stackNew c o => do
    let (h, p) ← stackNew w.heap c o
    some (⟨h, w.held ++ [.stack p]⟩, 0)
  | .queueNew o =>
    let r := queueNew w.heap o
    some (⟨r.1, w.held ++ [.queue r.2]⟩, 0)
  | .ringNew c o => do
    let (h, p) ← ringNew w.heap c o
    some (⟨h, w.held ++ [.ring p]⟩, 0)
  | .iterNew i =>
    match w.held[i]? with
    | some (.ring p) =>
      let r := iterNew w.heap p
      some (⟨r.1, w.held ++ [.iter r.2]⟩, 0)
    | _ => none
  | .push i x =>
    match w.held[i]? with
    | some (.stack p) => do
      let (h, n) ← stackPush w.heap p x
      some (⟨h, w.held⟩, n)
    | _ => none
  | .pop i =>
    match w.held[i]? with
    | some (.stack p) => do
      let (h, x) ← stackPop w.heap p
      some (⟨h, w.held⟩, x)
    | _ => none
  | .top i =>
    match w.held[i]? with
    | some (.stack p) => do
      let x ← stackTop w.heap p
      some (w, x)
    | _ => none
  | .stackCopy i =>
    match w.held[i]? with
    | some (.stack p) => do
      let (h, q) ← stackCopy w.heap p
      some (⟨h, w.held ++ [.stack q]⟩, 0)
    | _ => none
  | .softDestroy i =>
    match w.held[i]? with
    | some (.stack p) => do
      let h ← stackSoftDestroy w.heap p
      some (⟨h, w.held.set i .gone⟩, 0)
    | _ => none
  | .enqueue i x =>
    match w.held[i]? with
    | some (.queue p) => do
      let h ← enqueue w.heap p x
      some (⟨h, w.held⟩, 0)
    | _ => none
  | .dequeue i =>
    match w.held[i]? with
    | some (.queue p) => do
      let (h, x) ← dequeue w.heap p
      some (⟨h, w.held⟩, x)
    | _ => none
  | .queueHead i =>
    match w.held[i]? with
    | some (.queue p) => do
      let x ← queueHead w.heap p
      some (w, x)
    | _ => none
  | .ringAppend i x =>
    match w.held[i]? with
    | some (.ring p) => do
      let h ← ringAppend w.heap p x
      some (⟨h, w.held⟩, 0)
    | _ => none
  | .ringClear i =>
    match w.held[i]? with
    | some (.ring p) => do
      let h ← ringClear w.heap p
      some (⟨h, w.held⟩, 0)
    | _ => none
  | .ringHead i =>
    match w.held[i]? with
    | some (.ring p) => do
      let x ← ringHead w.heap p
      some (w, x)
    | _ => none
  | .iterNext i =>
    match w.held[i]? with
    | some (.iter p) => do
      let (h, x) ← iterNext w.heap p
      some (⟨h, w.held⟩, x)
    | _ => none
  | .count i =>
    match w.held[i]? with
    | some (.stack p) => do
      let n ← stackCount w.heap p
      some (w, n)
    | some (.queue p) => do
      let n ← queueCount w.heap p
      some (w, n)
    | some (.ring p) => do
      let n ← ringLength w.heap p
      some (w, n)
    | _ => none
  | .destroy i =>
    match w.held[i]? with
    | some (.stack p) => do
      let h ← stackDestroy w.heap p
      some (⟨h, w.held.set i .gone⟩, 0)
    | some (.queue p) => do
      let h ← (← queueDestroy w.heap p)
      some (⟨h, w.held.set i .gone⟩, 0)
    | some (.ring p) => do
      let h ← ringDestroy w.heap p
      some (⟨h, w.held.set i .gone⟩, 0)
    | some (.iter p) => do
      let h ← iterDestroy w.heap p
      some (⟨h, w.held.set i .gone⟩, 0)
    | _ => none

/-- A program, with what its calls return. -/
def run : World → List Op → Option (World × List Nat)
  | w, [] => some (w, [])
  | w, o :: os => do
    let (w, x) ← step w o
    let (w, xs) ← run w os
    some (w, x :: xs)

/-- Nothing allocated, nothing held. -/
def init : World := ⟨⟨fun _ => none, 0, []⟩, []⟩

end ContHeap
