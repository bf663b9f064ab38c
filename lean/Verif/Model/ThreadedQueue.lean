import Verif.Model.Mem
/-!
# Model of libutils/threaded_queue.c and libutils/threaded_deque.c (critical sections)

Each definition is the code executed between `ThreadLock` and `ThreadUnlock`, after the wait loop.  An array cell is `none`
while uninitialised or set to NULL by the code; reading such a cell as an item is reported as undefined.  `size_t` overflow
of capacities is not modelled.
-/
namespace TQ

/-- `ThreadedQueue_` (threaded_queue.c:43-53), without lock, condition variables and destructor. -/
structure Q (P : Type) where
  data : List (Option P)
  head : Nat
  tail : Nat
  size : Nat
  cap : Nat

/-- `ThreadedQueueNew` (threaded_queue.c:58-132): capacity 0 means the default 16. -/
def new {P : Type} (cap : Nat) : Q P :=
  let cap := if cap = 0 then 16 else cap
  ⟨List.replicate cap none, 0, 0, 0, cap⟩

/-- `ExpandIfNecessary` (threaded_queue.c:547-576); the assertion at 550 is the first test. -/
def expand {P : Type} (q : Q P) : Option (Q P) :=
  if q.cap < q.size then none else
  if q.size = q.cap then
    if q.tail ≤ q.head then do
      let data ← CMem.memmove (CMem.realloc q.data (q.cap * 2)) q.cap 0 q.tail
      some { q with data := data, cap := q.cap * 2, tail := (q.tail + q.cap) % (q.cap * 2) }
    else
      some { q with data := CMem.realloc q.data (q.cap * 2), cap := q.cap * 2, tail := q.tail % (q.cap * 2) }
  else some { q with tail := q.tail % q.cap }

/-- One iteration of the loop of `ThreadedQueuePushN` (threaded_queue.c:305-312), also the body of `ThreadedQueuePush`
(threaded_queue.c:288-290). -/
def pushOne {P : Type} (q : Q P) (x : P) : Option (Q P) := do
  let q ← expand q
  let data ← CMem.write q.data q.tail (some x)
  some { q with data := data, tail := q.tail + 1, size := q.size + 1 }

/-- `ThreadedQueuePushN` (threaded_queue.c:299-319); returns the new size. -/
def pushN {P : Type} (q : Q P) : List P → Option (Q P × Nat)
  | [] => some (q, q.size)
  | x :: xs => do
    let q ← pushOne q x
    pushN q xs

/-- `ThreadedQueuePush` (threaded_queue.c:282-297) -/
def push {P : Type} (q : Q P) (x : P) : Option (Q P × Nat) := do
  let q ← pushOne q x
  some (q, q.size)

/-- `ThreadedQueuePop` (threaded_queue.c:196-210), after the wait loop: `none` in the second component is return value false. -/
def pop {P : Type} (q : Q P) : Option (Q P × Option P) :=
  if 0 < q.size then do
    let x ← CMem.get q.data q.head
    let data ← CMem.write q.data q.head none
    some ({ q with data := data, head := (q.head + 1) % q.cap, size := q.size - 1 }, some x)
  else some (q, none)

/-- The loop of `ThreadedQueuePopN` (threaded_queue.c:258-263). -/
def popLoop {P : Type} (cap : Nat) : Nat → List (Option P) → Nat → Option (List (Option P) × Nat × List P)
  | 0, data, head => some (data, head, [])
  | n + 1, data, head => do
    let x ← CMem.get data head
    let data ← CMem.write data head none
    let (data, head, xs) ← popLoop cap n data ((head + 1) % cap)
    some (data, head, x :: xs)

/-- `ThreadedQueuePopN` (threaded_queue.c:250-267), after the wait loop. -/
def popN {P : Type} (q : Q P) (num : Nat) : Option (Q P × List P) :=
  let size := if num < q.size then num else q.size
  if 0 < size then do
    let (data, head, xs) ← popLoop q.cap size q.data q.head
    some ({ q with data := data, head := head, size := q.size - size }, xs)
  else some (q, [])

/-- The loop of `DestroyRange` (threaded_queue.c:529-538): destroyed items and number of iterations; `fuel` bounds the
iterations and running out is reported as `none`. `size--` must not go below zero. -/
def destroyLoop {P : Type} (data : List (Option P)) (cap stop : Nat) : Nat → Nat → Nat → Option (List P × Nat)
  | 0, _, _ => none
  | fuel + 1, i, size =>
    if i = stop then some ([], size) else do
      let x ← CMem.get data (i % cap)
      if size = 0 then none else
      let (xs, size) ← destroyLoop data cap stop fuel (i % cap + 1) (size - 1)
      some (x :: xs, size)

/-- `DestroyRange` (threaded_queue.c:508-540) with a destructor: destroyed items and the resulting `size`. -/
def destroyRange {P : Type} (q : Q P) (start stop : Nat) : Option (List P × Nat) :=
  if q.cap < start ∨ q.cap < stop then some ([], q.size) else
  if 0 < q.size then do
    let x ← CMem.get q.data start
    let (xs, size) ← destroyLoop q.data q.cap stop (q.cap + 1) (start + 1) (q.size - 1)
    some (x :: xs, size)
  else some ([], q.size)

/-- `ThreadedQueueClear` (threaded_queue.c:462-474), with its assertion. -/
def clear {P : Type} (q : Q P) : Option (Q P × List P) := do
  let (xs, size) ← destroyRange q q.head q.tail
  if size ≠ 0 then none else
  some ({ q with size := size, head := 0, tail := 0 }, xs)

/-- `ThreadedQueueClearAndPush` (threaded_queue.c:476-496), with its assertion. -/
def clearAndPush {P : Type} (q : Q P) (x : P) : Option (Q P × List P × Nat) := do
  let (xs, size) ← destroyRange q q.head q.tail
  let q ← pushOne { q with size := size, head := 0, tail := 0 } x
  if q.size ≠ 1 then none else
  some (q, xs, q.size)

/-- `ThreadedQueueCopy` (threaded_queue.c:391-402): the struct and the whole array are copied. -/
def copy {P : Type} (q : Q P) : Option (Q P) := do
  let data ← CMem.memcpy (List.replicate q.cap none) 0 q.data 0 q.cap
  some { q with data := data }

end TQ

namespace TD

/-- `ThreadedDeque_` (threaded_deque.c:43-53) -/
structure D (P : Type) where
  data : List (Option P)
  left : Nat
  right : Nat
  size : Nat
  cap : Nat

/-- `ThreadedDequeNew` (threaded_deque.c:58-132) -/
def new {P : Type} (cap : Nat) : D P :=
  let cap := if cap = 0 then 16 else cap
  ⟨List.replicate cap none, 0, 0, 0, cap⟩

/-- `ExpandIfNecessary` (threaded_deque.c:611-642) -/
def expand {P : Type} (q : D P) : Option (D P) :=
  if q.cap < q.size then none else
  if q.size = q.cap then
    if q.right ≤ q.left then do
      let data ← CMem.memmove (CMem.realloc q.data (q.cap * 2)) q.cap 0 q.right
      some { q with data := data, cap := q.cap * 2, right := q.right + q.cap }
    else
      some { q with data := CMem.realloc q.data (q.cap * 2), cap := q.cap * 2 }
  else some q

/-- Stepping an index down with wrap-around (threaded_deque.c:252, 371, 401). -/
def down (cap i : Nat) : Nat := if i = 0 then cap - 1 else i - 1

/-- `ThreadedDequePushLeft` (threaded_deque.c:393-410) -/
def pushLeft {P : Type} (q : D P) (x : P) : Option (D P × Nat) := do
  let q ← expand q
  let left := down q.cap q.left
  let data ← CMem.write q.data left (some x)
  some ({ q with data := data, left := left, size := q.size + 1 }, q.size + 1)

/-- `ThreadedDequePushRight` (threaded_deque.c:412-430) -/
def pushRight {P : Type} (q : D P) (x : P) : Option (D P × Nat) := do
  let q ← expand q
  let data ← CMem.write q.data q.right (some x)
  some ({ q with data := data, right := (q.right + 1) % q.cap, size := q.size + 1 }, q.size + 1)

/-- `ThreadedDequePopLeft` (threaded_deque.c:196-210), after the wait loop. -/
def popLeft {P : Type} (q : D P) : Option (D P × Option P) :=
  if 0 < q.size then do
    let x ← CMem.get q.data q.left
    let data ← CMem.write q.data q.left none
    some ({ q with data := data, left := (q.left + 1) % q.cap, size := q.size - 1 }, some x)
  else some (q, none)

/-- `ThreadedDequePopRight` (threaded_deque.c:248-262), after the wait loop. -/
def popRight {P : Type} (q : D P) : Option (D P × Option P) :=
  if 0 < q.size then do
    let right := down q.cap q.right
    let x ← CMem.get q.data right
    let data ← CMem.write q.data right none
    some ({ q with data := data, right := right, size := q.size - 1 }, some x)
  else some (q, none)

/-- `ThreadedDequePopLeftN` (threaded_deque.c:302-319), after the wait loop; the loop is the queue's. -/
def popLeftN {P : Type} (q : D P) (num : Nat) : Option (D P × List P) :=
  let size := if num < q.size then num else q.size
  if 0 < size then do
    let (data, left, xs) ← TQ.popLoop q.cap size q.data q.left
    some ({ q with data := data, left := left, size := q.size - size }, xs)
  else some (q, [])

/-- The loop of `ThreadedDequePopRightN` (threaded_deque.c:369-374). -/
def popRightLoop {P : Type} (cap : Nat) : Nat → List (Option P) → Nat → Option (List (Option P) × Nat × List P)
  | 0, data, right => some (data, right, [])
  | n + 1, data, right => do
    let right := down cap right
    let x ← CMem.get data right
    let data ← CMem.write data right none
    let (data, right, xs) ← popRightLoop cap n data right
    some (data, right, x :: xs)

/-- `ThreadedDequePopRightN` (threaded_deque.c:361-378), after the wait loop. -/
def popRightN {P : Type} (q : D P) (num : Nat) : Option (D P × List P) :=
  let size := if num < q.size then num else q.size
  if 0 < size then do
    let (data, right, xs) ← popRightLoop q.cap size q.data q.right
    some ({ q with data := data, right := right, size := q.size - size }, xs)
  else some (q, [])

/-- The `do … while` of `DestroyRange` (threaded_deque.c:597-602). -/
def destroyLoop {P : Type} (data : List (Option P)) (cap stop : Nat) : Nat → Nat → Option (List P)
  | 0, _ => none
  | fuel + 1, start => do
    let x ← CMem.get data start
    let start := (start + 1) % cap
    if start = stop then some [x] else do
      let xs ← destroyLoop data cap stop fuel start
      some (x :: xs)

/-- `ThreadedDequeDestroy` (threaded_deque.c:134-142) with `DestroyRange` (threaded_deque.c:583-604): the destroyed items. -/
def destroy {P : Type} (q : D P) : Option (List P) :=
  if q.cap < q.left ∨ q.cap < q.right then some [] else
  if 0 < q.size then destroyLoop q.data q.cap q.right (q.cap + 1) q.left
  else some []

/-- `ThreadedDequeCopy` (threaded_deque.c:501-512) -/
def copy {P : Type} (q : D P) : Option (D P) := do
  let data ← CMem.memcpy (List.replicate q.cap none) 0 q.data 0 q.cap
  some { q with data := data }

end TD
