import Mathlib.Data.List.Perm.Basic
/-! # Model of how threaded_queue.c, threaded_deque.c and threaded_stack.c obtain and release memory and synchronisation objects

The contents are modelled elsewhere (Model/ThreadedQueue.lean, Model/QueueFine.lean, Model/DequeThreads.lean, Model/ThreadedStack.lean);
here only which blocks are allocated, which mutexes and conditions are initialised, and how many mutex attributes are. -/
namespace Containers

/-- Blocks allocated, the next block to hand out (blocks are never reused), the blocks holding an initialised mutex or condition,
and the number of initialised `pthread_mutexattr_t` not yet destroyed. -/
structure W where
  live : List Nat
  next : Nat
  sync : List Nat
  attrs : Nat

/-- `xmalloc`, `xcalloc`, `xmemdup` (libutils/alloc.c:40-70): they exit when memory runs out. -/
def alloc (w : W) : W × Nat := ({ w with live := w.next :: w.live, next := w.next + 1 }, w.next)

/-- `free`: undefined unless the block is allocated. -/
def free (w : W) (p : Nat) : Option W := if p ∈ w.live then some { w with live := w.live.erase p } else none

/-- `pthread_mutex_init` and `pthread_cond_init`, succeeding or not: undefined outside an allocated block and on an object already initialised. -/
def syncInit (w : W) (p : Nat) (ok : Bool) : Option W :=
  if p ∈ w.live ∧ p ∉ w.sync then some (if ok then { w with sync := p :: w.sync } else w) else none

/-- `pthread_mutex_destroy` and `pthread_cond_destroy`: undefined unless initialised. -/
def syncDestroy (w : W) (p : Nat) : Option W :=
  if p ∈ w.sync ∧ p ∈ w.live then some { w with sync := w.sync.erase p } else none

/-- `ThreadLock`/`ThreadUnlock`: the mutex must exist. -/
def useLock (w : W) (p : Nat) : Option Unit := if p ∈ w.sync ∧ p ∈ w.live then some () else none

def attrInit (w : W) : W := { w with attrs := w.attrs + 1 }
def attrDestroy (w : W) : W := { w with attrs := w.attrs - 1 }

/-- `ThreadedQueue` (threaded_queue.c:43-54) and `ThreadedDeque` (threaded_deque.c:43-54): the blocks it consists of. -/
structure Q where
  self : Nat
  lock : Nat
  nonEmpty : Nat
  empty : Nat
  data : Nat

/-- `ThreadedStack` (threaded_stack.c:43-46). -/
structure S where
  self : Nat
  lock : Nat
  data : Nat

/-- Which of the three initialisations succeed. -/
structure Ok where
  mutex : Bool
  nonEmpty : Bool
  empty : Bool

/-- `ThreadedQueueNew` (threaded_queue.c:58-132) and `ThreadedDequeNew` (threaded_deque.c:58-132). -/
def qNew (w : W) (ok : Ok) : Option (W × Option Q) := do
  let (w, self) := alloc w
  let w := attrInit w
  let (w, lock) := alloc w
  let w ← syncInit w lock ok.mutex
  if ok.mutex = false then
    let w := attrDestroy w
    let w ← free w lock
    let w ← free w self
    return (w, none)
  let w := attrDestroy w
  let (w, c1) := alloc w
  let w ← syncInit w c1 ok.nonEmpty
  if ok.nonEmpty = false then
    let w ← free w lock
    let w ← free w c1
    let w ← free w self
    return (w, none)
  let (w, c2) := alloc w
  let w ← syncInit w c2 ok.empty
  if ok.empty = false then
    let w ← free w lock
    let w ← free w c2
    let w ← free w c1
    let w ← free w self
    return (w, none)
  let (w, data) := alloc w
  return (w, some ⟨self, lock, c1, c2, data⟩)

/-- `ThreadedQueueCopy` (threaded_queue.c:391-460) and `ThreadedDequeCopy` (threaded_deque.c:501-569). -/
def qCopy (w : W) (q : Q) (ok : Ok) : Option (W × Option Q) := do
  useLock w q.lock
  let (w, self) := alloc w
  let (w, data) := alloc w
  useLock w q.lock
  let w := attrInit w
  let (w, lock) := alloc w
  let w ← syncInit w lock ok.mutex
  if ok.mutex = false then
    let w := attrDestroy w
    let w ← free w lock
    let w ← free w self
    return (w, none)
  let (w, c1) := alloc w
  let w ← syncInit w c1 ok.nonEmpty
  if ok.nonEmpty = false then
    let w ← free w lock
    let w ← free w c1
    let w ← free w self
    return (w, none)
  let (w, c2) := alloc w
  let w ← syncInit w c2 ok.empty
  if ok.empty = false then
    let w ← free w lock
    let w ← free w c2
    let w ← free w c1
    let w ← free w self
    return (w, none)
  return (w, some ⟨self, lock, c1, c2, data⟩)

/-- `ThreadedQueueSoftDestroy` (threaded_queue.c:146-171) and `ThreadedDequeSoftDestroy` (threaded_deque.c:144-169);
`ThreadedQueueDestroy` (threaded_queue.c:134-144) and `ThreadedDequeDestroy` (threaded_deque.c:134-142) destroy the items first. -/
def qDestroy (w : W) (q : Q) : Option W := do
  let w ← syncDestroy w q.lock
  let w ← free w q.lock
  let w ← syncDestroy w q.nonEmpty
  let w ← free w q.nonEmpty
  let w ← syncDestroy w q.empty
  let w ← free w q.empty
  let w ← free w q.data
  free w q.self

/-- `ThreadedStackNew` (threaded_stack.c:48-81). -/
def sNew (w : W) (ok : Bool) : Option (W × Option S) := do
  let (w, self) := alloc w
  let w := attrInit w
  let (w, lock) := alloc w
  let w ← syncInit w lock ok
  if ok = false then
    let w := attrDestroy w
    let w ← free w self
    return (w, none)
  let w := attrDestroy w
  let (w, data) := alloc w
  return (w, some ⟨self, lock, data⟩)

/-- `ThreadedStackCopy` (threaded_stack.c:173-210). -/
def sCopy (w : W) (s : S) (ok : Bool) : Option (W × Option S) := do
  useLock w s.lock
  let (w, self) := alloc w
  let (w, data) := alloc w
  let w := attrInit w
  let (w, lock) := alloc w
  let w ← syncInit w lock ok
  if ok = false then
    let w ← free w lock
    let w ← free w self
    let w := attrDestroy w
    useLock w s.lock
    return (w, none)
  let w := attrDestroy w
  useLock w s.lock
  return (w, some ⟨self, lock, data⟩)

/-- `ThreadedStackSoftDestroy` (threaded_stack.c:95-107); `ThreadedStackDestroy` (threaded_stack.c:83-93) destroys the items first. -/
def sDestroy (w : W) (s : S) : Option W := do
  let w ← syncDestroy w s.lock
  let w ← free w s.lock
  let w ← free w s.data
  free w s.self

end Containers
