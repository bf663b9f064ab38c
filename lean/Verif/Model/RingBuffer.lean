import Verif.Model.Mem
/-! # Model of libutils/ring_buffer.c -/
namespace RingBuffer

/-- `struct RingBuffer_` (ring_buffer.c:29-38).  A slot is a `void *`: `none` is NULL.  `hasDestroy` says whether a
`destroy` callback was given (its effect is recorded in a log).  `copy` is the copy callback, the identity when the
callback is NULL; a copy callback never returns NULL here (simplification). -/
structure Buf (α : Type) where
  hasDestroy : Bool
  copy : α → α
  data : List (Option α)
  capacity : Nat
  end_ : Nat
  len : Nat

/-- `RingBufferNew` (ring_buffer.c:46-61).  `assert(capacity > 0)` failing is the `none` outcome.
`xcalloc` gives NULL slots. -/
def new {α : Type} (capacity : Nat) (copy : α → α) (hasDestroy : Bool) : Option (Buf α) :=
  if capacity > 0 then
    some { hasDestroy, copy, data := List.replicate capacity none, capacity := max capacity 1, end_ := 0, len := 0 }
  else none

/-- `RingBufferAppend` (ring_buffer.c:63-77); returns the new buffer and the pointers handed to `destroy`.
`item` may be NULL (the copy callback is then not applied: simplification, C would call copy(NULL)). -/
def append {α : Type} (b : Buf α) (item : Option α) : Option (Buf α × List α) := do
  let old ← CMem.read b.data b.end_
  let destroyed := if b.hasDestroy then old.toList else []
  let data ← CMem.write b.data b.end_ (item.map b.copy)
  let end' := (b.end_ + 1) % b.capacity
  let len' := if b.len < b.capacity then b.len + 1 else b.len
  some ({ b with data := data, end_ := end', len := len' }, destroyed)

/-- The loop body sequence of `RingBufferClear` (ring_buffer.c:83-90), for the slots `i, …, i+n-1`. -/
def clearLoop {α : Type} : List (Option α) → Nat → Nat → Option (List (Option α) × List α)
  | data, _, 0 => some (data, [])
  | data, i, n + 1 => do
    let p ← CMem.read data i
    match p with
    | some x =>
      let data ← CMem.write data i none
      let (data, rest) ← clearLoop data (i + 1) n
      some (data, x :: rest)
    | none => clearLoop data (i + 1) n

/-- `RingBufferClear` (ring_buffer.c:79-95). -/
def clear {α : Type} (b : Buf α) : Option (Buf α × List α) := do
  if b.hasDestroy then
    let (data, d) ← clearLoop b.data 0 b.capacity
    some ({ b with data := data, end_ := 0, len := 0 }, d)
  else
    some ({ b with end_ := 0, len := 0 }, [])

/-- `RingBufferLength` (ring_buffer.c:97-100). -/
def length {α : Type} (b : Buf α) : Nat := b.len

/-- `RingBufferIsFull` (ring_buffer.c:102-105). -/
def isFull {α : Type} (b : Buf α) : Bool := b.len == b.capacity

/-- `RingBufferHead` (ring_buffer.c:107-122). -/
def head {α : Type} (b : Buf α) : Option (Option α) :=
  if length b = 0 then some none
  else if b.end_ = 0 then CMem.read b.data (b.capacity - 1)
  else CMem.read b.data (b.end_ - 1)

/-- `RingBufferIteratorNext` (ring_buffer.c:152-169) on an iterator that has read `numRead` items; returns the pointer
and the new `num_read`. The C difference `len - num_read` is a `size_t`; it is zero iff the two are equal. -/
def iterNext {α : Type} (b : Buf α) (numRead : Nat) : Option (Option α × Nat) :=
  if b.len = numRead then some (none, numRead)
  else do
    let offset := if isFull b then (b.end_ + numRead) % b.capacity else numRead
    let p ← CMem.read b.data offset
    some (p, numRead + 1)

/-- `k` successive calls of `RingBufferIteratorNext`, starting with `numRead` items read. -/
def iterCalls {α : Type} (b : Buf α) : Nat → Nat → Option (List (Option α))
  | 0, _ => some []
  | k + 1, numRead => do
    let (p, nr) ← iterNext b numRead
    let rest ← iterCalls b k nr
    some (p :: rest)

/-- `RingBufferIteratorNew` (ring_buffer.c:124-132) followed by `k` calls of `RingBufferIteratorNext`. -/
def iterate {α : Type} (b : Buf α) (k : Nat) : Option (List (Option α)) := iterCalls b k 0

/-- The operations that change a ring buffer. -/
inductive Op (α : Type)
  | append (x : Option α)
  | clear

/-- One API call; returns the destroyed pointers too. -/
def step {α : Type} (b : Buf α) : Op α → Option (Buf α × List α)
  | .append x => append b x
  | .clear => clear b

/-- A history of API calls: final buffer and the log of all destroyed pointers. -/
def run {α : Type} : Buf α → List (Op α) → Option (Buf α × List α)
  | b, [] => some (b, [])
  | b, op :: ops => do
    let (b, d) ← step b op
    let (b, ds) ← run b ops
    some (b, d ++ ds)

end RingBuffer
