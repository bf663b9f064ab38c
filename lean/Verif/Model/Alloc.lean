import Verif.Model.Compat
/-!
# Memory that runs out: libutils/alloc.c with libutils/cleanup.c

The heap is a list of blocks, an address is a place in it; blocks are never moved and addresses never reused. Whether a call of the C library gets memory is decided by
`grant`, call by call. A program is the list of calls it makes (one thread; what it does between them touches neither the heap blocks listed here nor this module), so
every theorem over all programs and all `grant` covers programs that look at results. `none` is undefined behaviour. Texts to copy are given as the memory from the pointer on.
-/
namespace Alloc

abbrev Bytes := List UInt8
/-- A block; a cell is `none` while uninitialised. -/
abbrev Block := List (Option UInt8)

/-- The heap: the blocks (`none`: freed), and the number of allocation calls so far. -/
structure Heap where
  blocks : List (Option Block)
  calls : Nat

/-- A block is put at a new address. -/
def Heap.put (h : Heap) (b : Block) : Heap × Option Nat := ({ h with blocks := h.blocks ++ [some b] }, some h.blocks.length)

/-- One more allocation call. -/
def Heap.tick (h : Heap) : Heap := { h with calls := h.calls + 1 }

/-- `free` of the block at `a`. -/
def Heap.free (h : Heap) (a : Nat) : Option Heap :=
  match h.blocks[a]? with
  | some (some _) => some { h with blocks := h.blocks.set a none }
  | _ => none

/-- `malloc` of the C library; of size 0 it may give a block of no bytes or NULL. -/
def libMalloc (grant : Nat → Bool) (h : Heap) (size : Nat) : Heap × Option Nat :=
  if grant h.calls then h.tick.put (List.replicate size none) else (h.tick, none)

/-- `calloc` of the C library: refused if the product does not fit `size_t`. -/
def libCalloc (grant : Nat → Bool) (h : Heap) (nmemb size : Nat) : Heap × Option Nat :=
  if nmemb * size < 2 ^ 64 ∧ grant h.calls then h.tick.put (List.replicate (nmemb * size) (some 0)) else (h.tick, none)

/-- `realloc` of the C library: of NULL it is `malloc`; if refused the block stays, except that size 0 frees it (glibc). -/
def libRealloc (grant : Nat → Bool) (h : Heap) (ptr : Option Nat) (size : Nat) : Option (Heap × Option Nat) :=
  match ptr with
  | none => some (libMalloc grant h size)
  | some a => do
    let b ← (h.blocks[a]?).join
    if grant h.calls then
      let h ← h.tick.free a
      some (h.put (CMem.realloc b size))
    else if size = 0 then
      let h ← h.tick.free a
      some (h, none)
    else some (h.tick, none)

/-- `strndup` (libcompat/strndup.c:38-51). -/
def libStrndup (grant : Nat → Bool) (h : Heap) (str : Bytes) (maxlen : Nat) : Option (Heap × Option Nat) := do
  let len ← Compat.strnlen str maxlen
  if grant h.calls then
    let d ← CMem.memcpy (List.replicate (len + 1) none) 0 (str.map some) 0 len
    let d ← CMem.write d len (some 0)
    some (h.tick.put d)
  else some (h.tick, none)

/-- `strdup` (libcompat/strdup.c:36-47); `strlen` reads up to the NUL, wherever it is. -/
def libStrdup (grant : Nat → Bool) (h : Heap) (str : Bytes) : Option (Heap × Option Nat) := do
  let len ← Compat.strnlen str (str.length + 1)
  if grant h.calls then
    let d ← CMem.memcpy (List.replicate (len + 1) none) 0 (str.map some) 0 (len + 1)
    some (h.tick.put d)
  else some (h.tick, none)

/-- `memdup` (libcompat/memdup.c:36-46). -/
def libMemdup (grant : Nat → Bool) (h : Heap) (data : Bytes) (size : Nat) : Option (Heap × Option Nat) :=
  if grant h.calls then do
    let d ← CMem.memcpy (List.replicate size none) 0 (data.map some) 0 size
    some (h.tick.put d)
  else some (h.tick, none)

/-- The six functions of alloc.c that give memory. -/
inductive Req
  | malloc (size : Nat)
  | calloc (nmemb size : Nat)
  | realloc (ptr : Option Nat) (size : Nat)
  | strdup (str : Bytes)
  | strndup (str : Bytes) (n : Nat)
  | memdup (data : Bytes) (size : Nat)

/-- The call of the C library in each of them (alloc.c:41-69). -/
def lib (grant : Nat → Bool) (h : Heap) : Req → Option (Heap × Option Nat)
  | .malloc size => some (libMalloc grant h size)
  | .calloc nmemb size => some (libCalloc grant h nmemb size)
  | .realloc ptr size => libRealloc grant h ptr size
  | .strdup str => libStrdup grant h str
  | .strndup str n => libStrndup grant h str n
  | .memdup data size => libMemdup grant h data size

/-- The third argument of `CheckResult` in each of them (alloc.c:41-69). -/
def check : Req → Bool
  | .malloc size => size ≠ 0
  | .calloc nmemb size => nmemb ≠ 0 ∧ size ≠ 0
  | .realloc _ size => size ≠ 0
  | .strdup _ => true
  | .strndup _ _ => true
  | .memdup _ size => size ≠ 0

/-- The second argument of `CheckResult` in each of them (alloc.c:41-69). -/
def fnName : Req → String
  | .malloc _ => "xmalloc"
  | .calloc _ _ => "xcalloc"
  | .realloc _ _ => "xrealloc"
  | .strdup _ => "xstrdup"
  | .strndup _ _ => "xstrndup"
  | .memdup _ _ => "xmemdup"

/-- What a cleanup function may do with these two modules: ask for memory, or call `RegisterCleanupFunction`, `CallCleanupFunctions` or `DoCleanupAndExit`. -/
inductive Act
  | request (r : Req)
  | module

/-- A cleanup function: which one it is, and what it does. -/
structure Fn where
  id : Nat
  acts : List Act

/-- The process: heap, what was written to stderr, the cleanup functions run, the list `cleanup_functions` (the address of each node and its function; the linking of the
nodes is in `CleanupThreads`), and whether `cleanup_functions_mutex` is held. -/
structure Proc where
  heap : Heap
  err : List String
  ran : List Nat
  fns : List (Nat × Fn)
  held : Bool

/-- How a call ends: it returns, the process exits, or the thread waits for good for a mutex it holds itself (the mutex is not recursive). -/
inductive Ending (α : Type)
  | returns (s : Proc) (x : α)
  | exits (s : Proc) (code : Nat)
  | hangs (s : Proc)

/-- The message (alloc.c:34-35). -/
def report (s : Proc) (r : Req) : Proc := { s with err := s.err ++ [fnName r, "CRITICAL: Unable to allocate memory\n"] }

/-- What a cleanup function does, with the mutex held by its caller: a refused request (`CheckResult`, alloc.c:30-39) calls `DoCleanupAndExit`, which waits for that mutex, as
does every call of the module (cleanup.c:41, 65). -/
def acts (grant : Nat → Bool) (s : Proc) : List Act → Option (Ending Unit)
  | [] => some (.returns s ())
  | .module :: _ => some (.hangs s)
  | .request r :: rest => do
    let (h, p) ← lib grant s.heap r
    if p = none ∧ check r then some (.hangs (report { s with heap := h } r))
    else acts grant { s with heap := h } rest

/-- The loop of `CallCleanupFunctions` (cleanup.c:43-54). -/
def loop (grant : Nat → Bool) (s : Proc) : List (Nat × Fn) → Option (Ending Unit)
  | [] => some (.returns { s with fns := [], held := false } ())
  | (node, f) :: rest => do
    match ← acts grant { s with ran := s.ran ++ [f.id] } f.acts with
    | .returns s _ =>
      let h ← s.heap.free node
      loop grant { s with heap := h } rest
    | .exits s c => some (.exits s c)
    | .hangs s => some (.hangs s)

/-- `CallCleanupFunctions` (cleanup.c:39-55). -/
def callCleanup (grant : Nat → Bool) (s : Proc) : Option (Ending Unit) :=
  if s.held then some (.hangs s) else loop grant { s with held := true } s.fns

/-- `DoCleanupAndExit` (cleanup.c:57-61). -/
def doCleanupAndExit {α : Type} (grant : Nat → Bool) (s : Proc) (code : Nat) : Option (Ending α) := do
  match ← callCleanup grant s with
  | .returns s _ => some (.exits s code)
  | .exits s c => some (.exits s c)
  | .hangs s => some (.hangs s)

/-- `xmalloc`, `xcalloc`, `xrealloc`, `xstrdup`, `xstrndup`, `xmemdup` (alloc.c:41-69) with `CheckResult` (alloc.c:30-39). -/
def request (grant : Nat → Bool) (s : Proc) (r : Req) : Option (Ending (Option Nat)) := do
  let (h, p) ← lib grant s.heap r
  if p = none ∧ check r then doCleanupAndExit grant (report { s with heap := h } r) 255
  else some (.returns { s with heap := h } p)

/-- `RegisterCleanupFunction` (cleanup.c:63-74): the node is asked for with the mutex held. `sizeof(CleanupList)` is 16. -/
def register (grant : Nat → Bool) (s : Proc) (f : Fn) : Option (Ending Unit) :=
  if s.held then some (.hangs s)
  else do
    match ← request grant { s with held := true } (.malloc 16) with
    | .returns s (some node) => some (.returns { s with fns := (node, f) :: s.fns, held := false } ())
    | .returns _ none => none
    | .exits s c => some (.exits s c)
    | .hangs s => some (.hangs s)

/-- What the program calls. -/
inductive Op
  | request (r : Req)
  | free (a : Nat)
  | register (f : Fn)
  | call
  | exit (code : Nat)

/-- One call. -/
def step (grant : Nat → Bool) (s : Proc) : Op → Option (Ending (Option Nat))
  | .request r => request grant s r
  | .free a => do
    let h ← s.heap.free a
    some (.returns { s with heap := h } none)
  | .register f => do
    match ← register grant s f with
    | .returns s _ => some (.returns s none)
    | .exits s c => some (.exits s c)
    | .hangs s => some (.hangs s)
  | .call => do
    match ← callCleanup grant s with
    | .returns s _ => some (.returns s none)
    | .exits s c => some (.exits s c)
    | .hangs s => some (.hangs s)
  | .exit code => doCleanupAndExit grant s code

/-- The process at its start. -/
def init : Proc := ⟨⟨[], 0⟩, [], [], [], false⟩

end Alloc
