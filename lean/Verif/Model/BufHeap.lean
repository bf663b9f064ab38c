import Verif.Model.Buffer
/-!
# Several buffers in one memory, and pointers into them (libutils/buffer.c)

A buffer is a pointer to its structure, which points to its array; `BufferData` hands that pointer out and `BufferClose` gives the array away. The bytes to append
are given by a pointer, which may lead into another buffer, into the same buffer, or into an array of the caller. A use of memory that is not allocated, of a byte
never written, or outside an array is undefined behaviour (`none`), as is `memcpy` between overlapping places. Addresses are not used again after `free`;
`xrealloc` always moves. The texts that formats produce are values, as in Model/Buffer.lean.
-/
namespace BufHeap
open Buffer (Buf Mode)

/-- What an allocation holds. -/
inductive Block
  /-- `struct Buffer` (buffer.h:49-57) -/
  | buf (arr capacity used : Nat) (mode : Mode)
  /-- an array of `char`; `none` is not initialised -/
  | arr (cells : List (Option UInt8))

structure Heap where
  mem : Nat → Option Block
  next : Nat

/-- Change of one address. -/
def upd (m : Nat → Option Block) (a : Nat) (b : Option Block) : Nat → Option Block := fun x => if x = a then b else m x

/-- `xmalloc`. -/
def alloc (h : Heap) (b : Block) : Heap × Nat := (⟨upd h.mem h.next (some b), h.next + 1⟩, h.next)

/-- Writing the block at `a`. -/
def store (h : Heap) (a : Nat) (b : Block) : Option Heap :=
  match h.mem a with
  | none => none
  | some _ => some { h with mem := upd h.mem a (some b) }

/-- `free`. -/
def free (h : Heap) (a : Nat) : Option Heap :=
  match h.mem a with
  | none => none
  | some _ => some { h with mem := upd h.mem a none }

/-- Reading an array. -/
def arrAt (h : Heap) (a : Nat) : Option (List (Option UInt8)) :=
  match h.mem a with
  | some (.arr c) => some c
  | _ => none

/-- Reading the structure of a buffer and its array: the address of the array and both together. -/
def load (h : Heap) (p : Nat) : Option (Nat × Buf) :=
  match h.mem p with
  | some (.buf a c u m) =>
    match h.mem a with
    | some (.arr cells) => some (a, ⟨cells, m, c, u⟩)
    | _ => none
  | _ => none

/-- Writing both. -/
def save (h : Heap) (p a : Nat) (b : Buf) : Option Heap := do
  let h ← store h a (.arr b.mem)
  store h p (.buf a b.capacity b.used b.mode)

/-- The array moves: a new one, the old one freed, the structure changed. -/
def move (h : Heap) (p a : Nat) (b : Buf) : Option Heap := do
  let (h, a') := alloc h (.arr b.mem)
  let h ← free h a
  store h p (.buf a' b.capacity b.used b.mode)

/-- A call that reads and writes nothing but its own buffer and values, and moves the array at most once, which is when the capacity changes: `f` is what it does to the contents
(Model/Buffer.lean). -/
def own (h : Heap) (p : Nat) (f : Buf → Option Buf) : Option Heap := do
  let (a, b) ← load h p
  let b' ← f b
  if b'.capacity = b.capacity then save h p a b' else move h p a b'

/-- `BufferNewWithCapacity` (buffer.c:35-46), `BufferNew` (48-51) with 4096. -/
def new (h : Heap) (n : Nat) : Option (Heap × Nat) := do
  let (h, p) := alloc h (.buf 0 0 0 .cstring)
  let cells ← CMem.write (List.replicate n none) 0 (some 0)
  let (h, a) := alloc h (.arr cells)
  let h ← store h p (.buf a n 0 .cstring)
  some (h, p)

/-- `ExpandIfNeeded` (buffer.c:53-62). -/
def expand (h : Heap) (p needed : Nat) : Option Heap := do
  let (a, b) ← load h p
  if needed ≥ b.capacity then
    let cap := (Misc.upperPowerOfTwo (BitVec.ofNat 64 (needed + 1))).toNat
    move h p a { b with mem := CMem.realloc b.mem cap, capacity := cap }
  else some h

/-- `strnlen(s, n)` for `s` at `off` in an array. -/
def strnlenAt (cells : List (Option UInt8)) (off : Nat) : Nat → Option Nat
  | 0 => some 0
  | n + 1 => do
    let c ← CMem.get cells off
    if c = 0 then some 0 else do
      let k ← strnlenAt cells (off + 1) n
      some (k + 1)

/-- `memcpy(buffer->buffer + buffer->used, bytes, n)`, then `used` raised by `n` and, if asked, a terminator (buffer.c:291-293, 299-300). -/
def copyIn (h : Heap) (p q off n : Nat) (terminate : Bool) : Option Heap := do
  let (a, b) ← load h p
  let src ← arrAt h q
  if q = a ∧ off < b.used + n ∧ b.used < off + n then none
  else do
    let mem ← CMem.memcpy b.mem b.used src off n
    let mem ← if terminate then CMem.write mem (b.used + n) (some 0) else some mem
    save h p a { b with mem, used := b.used + n }

/-- `BufferAppend` (buffer.c:276-304); the bytes are at `off` in the array `q`. -/
def append (h : Heap) (p q off length : Nat) : Option Heap := do
  let (_, b) ← load h p
  if length = 0 then some h
  else
    match b.mode with
    | .cstring => do
      let src ← arrAt h q
      let n ← strnlenAt src off length
      let h ← expand h p (b.used + n + 1)
      copyIn h p q off n true
    | .bytearray => do
      let h ← expand h p (b.used + length)
      copyIn h p q off length false

/-- `BufferSet` (buffer.c:236-244). -/
def set (h : Heap) (p q off length : Nat) : Option Heap := do
  let h ← own h p Buffer.clear
  append h p q off length

/-- `BufferAppendString` (buffer.c:253-262). `strlen` runs to a NUL or out of the array. -/
def appendString (h : Heap) (p q off : Nat) : Option Heap := do
  let (_, b) ← load h p
  let src ← arrAt h q
  let n ← strnlenAt src off (src.length + 1)
  let h ← expand h p (b.used + n + 1)
  copyIn h p q off n true

/-- `BufferNewFrom` (buffer.c:64-70). -/
def newFrom (h : Heap) (q off length : Nat) : Option (Heap × Nat) := do
  let (h, p) ← new h (length + 1)
  let h ← append h p q off length
  some (h, p)

/-- `BufferCopy` (buffer.c:90-94). -/
def copy (h : Heap) (p : Nat) : Option (Heap × Nat) := do
  let (a, b) ← load h p
  newFrom h a 0 b.used

/-- `BufferDestroy` (buffer.c:72-79), not of NULL. -/
def destroy (h : Heap) (p : Nat) : Option Heap := do
  let (a, _) ← load h p
  let h ← free h a
  free h p

/-- `BufferClose` (buffer.c:81-88): the array is the caller's. -/
def close (h : Heap) (p : Nat) : Option (Heap × Nat) := do
  let (a, _) ← load h p
  let h ← free h p
  some (h, a)

/-- The loop of `BufferFilter` (buffer.c:535-547) from the buffer `p` into the buffer `q`. -/
def filterLoop (p q : Nat) (keep : UInt8 → Bool) (invert : Bool) : Nat → Nat → Heap → Option Heap
  | 0, _, h => some h
  | fuel + 1, i, h => do
    let (_, b) ← load h p
    if i < b.used then do
      let c ← CMem.get b.mem i
      let test := if invert then !keep c else keep c
      let h ← if test then own h q (Buffer.appendChar · c) else some h
      filterLoop p q keep invert fuel (i + 1) h
    else some h

/-- `BufferFilter` (buffer.c:530-550). -/
def filter (h : Heap) (p : Nat) (keep : UInt8 → Bool) (invert : Bool) : Option (Heap × Nat) := do
  let (_, b) ← load h p
  let (h, q) ← new h 4096
  let h ← filterLoop p q keep invert (b.used + 1) 0 h
  some (h, q)

/-- `BufferRewrite` (buffer.c:552-559). -/
def rewrite (h : Heap) (p : Nat) (keep : UInt8 → Bool) (invert : Bool) : Option Heap := do
  let (h, q) ← filter h p keep invert
  let (a, b) ← load h q
  let h ← set h p a 0 b.used
  destroy h q

/-! ## Programs -/

/-- What the program holds. -/
inductive Held
  | buf (p : Nat)
  /-- a pointer from `BufferData` (buffer.c:486-490) -/
  | ptr (a : Nat)
  /-- an array of its own -/
  | str (a : Nat)
  | gone

/-- The calls of a program; `i` is which of the buffers, `k` which of the pointers and arrays it has: the number of the thing among all it was given, oldest first. -/
inductive Op
  | new (n : Nat)
  | newFrom (k off length : Nat)
  | copy (i : Nat)
  | destroy (i : Nat)
  | data (i : Nat)
  | close (i : Nat)
  /-- the program's own array with these bytes -/
  | text (t : List UInt8)
  | freeText (k : Nat)
  | append (i k off length : Nat)
  | set (i k off length : Nat)
  | appendString (i k off : Nat)
  | appendChar (i : Nat) (c : UInt8)
  | clear (i : Nat)
  | trim (i max : Nat)
  | setMode (i : Nat) (cstring : Bool)
  | appendF (i : Nat) (t : List UInt8)
  | printf (i : Nat) (t : List UInt8)
  | filter (i : Nat) (keep : UInt8 → Bool) (invert : Bool)
  | rewrite (i : Nat) (keep : UInt8 → Bool) (invert : Bool)
  | size (i : Nat)
  /-- the byte at `off` -/
  | read (k off : Nat)

structure World where
  heap : Heap
  held : List Held

/-- The buffer number `i`. -/
def World.bufOf (w : World) (i : Nat) : Option Nat :=
  match w.held[i]? with
  | some (.buf p) => some p
  | _ => none

/-- The array number `k` points to. -/
def World.arrOf (w : World) (k : Nat) : Option Nat :=
  match w.held[k]? with
  | some (.ptr a) => some a
  | some (.str a) => some a
  | _ => none

/-- One call, and the number it returns (0 if none). A call with something not held is not a program. -/
def step (w : World) : Op → Option (World × Nat)
  | .new n => do
    let (h, p) ← new w.heap n
    some (⟨h, w.held ++ [.buf p]⟩, 0)
  | .newFrom k off length => do
    let a ← w.arrOf k
    let (h, p) ← newFrom w.heap a off length
    some (⟨h, w.held ++ [.buf p]⟩, 0)
  | .copy i => do
    let p ← w.bufOf i
    let (h, q) ← copy w.heap p
    some (⟨h, w.held ++ [.buf q]⟩, 0)
  | .destroy i => do
    let p ← w.bufOf i
    let h ← destroy w.heap p
    some (⟨h, w.held.set i .gone⟩, 0)
  | .data i => do
    let p ← w.bufOf i
    let (a, _) ← load w.heap p
    some (⟨w.heap, w.held ++ [.ptr a]⟩, 0)
  | .close i => do
    let p ← w.bufOf i
    let (h, a) ← close w.heap p
    some (⟨h, w.held.set i .gone ++ [.str a]⟩, 0)
  | .text t =>
    let r := alloc w.heap (.arr (t.map some))
    some (⟨r.1, w.held ++ [.str r.2]⟩, 0)
  | .freeText k =>
    match w.held[k]? with
    | some (.str a) => do
      let h ← free w.heap a
      some (⟨h, w.held.set k .gone⟩, 0)
    | _ => none
  | .append i k off length => do
    let p ← w.bufOf i
    let a ← w.arrOf k
    let h ← append w.heap p a off length
    some (⟨h, w.held⟩, 0)
  | .set i k off length => do
    let p ← w.bufOf i
    let a ← w.arrOf k
    let h ← set w.heap p a off length
    some (⟨h, w.held⟩, 0)
  | .appendString i k off => do
    let p ← w.bufOf i
    let a ← w.arrOf k
    let h ← appendString w.heap p a off
    some (⟨h, w.held⟩, 0)
  | .appendChar i c => do
    let p ← w.bufOf i
    let h ← own w.heap p (Buffer.appendChar · c)
    some (⟨h, w.held⟩, 0)
  | .clear i => do
    let p ← w.bufOf i
    let h ← own w.heap p Buffer.clear
    some (⟨h, w.held⟩, 0)
  | .trim i max => do
    let p ← w.bufOf i
    let h ← own w.heap p (Buffer.trimToMaxLength · max)
    some (⟨h, w.held⟩, 0)
  | .setMode i c => do
    let p ← w.bufOf i
    let h ← own w.heap p (Buffer.setMode · (if c then .cstring else .bytearray))
    some (⟨h, w.held⟩, 0)
  | .appendF i t => do
    let p ← w.bufOf i
    let h ← own w.heap p (Buffer.appendF · t)
    some (⟨h, w.held⟩, 0)
  | .printf i t => do
    let p ← w.bufOf i
    let h ← own w.heap p (Buffer.printf · t)
    some (⟨h, w.held⟩, t.length)
  | .filter i keep inv => do
    let p ← w.bufOf i
    let (h, q) ← filter w.heap p keep inv
    some (⟨h, w.held ++ [.buf q]⟩, 0)
  | .rewrite i keep inv => do
    let p ← w.bufOf i
    let h ← rewrite w.heap p keep inv
    some (⟨h, w.held⟩, 0)
  | .size i => do
    let p ← w.bufOf i
    let (_, b) ← load w.heap p
    some (w, b.used)
  | .read k off => do
    let a ← w.arrOf k
    let cells ← arrAt w.heap a
    let c ← CMem.get cells off
    some (w, c.toNat)

/-- A program, with what its calls return. -/
def run : World → List Op → Option (World × List Nat)
  | w, [] => some (w, [])
  | w, o :: os => do
    let (w, x) ← step w o
    let (w, xs) ← run w os
    some (w, x :: xs)

/-- Nothing allocated, nothing held. -/
def init : World := ⟨⟨fun _ => none, 0⟩, []⟩

end BufHeap
