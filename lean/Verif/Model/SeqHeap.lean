import Verif.Model.Seq
/-!
# Several sequences in one memory (libutils/sequence.c)

The functions of `Verif.Model.Seq` on a heap: a sequence is a pointer to its `struct Seq_`, which points to the array of item pointers. Items are
numbers, NULL is 0. A use of memory that is not allocated is undefined behaviour (`none`). Addresses are not used again after `free`; `xrealloc` always
moves. A function that only works inside one sequence is written as reading the sequence, the function of `Verif.Model.Seq`, and writing it back.
-/
namespace SeqHeap
open Seqn (Seq Cmp)

/-- `struct Seq_` (sequence.h:49-55); `data` is an address. -/
structure Hdr where
  data : Nat
  length : Nat
  capacity : Nat
  hasDestroy : Bool

/-- What an allocation holds. -/
inductive Block
  | hdr (h : Hdr)
  | cells (c : List (Option Nat))

/-- Memory, and the items handed to the destructor so far. -/
structure Heap where
  mem : Nat → Option Block
  next : Nat
  destroyed : List Nat

/-- Change of one address. -/
def upd (m : Nat → Option Block) (a : Nat) (b : Option Block) : Nat → Option Block := fun x => if x = a then b else m x

/-- `xmalloc`, `xcalloc`. -/
def alloc (h : Heap) (b : Block) : Heap × Nat := ({ h with mem := upd h.mem h.next (some b), next := h.next + 1 }, h.next)

/-- `free`. -/
def free (h : Heap) (a : Nat) : Option Heap :=
  match h.mem a with
  | none => none
  | some _ => some { h with mem := upd h.mem a none }

/-- Reading the structure at `p`. -/
def hdr (h : Heap) (p : Nat) : Option Hdr :=
  match h.mem p with
  | some (.hdr x) => some x
  | _ => none

/-- Reading the array at `a`. -/
def cells (h : Heap) (a : Nat) : Option (List (Option Nat)) :=
  match h.mem a with
  | some (.cells c) => some c
  | _ => none

/-- Writing the structure at `p`. -/
def setHdr (h : Heap) (p : Nat) (x : Hdr) : Option Heap := do
  let _ ← hdr h p
  some { h with mem := upd h.mem p (some (.hdr x)) }

/-- Writing the array at `a`. -/
def setCells (h : Heap) (a : Nat) (c : List (Option Nat)) : Option Heap := do
  let _ ← cells h a
  some { h with mem := upd h.mem a (some (.cells c)) }

/-- The sequence at `p`. -/
def load (h : Heap) (p : Nat) : Option (Seq Nat) := do
  let x ← hdr h p
  let c ← cells h x.data
  some { hasDestroy := x.hasDestroy, data := c, length := x.length, capacity := x.capacity }

/-- A function working inside the sequence at `p`: the array and the length are written back, what it gives to the destructor is recorded. -/
def inPlace (h : Heap) (p : Nat) (f : Seq Nat → Option (Seq Nat × List Nat)) : Option Heap := do
  let s ← load h p
  let (s', d) ← f s
  let x ← hdr h p
  let h ← setCells h x.data s'.data
  let h ← setHdr h p { x with length := s'.length }
  some { h with destroyed := h.destroyed ++ d }

/-- `SeqNew` (sequence.c:31-46). -/
def new (h : Heap) (initialCapacity : Nat) (hasDestroy : Bool) : Option (Heap × Nat) := do
  let cap := if initialCapacity ≤ 0 then 1 else initialCapacity
  let (h, p) := alloc h (.hdr ⟨0, 0, 0, false⟩)
  let (h, d) := alloc h (.cells (List.replicate cap none))
  let h ← setHdr h p ⟨d, 0, cap, hasDestroy⟩
  some (h, p)

/-- `SeqSoftDestroy` (sequence.c:72-79). -/
def softDestroy (h : Heap) (p : Nat) : Option Heap := do
  let x ← hdr h p
  let h ← free h x.data
  free h p

/-- `SeqDestroy` (sequence.c:60-70). -/
def destroy (h : Heap) (p : Nat) : Option Heap := do
  let s ← load h p
  let d ← Seqn.destroy s
  softDestroy { h with destroyed := h.destroyed ++ d } p

/-- `ExpandIfNeccessary` (sequence.c:81-91): `xrealloc` is a new array and the old one freed. -/
def expand (h : Heap) (p : Nat) : Option Heap := do
  let x ← hdr h p
  if x.length ≤ x.capacity then
    if x.length = x.capacity then do
      let c ← cells h x.data
      let (h, d) := alloc h (.cells (CMem.realloc c (x.capacity * 2)))
      let h ← free h x.data
      setHdr h p { x with capacity := x.capacity * 2, data := d }
    else some h
  else none

/-- `SeqAppend` (sequence.c:110-117). -/
def append (h : Heap) (p : Nat) (item : Nat) : Option Heap := do
  let h ← expand h p
  let x ← hdr h p
  let c ← cells h x.data
  let c ← CMem.write c x.length (some item)
  let h ← setCells h x.data c
  setHdr h p { x with length := x.length + 1 }

/-- `SeqAppendOnce` (sequence.c:119-134): a NULL item that is found looks like nothing found. -/
def appendOnce (cmp : Cmp Nat) (h : Heap) (p : Nat) (item : Nat) : Option Heap := do
  let s ← load h p
  match ← Seqn.lookup cmp s item with
  | none => append h p item
  | some 0 => append h p item
  | some (_ + 1) => some (if s.hasDestroy then { h with destroyed := h.destroyed ++ [item] } else h)

/-- `SeqAppendSeq` (sequence.c:136-142): the length of `items` is read again in every round; `some none` when the loop is still running after `fuel`
rounds. -/
def appendSeqLoop (p items : Nat) : Nat → Heap → Nat → Option (Option Heap)
  | 0, _, _ => some none
  | fuel + 1, h, i => do
    let s ← load h items
    if i < s.length then do
      let x ← Seqn.at_ s i
      let h ← append h p x
      appendSeqLoop p items fuel h (i + 1)
    else some (some h)

/-- The loop of `SeqGetRange` (sequence.c:400-404). -/
def getRangeLoop (p sub : Nat) : Heap → Nat → Nat → Option Heap
  | h, _, 0 => some h
  | h, i, n + 1 => do
    let s ← load h p
    if i < s.length then do
      let x ← Seqn.at_ s i
      let h ← append h sub x
      getRangeLoop p sub h (i + 1) n
    else none

/-- `SeqGetRange` (sequence.c:389-407): `none` inside is NULL. -/
def getRange (h : Heap) (p start stop : Nat) : Option (Heap × Option Nat) := do
  let s ← load h p
  if start > stop ∨ start ≥ s.length ∨ stop ≥ s.length then some (h, none)
  else do
    let (h, sub) ← new h (stop - start + 1) s.hasDestroy
    let h ← getRangeLoop p sub h start (stop + 1 - start)
    some (h, some sub)

/-- `SeqSoftSort` (sequence.c:291-302). -/
def softSort (cmp : Cmp Nat) (h : Heap) (p : Nat) : Option (Heap × Nat) := do
  let s ← load h p
  if s.length = 0 then new h 0 false
  else do
    let (h, sorted) ← getRange h p 0 (s.length - 1)
    match sorted with
    | none => none
    | some q => do
      let h ← inPlace h q fun s => (Seqn.sort cmp s).map (·, [])
      some (h, q)

/-- `SeqSplit` (sequence.c:342-358), with its assertions. -/
def split (h : Heap) (p index : Nat) : Option (Heap × Nat) := do
  let s ← load h p
  if index ≤ s.length then
    if index ≥ s.length then new h 1 s.hasDestroy
    else do
      let (h, ret) ← getRange h p index (s.length - 1)
      match ret with
      | none => none
      | some q => do
        let h ← inPlace h p fun s => (Seqn.softRemoveRange s index (s.length - 1)).map (·, [])
        some (h, q)
  else none

/-- The calls of a program; `i`, `j` say which of the sequences it holds. -/
inductive Op
  | new (capacity : Nat) (hasDestroy : Bool)
  | append (i x : Nat)
  | appendOnce (i x : Nat)
  | appendSeq (i j : Nat)
  | set (i k x : Nat)
  | removeRange (i a b : Nat)
  | softRemoveRange (i a b : Nat)
  | clear (i : Nat)
  | sort (i : Nat)
  | reverse (i : Nat)
  | removeNulls (i : Nat)
  | split (i k : Nat)
  | getRange (i a b : Nat)
  | softSort (i : Nat)
  | destroy (i : Nat)
  | softDestroy (i : Nat)

/-- Memory and the sequences the program holds, oldest first. -/
structure World where
  heap : Heap
  held : List Nat

/-- One call. A call with a sequence not held is not a program. -/
def step (cmp : Cmp Nat) (w : World) : Op → Option World
  | .new c d => do
    let (h, p) ← new w.heap c d
    some ⟨h, w.held ++ [p]⟩
  | .append i x => do
    let p ← w.held[i]?
    let h ← append w.heap p x
    some { w with heap := h }
  | .appendOnce i x => do
    let p ← w.held[i]?
    let h ← appendOnce cmp w.heap p x
    some { w with heap := h }
  | .appendSeq i j => do
    let p ← w.held[i]?
    let q ← w.held[j]?
    let s ← load w.heap q
    let h ← (← appendSeqLoop p q (s.length + 1) w.heap 0)
    some { w with heap := h }
  | .set i k x => do
    let p ← w.held[i]?
    let h ← inPlace w.heap p fun s => Seqn.set s k x
    some { w with heap := h }
  | .removeRange i a b => do
    let p ← w.held[i]?
    let h ← inPlace w.heap p fun s => Seqn.removeRange s a b
    some { w with heap := h }
  | .softRemoveRange i a b => do
    let p ← w.held[i]?
    let h ← inPlace w.heap p fun s => (Seqn.softRemoveRange s a b).map (·, [])
    some { w with heap := h }
  | .clear i => do
    let p ← w.held[i]?
    let h ← inPlace w.heap p Seqn.clear
    some { w with heap := h }
  | .sort i => do
    let p ← w.held[i]?
    let h ← inPlace w.heap p fun s => (Seqn.sort cmp s).map (·, [])
    some { w with heap := h }
  | .reverse i => do
    let p ← w.held[i]?
    let h ← inPlace w.heap p fun s => (Seqn.reverse s).map (·, [])
    some { w with heap := h }
  | .removeNulls i => do
    let p ← w.held[i]?
    let h ← inPlace w.heap p fun s => (Seqn.removeNulls (· == 0) s).map (·, [])
    some { w with heap := h }
  | .split i k => do
    let p ← w.held[i]?
    let (h, q) ← split w.heap p k
    some ⟨h, w.held ++ [q]⟩
  | .getRange i a b => do
    let p ← w.held[i]?
    let (h, q) ← getRange w.heap p a b
    some ⟨h, w.held ++ q.toList⟩
  | .softSort i => do
    let p ← w.held[i]?
    let (h, q) ← softSort cmp w.heap p
    some ⟨h, w.held ++ [q]⟩
  | .destroy i => do
    let p ← w.held[i]?
    let h ← destroy w.heap p
    some ⟨h, w.held.eraseIdx i⟩
  | .softDestroy i => do
    let p ← w.held[i]?
    let h ← softDestroy w.heap p
    some ⟨h, w.held.eraseIdx i⟩

/-- A program. -/
def run (cmp : Cmp Nat) : World → List Op → Option World
  | w, [] => some w
  | w, o :: os => do
    let w ← step cmp w o
    run cmp w os

/-- Nothing allocated, nothing held. -/
def init : World := ⟨⟨fun _ => none, 0, []⟩, []⟩

end SeqHeap
