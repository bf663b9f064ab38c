import Verif.Model.JsonWriteHeap
/-! # Model of `JsonWrite` and `JsonWriteCompact` (libutils/json.c) as the single accesses to memory they make

For several threads that write documents at the same time. An access is to an element or a string (a block that writing never changes), to the length of an array of children, or to one pointer in such an array. Every access is one
step, and steps of threads may come in any order (as on a machine that stores pointers in one piece; a C compiler may do worse, as these accesses are unsynchronised). Each thread has a Writer of its own, which is not modelled. -/
namespace JsonHeap
open Json

/-- What a thread has yet to do, ending with a result. -/
inductive Prog (α : Type)
  | ret (a : α)
  /-- Read an element or a string. -/
  | cell (a : Nat) (k : Cell → Prog α)
  /-- Read the length of an array of children. -/
  | len (s : Nat) (k : Nat → Prog α)
  /-- Read a pointer in an array of children. -/
  | slot (s i : Nat) (k : Nat → Prog α)
  /-- Store a pointer in an array of children. -/
  | put (s i v : Nat) (k : Prog α)
  /-- A failed assertion, or a block of the wrong kind. -/
  | fail

/-- One after the other. -/
def Prog.bind {α β : Type} : Prog α → (α → Prog β) → Prog β
  | .ret a, f => f a
  | .cell a k, f => .cell a fun c => (k c).bind f
  | .len s k, f => .len s fun n => (k n).bind f
  | .slot s i k, f => .slot s i fun x => (k x).bind f
  | .put s i v k, f => .put s i v (k.bind f)
  | .fail, _ => .fail

/-- The next access of a thread (none: undefined). A thread that has ended stays as it is. -/
def Prog.step {α : Type} (h : Heap) : Prog α → Option (Heap × Prog α)
  | .ret a => some (h, .ret a)
  | .cell a k =>
    match h.cell a with
    | some (.seq _) => none
    | some c => some (h, k c)
    | none => none
  | .len s k => (getSeq h s).map fun xs => (h, k xs.length)
  | .slot s i k => (getSeq h s).bind fun xs => xs[i]?.map fun x => (h, k x)
  | .put s i v k => (getSeq h s).bind fun xs => if i < xs.length then (store h s (.seq (xs.set i v))).map fun h => (h, k) else none
  | .fail => none

/-- The name of an element: its pointer, then the text. -/
def nameP (x : Nat) : Prog Bytes :=
  .cell x fun c =>
    match c with
    | .elem (some n) _ => .cell n fun c =>
      match c with
      | .str b => .ret b
      | _ => .fail
    | _ => .fail

/-- `JsonElementPropertyCompare` (json.c:1646-1657). -/
def compareP (x y : Nat) : Prog Int := (nameP x).bind fun a => (nameP y).bind fun b => .ret (Str.cmpSign id a b)

/-- `while (Compare(*l, pivot) < 0) ++l;` (sequence.c:265-268). -/
def scanUpP (s pivot : Nat) : Nat → Nat → Prog Nat
  | 0, _ => .fail
  | n + 1, l => .slot s l fun x => (compareP x pivot).bind fun c => if c < 0 then scanUpP s pivot n (l + 1) else .ret l

/-- `while (Compare(*r, pivot) > 0) --r;` (sequence.c:269-272); the argument is `r + 1`. -/
def scanDownP (s pivot : Nat) : Nat → Nat → Prog Nat
  | 0, _ => .fail
  | _ + 1, 0 => .fail
  | n + 1, r + 1 => .slot s r fun x => (compareP x pivot).bind fun c => if c > 0 then scanDownP s pivot n r else .ret (r + 1)

/-- `Swap` (sequence.c:243-249): two reads, two stores. -/
def swapP (s l r : Nat) (k : Prog α) : Prog α := .slot s l fun t => .slot s r fun u => .put s l u (.put s r t k)

/-- The loop `while (l <= r)` (sequence.c:263-279); `r1` is `r + 1`. The bound of the scans is above every length a scan can go through without leaving the array. -/
def partitionP (s pivot bound : Nat) : Nat → Nat → Nat → Prog (Nat × Nat)
  | 0, _, _ => .fail
  | n + 1, l, r1 =>
    if l < r1 then
      (scanUpP s pivot bound l).bind fun l => (scanDownP s pivot bound r1).bind fun r1 =>
        if l < r1 then swapP s l (r1 - 1) (partitionP s pivot bound n (l + 1) (r1 - 1)) else partitionP s pivot bound n l r1
    else .ret (l, r1)

/-- `QuickSortRecursive` (sequence.c:252-283) on the `n` pointers starting at `off`. -/
def quickSortP (s bound : Nat) : Nat → Nat → Nat → Prog Unit
  | 0, _, _ => .fail
  | fuel + 1, off, n =>
    if n < 2 then .ret ()
    else .slot s (off + n / 2) fun pivot => (partitionP s pivot bound (n + 2) off (off + n)).bind fun lr =>
      (quickSortP s bound fuel off (lr.2 - off)).bind fun _ => quickSortP s bound fuel lr.1 (off + n - lr.1)

/-- `JsonSort` (json.c:805-815), `SeqSort` (sequence.c:285-289). -/
def sortP (s : Nat) : Prog Unit := .len s fun n => quickSortP s (n + 2) (n + 1) 0 n

/-- The loop over the children of an array (json.c:1616-1643, 1799-1817). -/
def eachP (w : Nat → Prog Bytes) (s : Nat) : Nat → Nat → Prog (List Bytes)
  | 0, _ => .ret []
  | n + 1, i => .slot s i fun x => (w x).bind fun t => (eachP w s n (i + 1)).bind fun ts => .ret (t :: ts)

/-- The loop over the children of an object (json.c:1708-1736, 1840-1863). -/
def eachNamedP (w : Nat → Prog Bytes) (s : Nat) : Nat → Nat → Prog (List (Bytes × Bytes))
  | 0, _ => .ret []
  | n + 1, i => .slot s i fun x => (nameP x).bind fun k => (w x).bind fun t => (eachNamedP w s n (i + 1)).bind fun ts => .ret ((k, t) :: ts)

/-- The text of a primitive. -/
def textP : SPtr → Prog Bytes
  | .lit b => .ret b
  | .at a => .cell a fun c =>
    match c with
    | .str b => .ret b
    | _ => .fail

/-- `JsonContainerWrite` (json.c:1735-1752) and `JsonContainerWriteCompact` (1868-1883) with what they call, the depth of the calls bounded by the first argument; a primitive without indentation. -/
def writeP (st : Style) : Nat → Nat → Nat → Prog Bytes
  | 0, _, _ => .fail
  | n + 1, lvl, e => .cell e fun c =>
    match c with
    | .elem _ (.prim t v) => (textP v).bind fun b => .ret (primText t b)
    | .elem _ (.cont .array s) => .len s fun len => (eachP (writeP st n (lvl + 1)) s len 0).bind fun ts => .ret (st.array lvl ts)
    | .elem _ (.cont .object s) => (sortP s).bind fun _ => .len s fun len => (eachNamedP (writeP st n (lvl + 1)) s len 0).bind fun ts => .ret (st.object lvl ts)
    | _ => .fail

/-- `JsonWrite` (json.c:1754-1775): a primitive is indented. -/
def jsonWriteP (fuel e lvl : Nat) : Prog Bytes := .cell e fun c =>
  match c with
  | .elem _ (.prim t v) => (textP v).bind fun b => .ret (indent lvl ++ primText t b)
  | .elem _ (.cont ..) => writeP pretty fuel lvl e
  | _ => .fail

/-- `JsonWriteCompact` (json.c:1885-1903). -/
def jsonWriteCompactP (fuel e : Nat) : Prog Bytes := writeP compact fuel 0 e

/-- Threads that take steps in the order of the schedule. -/
def runThreads {α : Type} : List Nat → Heap → List (Prog α) → Option (Heap × List (Prog α))
  | [], h, ps => some (h, ps)
  | i :: sched, h, ps =>
    match ps[i]? with
    | none => runThreads sched h ps
    | some p => (p.step h).bind fun r => runThreads sched r.1 (ps.set i r.2)

end JsonHeap
