import Verif.Model.Mem
/-! # Model of libutils/sequence.c -/
namespace Seqn

/-- `struct Seq_` (sequence.h). `P` is the type of the stored pointers; `data` has `capacity` cells. -/
structure Seq (P : Type) where
  hasDestroy : Bool
  data : List (Option P)
  length : Nat
  capacity : Nat

/-- `SeqItemComparator` without its user data; only the sign matters. -/
abbrev Cmp (P : Type) := P → P → Int

/-- `SeqNew` (sequence.c:31-46). -/
def new {P : Type} (initialCapacity : Nat) (hasDestroy : Bool) : Seq P :=
  let cap := if initialCapacity ≤ 0 then 1 else initialCapacity
  { hasDestroy, data := List.replicate cap none, length := 0, capacity := cap }

/-- `DestroyRange` (sequence.c:48-58): inclusive range; returns what is handed to the destructor. -/
def destroyRange {P : Type} (s : Seq P) (start stop : Nat) : Option (List P) :=
  if s.hasDestroy then CMem.getRange s.data start (stop + 1 - start) else some []

/-- `SeqDestroy` (sequence.c:60-70). -/
def destroy {P : Type} (s : Seq P) : Option (List P) :=
  if s.length > 0 then destroyRange s 0 (s.length - 1) else some []

/-- `ExpandIfNeccessary` (sequence.c:81-91), including its assertion `length <= capacity`. -/
def expand {P : Type} (s : Seq P) : Option (Seq P) :=
  if s.length ≤ s.capacity then
    if s.length = s.capacity then
      some { s with capacity := s.capacity * 2, data := CMem.realloc s.data (s.capacity * 2) }
    else some s
  else none

/-- `SeqSet` (sequence.c:99-108). -/
def set {P : Type} (s : Seq P) (index : Nat) (item : P) : Option (Seq P × List P) :=
  if index < s.length then do
    let d ← if s.hasDestroy then (CMem.get s.data index).map ([·]) else some []
    let data ← CMem.write s.data index (some item)
    some ({ s with data := data }, d)
  else none

/-- `SeqAppend` (sequence.c:110-117). -/
def append {P : Type} (s : Seq P) (item : P) : Option (Seq P) := do
  let s ← expand s
  let data ← CMem.write s.data s.length (some item)
  some { s with data := data, length := s.length + 1 }

/-- `SeqAt` (sequence.h): element `i`. -/
def at_ {P : Type} (s : Seq P) (i : Nat) : Option P := CMem.get s.data i

/-- The search loop of `SeqLookup`/`SeqIndexOf` (sequence.c:170-176, 198-204) from index `i`, `n` iterations left. -/
def findLoop {P : Type} (cmp : Cmp P) (key : P) (data : List (Option P)) : Nat → Nat → Option (Option Nat)
  | _, 0 => some none
  | i, n + 1 => do
    let x ← CMem.get data i
    if cmp key x = 0 then some (some i) else findLoop cmp key data (i + 1) n

/-- `SeqLookup` (sequence.c:167-179): the element found, or NULL. -/
def lookup {P : Type} (cmp : Cmp P) (s : Seq P) (key : P) : Option (Option P) := do
  match ← findLoop cmp key s.data 0 s.length with
  | none => some none
  | some i => (CMem.get s.data i).map some

/-- `SeqIndexOf` (sequence.c:195-207). -/
def indexOf {P : Type} (cmp : Cmp P) (s : Seq P) (key : P) : Option Int := do
  match ← findLoop cmp key s.data 0 s.length with
  | none => some (-1)
  | some i => some (Int.ofNat i)

/-- `SeqAppendOnce` (sequence.c:119-134); the destroyed items are returned. -/
def appendOnce {P : Type} (cmp : Cmp P) (s : Seq P) (item : P) : Option (Seq P × List P) := do
  match ← lookup cmp s item with
  | none => (append s item).map (·, [])
  | some _ => some (s, if s.hasDestroy then [item] else [])

/-- The loop of `SeqAppendSeq` (sequence.c:138-141): indexes `i … i+n-1` of `items` (`items` is a different sequence). -/
def appendSeqLoop {P : Type} (items : Seq P) : Seq P → Nat → Nat → Option (Seq P)
  | s, _, 0 => some s
  | s, i, n + 1 => do
    let x ← at_ items i
    let s ← append s x
    appendSeqLoop items s (i + 1) n

/-- `SeqAppendSeq` (sequence.c:136-142) for `seq != items` (with `seq == items` the C loop never ends). -/
def appendSeq {P : Type} (s items : Seq P) : Option (Seq P) := appendSeqLoop items s 0 items.length

/-- `SeqSoftRemoveRange` (sequence.c:304-318), with its assertions. -/
def softRemoveRange {P : Type} (s : Seq P) (start stop : Nat) : Option (Seq P) :=
  if stop < s.length ∧ start ≤ stop then do
    let restLen := s.length - stop - 1
    let data ← if restLen > 0 then CMem.memmove s.data start (stop + 1) restLen else some s.data
    some { s with data := data, length := s.length - (stop - start + 1) }
  else none

/-- `SeqRemoveRange` (sequence.c:144-160), with its assertions. -/
def removeRange {P : Type} (s : Seq P) (start stop : Nat) : Option (Seq P × List P) :=
  if stop < s.length ∧ start ≤ stop then do
    let d ← destroyRange s start stop
    let restLen := s.length - stop - 1
    let data ← if restLen > 0 then CMem.memmove s.data start (stop + 1) restLen else some s.data
    some ({ s with data := data, length := s.length - (stop - start + 1) }, d)
  else none

/-- `SeqRemove` (sequence.c:162-165). -/
def remove {P : Type} (s : Seq P) (index : Nat) : Option (Seq P × List P) := removeRange s index index

/-- `SeqSoftRemove` (sequence.c:328-331). -/
def softRemove {P : Type} (s : Seq P) (index : Nat) : Option (Seq P) := softRemoveRange s index index

/-- `SeqClear` (sequence.c:320-326). -/
def clear {P : Type} (s : Seq P) : Option (Seq P × List P) :=
  if s.length > 0 then removeRange s 0 (s.length - 1) else some (s, [])

/-- The loop of `SeqBinaryIndexOf` (sequence.c:220-237). `fuel` bounds the iterations; running out is reported as a
failure. -/
def binLoop {P : Type} (cmp : Cmp P) (key : P) (data : List (Option P)) : Nat → Nat → Nat → Option Int
  | 0, _, _ => none
  | fuel + 1, low, high =>
    if low < high then do
      let middle := low + ((high - low) >>> 1)
      let x ← CMem.get data middle
      let result := cmp key x
      if result = 0 then some (Int.ofNat middle)
      else if result > 0 then binLoop cmp key data fuel (middle + 1) high
      else binLoop cmp key data fuel low middle
    else some (-1)

/-- `SeqBinaryIndexOf` (sequence.c:209-241). -/
def binaryIndexOf {P : Type} (cmp : Cmp P) (s : Seq P) (key : P) : Option Int :=
  if s.length = 0 then some (-1) else binLoop cmp key s.data (s.length + 1) 0 s.length

/-- `SeqBinaryLookup` (sequence.c:181-193). -/
def binaryLookup {P : Type} (cmp : Cmp P) (s : Seq P) (key : P) : Option (Option P) := do
  let index ← binaryIndexOf cmp s key
  if index = -1 then some none else (CMem.get s.data index.toNat).map some

/-- `Swap` (sequence.c:243-249) of two cells of one array. -/
def swap {P : Type} (data : List (Option P)) (l r : Nat) : Option (List (Option P)) := do
  let t ← CMem.get data l
  let u ← CMem.get data r
  let data ← CMem.write data l (some u)
  CMem.write data r (some t)

/-- `while (Compare(*l, pivot) < 0) ++l;` (sequence.c:265-268). -/
def scanUp {P : Type} (cmp : Cmp P) (data : List (Option P)) (pivot : P) : Nat → Nat → Option Nat
  | 0, _ => none
  | fuel + 1, l => do
    let x ← CMem.get data l
    if cmp x pivot < 0 then scanUp cmp data pivot fuel (l + 1) else some l

/-- `while (Compare(*r, pivot) > 0) --r;` (sequence.c:269-272); the argument is `r + 1`, so `0` reads before the array. -/
def scanDown {P : Type} (cmp : Cmp P) (data : List (Option P)) (pivot : P) : Nat → Nat → Option Nat
  | 0, _ => none
  | _ + 1, 0 => none
  | fuel + 1, r + 1 => do
    let x ← CMem.get data r
    if cmp x pivot > 0 then scanDown cmp data pivot fuel r else some (r + 1)

/-- The partition loop `while (l <= r)` (sequence.c:263-279); `r1` is `r + 1`. Result: data, `l`, `r + 1`. -/
def partition {P : Type} (cmp : Cmp P) (pivot : P) :
    Nat → List (Option P) → Nat → Nat → Option (List (Option P) × Nat × Nat)
  | 0, _, _, _ => none
  | fuel + 1, data, l, r1 =>
    if l < r1 then do
      let l ← scanUp cmp data pivot (data.length + 1) l
      let r1 ← scanDown cmp data pivot (data.length + 1) r1
      if l < r1 then
        let data ← swap data l (r1 - 1)
        partition cmp pivot fuel data (l + 1) (r1 - 1)
      else partition cmp pivot fuel data l r1
    else some (data, l, r1)

/-- `QuickSortRecursive` (sequence.c:252-283) on the `n` cells starting at `off`. Simplification: the C parameter `n` is an
`int`, so the model describes sequences of at most INT_MAX elements. -/
def quickSort {P : Type} (cmp : Cmp P) : Nat → List (Option P) → Nat → Nat → Option (List (Option P))
  | 0, _, _, _ => none
  | fuel + 1, data, off, n =>
    if n < 2 then some data
    else do
      let pivot ← CMem.get data (off + n / 2)
      let (data, l, r1) ← partition cmp pivot (n + 2) data off (off + n)
      let data ← quickSort cmp fuel data off (r1 - off)
      quickSort cmp fuel data l (off + n - l)

/-- `SeqSort` (sequence.c:285-289). -/
def sort {P : Type} (cmp : Cmp P) (s : Seq P) : Option (Seq P) := do
  let data ← quickSort cmp (s.length + 1) s.data 0 s.length
  some { s with data := data }

/-- The loop of `SeqGetRange` (sequence.c:400-404). -/
def getRangeLoop {P : Type} (s : Seq P) : Seq P → Nat → Nat → Option (Seq P)
  | sub, _, 0 => some sub
  | sub, i, n + 1 =>
    if i < s.length then do
      let x ← at_ s i
      let sub ← append sub x
      getRangeLoop s sub (i + 1) n
    else none

/-- `SeqGetRange` (sequence.c:389-407): NULL for an invalid range. -/
def getRange {P : Type} (s : Seq P) (start stop : Nat) : Option (Option (Seq P)) :=
  if start > stop ∨ start ≥ s.length ∨ stop ≥ s.length then some none
  else (getRangeLoop s (new (stop - start + 1) s.hasDestroy) start (stop + 1 - start)).map some

/-- `SeqSoftSort` (sequence.c:291-302). The C code passes the result of `SeqGetRange` on: a NULL would be dereferenced. -/
def softSort {P : Type} (cmp : Cmp P) (s : Seq P) : Option (Seq P) :=
  if s.length = 0 then some (new 0 false)
  else do
    match ← getRange s 0 (s.length - 1) with
    | none => none
    | some sorted => sort cmp sorted

/-- The loop of `SeqReverse` (sequence.c:336-339): `n` iterations left, starting with index `i`. -/
def reverseLoop {P : Type} (len : Nat) : List (Option P) → Nat → Nat → Option (List (Option P))
  | data, _, 0 => some data
  | data, i, n + 1 => do
    let data ← swap data i (len - 1 - i)
    reverseLoop len data (i + 1) n

/-- `SeqReverse` (sequence.c:333-340). -/
def reverse {P : Type} (s : Seq P) : Option (Seq P) := do
  let data ← reverseLoop s.length s.data 0 (s.length / 2)
  some { s with data := data }

/-- `SeqSplit` (sequence.c:342-358), with its assertions. Returns the shortened sequence and the split-off tail. -/
def split {P : Type} (s : Seq P) (index : Nat) : Option (Seq P × Seq P) :=
  if index ≤ s.length then
    if index ≥ s.length then some (s, new 1 s.hasDestroy)
    else do
      match ← getRange s index (s.length - 1) with
      | none => none
      | some ret =>
        let s ← softRemoveRange s index (s.length - 1)
        some (s, ret)
  else none

/-- The loop of `SeqShuffle` (sequence.c:378-383) for `i, i-1, …, 1`; `rnd i` is the value of `rand()` at step `i`. -/
def shuffleLoop {P : Type} (rnd : Nat → Nat) : List (Option P) → Nat → Option (List (Option P))
  | data, 0 => some data
  | data, i + 1 => do
    let data ← swap data (i + 1) (rnd (i + 1) % (i + 1 + 1))
    shuffleLoop rnd data i

/-- `SeqShuffle` (sequence.c:366-387); the random generator is a parameter. -/
def shuffle {P : Type} (rnd : Nat → Nat) (s : Seq P) : Option (Seq P) :=
  if s.length = 0 then some s
  else do
    let data ← shuffleLoop rnd s.data (s.length - 1)
    some { s with data := data }

/-- The loop of `SeqRemoveNulls` (sequence.c:421-434): `n` iterations left. -/
def removeNullsLoop {P : Type} (isNull : P → Bool) :
    List (Option P) → Nat → Nat → Nat → Option (List (Option P) × Nat)
  | data, _, to, 0 => some (data, to)
  | data, fr, to, n + 1 => do
    let x ← CMem.get data fr
    if isNull x then removeNullsLoop isNull data (fr + 1) to n
    else
      let data ← CMem.write data to (some x)
      removeNullsLoop isNull data (fr + 1) (to + 1) n

/-- `SeqRemoveNulls` (sequence.c:415-436) (with `int` indexes: sequences of at most INT_MAX elements). -/
def removeNulls {P : Type} (isNull : P → Bool) (s : Seq P) : Option (Seq P) := do
  let (data, to) ← removeNullsLoop isNull s.data 0 0 s.length
  some { s with data := data, length := to }

end Seqn
