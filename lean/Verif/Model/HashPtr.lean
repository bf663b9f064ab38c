import Verif.Model.Map
/-!
# Model of libutils/hash_map.c with its memory: the bucket array, the items and their `next` pointers

`Model/Map.lean` models a bucket as a list. Here a bucket is a slot of an array in memory that points to a chain of items.
An address is a number and NULL is 0. Memory maps an address to the block allocated there; `none` is no block. An access to an
address without a block, or with a block of another kind, is undefined behaviour (`none`), and so is a loop that does not end
within as many rounds as the map has items. Simplified: the `HashMap` structure itself is a value, not a block; a block is
reached by its first address only; `xcalloc` never fails (alloc.c exits).
-/
namespace HashPtr
open CMem
open CMap (Fns Destroyed getBucket maxThr minThr MAX_BUCKETS MIN_BUCKETS)

/-- A block: `BucketListItem` (hash_map_priv.h:32-36; `pay` is `value`, `none` while the key and value are NULL), an array of
bucket heads (hash_map_priv.h:44), or something that is not the map's. -/
inductive Cell (P : Type) where
  | item (next : Nat) (pay : Option P)
  | arr (slots : List Nat)
  | other (x : Nat)

/-- Memory (hash_map_priv.h:32-49 are the blocks of the map in it). -/
abbrev Heap (P : Type) := Nat → Option (Cell P)

/-- The addresses in use, which is what `malloc` looks at (alloc.c:47-50). -/
def alive {P : Type} (h : Heap P) (a : Nat) : Bool := (h a).isSome

/-- Replace the block at `a`; used for the assignments and allocations of hash_map.c:57-302. -/
def upd {P : Type} (h : Heap P) (a : Nat) (c : Option (Cell P)) : Heap P := fun x => if x = a then c else h x

/-- `item->next` (hash_map.c:96,113,153,160,181,194,277,326) -/
def getNext {P : Type} (h : Heap P) (a : Nat) : Option Nat :=
  match h a with
  | some (.item n _) => some n
  | _ => none

/-- `item->value` (hash_map.c:97,115,157,183); reading it before it is set is undefined behaviour. -/
def getPay {P : Type} (h : Heap P) (a : Nat) : Option P :=
  match h a with
  | some (.item _ p) => p
  | _ => none

/-- `item->next = n` (hash_map.c:98,131) -/
def setNext {P : Type} (h : Heap P) (a n : Nat) : Option (Heap P) :=
  match h a with
  | some (.item _ p) => some (upd h a (some (.item n p)))
  | _ => none

/-- `item->value.key = key; item->value.value = value` (hash_map.c:122-123,129-130) -/
def setPay {P : Type} (h : Heap P) (a : Nat) (p : P) : Option (Heap P) :=
  match h a with
  | some (.item n _) => some (upd h a (some (.item n (some p))))
  | _ => none

/-- `buckets[i]` (hash_map.c:92,98,113,131,151,179,222,268,310,322) -/
def getSlot {P : Type} (h : Heap P) (a i : Nat) : Option Nat :=
  match h a with
  | some (.arr s) => read s i
  | _ => none

/-- `buckets[i] = n` (hash_map.c:93,99,132,226,241) -/
def setSlot {P : Type} (h : Heap P) (a i n : Nat) : Option (Heap P) :=
  match h a with
  | some (.arr s) => do
    let s ← write s i n
    some (upd h a (some (.arr s)))
  | _ => none

/-- `free` (hash_map.c:103,161,201,214,244,254): undefined behaviour unless the block is allocated. -/
def free {P : Type} (h : Heap P) (a : Nat) : Option (Heap P) :=
  match h a with
  | some _ => some (upd h a none)
  | none => none

/-- `HashMap` (hash_map_priv.h:38-50) and the memory. -/
structure St (K V : Type) where
  h : Heap (K × V)
  buckets : Nat
  size : Nat
  initSize : Nat
  load : Nat
  maxT : Nat
  minT : Nat

/-- The number of buckets `HashMapNew` chooses (hash_map.c:46-56). -/
def startSize (initSize : Nat) : Nat :=
  let s := min (max initSize MIN_BUCKETS) MAX_BUCKETS
  if Misc.ispow2 s then s else (Misc.upperPowerOfTwo (BitVec.ofNat 64 s)).toNat

/-- `HashMapNew` (hash_map.c:35-64); `malloc` chooses the address of a new block from the addresses in use. -/
def new {K V : Type} (malloc : (Nat → Bool) → Nat) (h : Heap (K × V)) (initSize : Nat) : St K V :=
  let size := startSize initSize
  let b := malloc (alive h)
  ⟨upd h b (some (.arr (List.replicate size 0))), b, size, size, 0, maxThr size, minThr size⟩

/-- The loop that looks for an item with an equal key (hash_map.c:113-127, 179-187): its address, or NULL. -/
def findLoop {K V : Type} (f : Fns K) (key : K) (h : Heap (K × V)) : Nat → Nat → Option Nat
  | 0, _ => none
  | n + 1, cur =>
    if cur = 0 then some 0
    else do
      let p ← getPay h cur
      if f.eq p.1 key then some cur
      else do
        let nx ← getNext h cur
        findLoop f key h n nx

/-- The inner loop of `HashMapResize` (hash_map.c:94-101): `nb` is the new array. -/
def moveChain {K V : Type} (f : Fns K) (size nb : Nat) : Nat → Heap (K × V) → Nat → Option (Heap (K × V))
  | 0, _, _ => none
  | n + 1, h, item =>
    if item = 0 then some h
    else do
      let next ← getNext h item
      let p ← getPay h item
      let b ← getBucket f size p.1
      let head ← getSlot h nb b
      let h ← setNext h item head
      let h ← setSlot h nb b item
      moveChain f size nb n h next

/-- The outer loop of `HashMapResize` (hash_map.c:88-102), `n` buckets from bucket `i` of the old array `ob`. -/
def moveAll {K V : Type} (f : Fns K) (size nb ob load : Nat) : Nat → Nat → Heap (K × V) → Option (Heap (K × V))
  | 0, _, h => some h
  | n + 1, i, h => do
    let item ← getSlot h ob i
    let h ← setSlot h ob i 0
    let h ← moveChain f size nb (load + 1) h item
    moveAll f size nb ob load n (i + 1) h

/-- `HashMapResize` (hash_map.c:74-104) -/
def resize {K V : Type} (malloc : (Nat → Bool) → Nat) (f : Fns K) (s : St K V) (newSize : Nat) : Option (St K V) := do
  let nb := malloc (alive s.h)
  let h := upd s.h nb (some (.arr (List.replicate newSize 0)))
  let h ← moveAll f newSize nb s.buckets s.load s.size 0 h
  let h ← free h s.buckets
  some { s with h := h, buckets := nb, size := newSize, maxT := maxThr newSize, minT := minThr newSize }

/-- `HashMapInsert` (hash_map.c:109-140): new state, result, destructor calls. -/
def insert {K V : Type} (malloc : (Nat → Bool) → Nat) (f : Fns K) (s : St K V) (key : K) (value : V) :
    Option (St K V × Bool × Destroyed K V) := do
  let b ← getBucket f s.size key
  let head ← getSlot s.h s.buckets b
  let i ← findLoop f key s.h (s.load + 1) head
  if i ≠ 0 then do
    let old ← getPay s.h i
    let h ← setPay s.h i (key, value)
    some ({ s with h := h }, true, ⟨[old.1], [old.2]⟩)
  else do
    let i := malloc (alive s.h)
    let h := upd s.h i (some (.item 0 none))
    let h ← setPay h i (key, value)
    let head ← getSlot h s.buckets b
    let h ← setNext h i head
    let h ← setSlot h s.buckets b i
    let s := { s with h := h, load := s.load + 1 }
    if s.load > s.maxT ∧ s.size < MAX_BUCKETS then do
      let s ← resize malloc f s (s.size * 2)
      some (s, false, {})
    else some (s, false, {})

/-- Where `prev` of `HashMapRemove` points (hash_map.c:151-153): at a slot of the bucket array or at the `next` of an item. -/
inductive Ref where
  | slot (i : Nat)
  | nextOf (a : Nat)

/-- `*prev` (hash_map.c:152,155) -/
def deref {P : Type} (h : Heap P) (arr : Nat) : Ref → Option Nat
  | .slot i => getSlot h arr i
  | .nextOf a => getNext h a

/-- `*prev = n` (hash_map.c:160) -/
def assign {P : Type} (h : Heap P) (arr : Nat) : Ref → Nat → Option (Heap P)
  | .slot i, n => setSlot h arr i n
  | .nextOf a, n => setNext h a n

/-- The loop of `HashMapRemove` (hash_map.c:151-170) up to `free(cur)`: the memory and the pair that was unlinked. -/
def removeLoop {K V : Type} (f : Fns K) (key : K) (arr : Nat) (h : Heap (K × V)) :
    Nat → Ref → Option (Option (Heap (K × V) × (K × V)))
  | 0, _ => none
  | n + 1, prev => do
    let cur ← deref h arr prev
    if cur = 0 then some none
    else do
      let p ← getPay h cur
      if f.eq p.1 key then do
        let nx ← getNext h cur
        let h ← assign h arr prev nx
        let h ← free h cur
        some (some (h, p))
      else removeLoop f key arr h n (.nextOf cur)

/-- `HashMapRemove` (hash_map.c:142-173); a `load` that would wrap around is reported as undefined behaviour. -/
def remove {K V : Type} (malloc : (Nat → Bool) → Nat) (f : Fns K) (s : St K V) (key : K) :
    Option (St K V × Bool × Destroyed K V) := do
  let b ← getBucket f s.size key
  match ← removeLoop f key s.buckets s.h (s.load + 1) (.slot b) with
  | none => some (s, false, {})
  | some (h, old) =>
    if s.load = 0 then none
    else
      let s := { s with h := h, load := s.load - 1 }
      if s.load < s.minT ∧ s.size > s.initSize then do
        let s ← resize malloc f s (s.size / 2)
        some (s, true, ⟨[old.1], [old.2]⟩)
      else some (s, true, ⟨[old.1], [old.2]⟩)

/-- `HashMapGet` (hash_map.c:175-190): the address of the item whose pair it returns a pointer to, or NULL. -/
def get {K V : Type} (f : Fns K) (s : St K V) (key : K) : Option Nat := do
  let b ← getBucket f s.size key
  let head ← getSlot s.h s.buckets b
  findLoop f key s.h (s.load + 1) head

/-- `FreeBucketListItem` (hash_map.c:192-203): the rest of the chain first; memory, `load` and destructor calls. -/
def freeItem {K V : Type} : Nat → Heap (K × V) → Nat → Nat → Option (Heap (K × V) × Nat × Destroyed K V)
  | 0, _, _, _ => none
  | n + 1, h, load, a => do
    let nx ← getNext h a
    let (h, load, d) ← if nx ≠ 0 then freeItem n h load nx else some (h, load, {})
    let p ← getPay h a
    let h ← free h a
    if load = 0 then none else some (h, load - 1, d.append ⟨[p.1], [p.2]⟩)

/-- The loop of `HashMapClear` (hash_map.c:220-227), `n` buckets from bucket `i`. -/
def clearLoop {K V : Type} (arr : Nat) : Nat → Nat → Heap (K × V) → Nat → Option (Heap (K × V) × Nat × Destroyed K V)
  | 0, _, h, load => some (h, load, {})
  | n + 1, i, h, load => do
    let a ← getSlot h arr i
    let (h, load, d) ← if a ≠ 0 then freeItem (load + 1) h load a else some (h, load, {})
    let h ← setSlot h arr i 0
    let (h, load, d') ← clearLoop arr n (i + 1) h load
    some (h, load, d.append d')

/-- `HashMapClear` (hash_map.c:218-229), with its final `assert`. -/
def clear {K V : Type} (s : St K V) : Option (St K V × Destroyed K V) := do
  let (h, load, d) ← clearLoop s.buckets s.size 0 s.h s.load
  if load = 0 then some ({ s with h := h, load := 0 }, d) else none

/-- `HashMapDestroy` (hash_map.c:249-257): the memory left and the destructor calls. -/
def destroy {K V : Type} (s : St K V) : Option (Heap (K × V) × Destroyed K V) := do
  let (s, d) ← clear s
  let h ← free s.h s.buckets
  some (h, d)

/-- `HashMapSoftDestroy` (hash_map.c:205-247): the same walk, calling the key destructor only. -/
def softDestroy {K V : Type} (s : St K V) : Option (Heap (K × V) × Destroyed K V) := do
  let (h, _, d) ← clearLoop s.buckets s.size 0 s.h s.load
  let h ← free h s.buckets
  some (h, ⟨d.keys, []⟩)

/-- `HashMapIterator` (hash_map_priv.h:52-57), without `map`. -/
structure Iter where
  cur : Nat
  bucket : Nat
  deriving DecidableEq

/-- `HashMapIteratorInit` (hash_map.c:308-311) -/
def iterInit {K V : Type} (s : St K V) : Option Iter := do
  let c ← getSlot s.h s.buckets 0
  some ⟨c, 0⟩

/-- The loop of `HashMapIteratorNext` (hash_map.c:315-323): `true` when there is an item. -/
def seek {K V : Type} (s : St K V) : Nat → Iter → Option (Iter × Bool)
  | 0, _ => none
  | n + 1, i =>
    if i.cur ≠ 0 then some (i, true)
    else if i.bucket + 1 ≥ s.size then some (⟨i.cur, i.bucket + 1⟩, false)
    else do
      let c ← getSlot s.h s.buckets (i.bucket + 1)
      seek s n ⟨c, i.bucket + 1⟩

/-- `HashMapIteratorNext` (hash_map.c:313-328): the iterator afterwards and the address of the item delivered, or NULL. -/
def iterNext {K V : Type} (s : St K V) (i : Iter) : Option (Iter × Nat) := do
  let (i, more) ← seek s (s.size + 1) i
  if more then do
    let nx ← getNext s.h i.cur
    some (⟨nx, i.bucket⟩, i.cur)
  else some (i, 0)

/-- The loop of `HashMapPrintStats` that counts a chain (hash_map.c:273-278). -/
def countLoop {K V : Type} (h : Heap (K × V)) : Nat → Nat → Option Nat
  | 0, _ => none
  | n + 1, b =>
    if b = 0 then some 0
    else do
      let nx ← getNext h b
      let c ← countLoop h n nx
      some (c + 1)

/-- The counting loop of `HashMapPrintStats` (hash_map.c:266-280): the bucket lengths; `num_el` and `num_buckets` are
their sum and the number that are not zero. -/
def lengths {K V : Type} (s : St K V) : Nat → Nat → Option (List Nat)
  | 0, _ => some []
  | n + 1, i => do
    let b ← getSlot s.h s.buckets i
    let c ← countLoop s.h (s.load + 1) b
    let r ← lengths s n (i + 1)
    some (c :: r)

/-- The scan for the longest bucket (hash_map.c:292-299): the index of the first largest length. -/
def longest (ls : List Nat) : Nat :=
  (List.range ls.length).foldl (fun best i => if ls.getD i 0 > ls.getD best 0 then i else best) 0

/-- The loop that prints the longest buckets (hash_map.c:289-303): what is printed, and each is zeroed after printing. -/
def topLoop : Nat → List Nat → List (Nat × Nat)
  | 0, _ => []
  | n + 1, ls => (longest ls, ls.getD (longest ls) 0) :: topLoop n (ls.set (longest ls) 0)

/-- The numbers `HashMapPrintStats` prints (hash_map.c:259-305): buckets, buckets that are not empty, elements, and the ten
longest buckets with their lengths. The quotient on line 286 is not modelled. -/
def printStats {K V : Type} (s : St K V) : Option (Nat × Nat × Nat × List (Nat × Nat)) := do
  let ls ← lengths s s.size 0
  some (s.size, (ls.filter (· ≠ 0)).length, ls.sum, topLoop 10 ls)

end HashPtr
