import Verif.Model.Json
/-! # Model of the memory of libutils/json.c: who owns which block

The elements of `Verif.Model.Json` as blocks in a heap. Blocks: an element (with its propertyName pointer and its value or Seq pointer), the copy of a string, and a `Seq` (the struct and its array of pointers as one block,
with the pointers in it, C01-C04). The allocator never hands out an address twice, so every access to freed memory is noticed. Where a loop runs over a `Seq`, the pointers are read once before the loop.
The texts that `printf` and `strtod` make of reals are as in `Verif.Model.Json`. `none`: access to a block that is not there or not of that kind, a free of memory that was not allocated, a failed assertion, or an exit. -/
namespace JsonHeap
open Json

/-- A pointer to a C string: a literal or memory of the caller (readable, but not to be freed by this code), or a block of the heap. -/
inductive SPtr
  | lit (b : Bytes)
  | at (a : Nat)
deriving DecidableEq

/-- The union in `struct JsonElement_` (json.c:52-75). -/
inductive Body
  | prim (t : PType) (v : SPtr)
  | cont (t : CType) (seq : Nat)
deriving DecidableEq

/-- A block: a string, an element (json.c:66-75), the children of a container. -/
inductive Cell
  | str (b : Bytes)
  | elem (name : Option Nat) (body : Body)
  | seq (xs : List Nat)
deriving DecidableEq

structure Heap where
  cell : Nat → Option Cell
  next : Nat

def Heap.empty : Heap := ⟨fun _ => none, 0⟩

/-- `xmalloc`, `xcalloc`, `xstrdup` (alloc.c:42-60), which do not fail. -/
def alloc (h : Heap) (c : Cell) : Nat × Heap := (h.next, ⟨fun a => if a = h.next then some c else h.cell a, h.next + 1⟩)

/-- `free`: of a block that is there. -/
def free (h : Heap) (a : Nat) : Option Heap := (h.cell a).map fun _ => ⟨fun x => if x = a then none else h.cell x, h.next⟩

/-- Writing to a block that is there. -/
def store (h : Heap) (a : Nat) (c : Cell) : Option Heap := (h.cell a).map fun _ => ⟨fun x => if x = a then some c else h.cell x, h.next⟩

def getElem (h : Heap) (a : Nat) : Option (Option Nat × Body) :=
  match h.cell a with
  | some (.elem n b) => some (n, b)
  | _ => none

def getSeq (h : Heap) (a : Nat) : Option (List Nat) :=
  match h.cell a with
  | some (.seq xs) => some xs
  | _ => none

def getStr (h : Heap) : SPtr → Option Bytes
  | .lit b => some b
  | .at a =>
    match h.cell a with
    | some (.str b) => some b
    | _ => none

/-- `if (p != NULL) free(p)`. -/
def freeMaybe (h : Heap) : Option Nat → Option Heap
  | none => some h
  | some a => free h a

/-- `JsonElementSetPropertyName` (json.c:96-111): the old name is freed before the new one is read. -/
def setName (h : Heap) (e : Nat) (key : Option SPtr) : Option Heap := do
  let nb ← getElem h e
  let h ← freeMaybe h nb.1
  let h ← store h e (.elem none nb.2)
  match key with
  | none => some h
  | some k => do
    let b ← getStr h k
    let r := alloc h (.str b)
    store r.2 e (.elem (some r.1) nb.2)

/-- `JsonElementCreateContainer` (json.c:120-135), called with no name by `JsonArrayCreate` (1308-1312) and `JsonObjectCreate` (882-886). -/
def createContainer (h : Heap) (t : CType) : Nat × Heap :=
  let r := alloc h (.seq [])
  alloc r.2 (.elem none (.cont t r.1))

/-- `JsonElementCreatePrimitive` (json.c:137-148). -/
def createPrimitive (h : Heap) (t : PType) (v : SPtr) : Nat × Heap := alloc h (.elem none (.prim t v))

/-- A primitive whose text has been allocated: `JsonStringCreate` (json.c:1484-1490), `JsonIntegerCreate` (1492-1498), `JsonIntegerCreate64` (1500-1506), `JsonRealCreate` (1508-1519). -/
def createText (h : Heap) (t : PType) (b : Bytes) : Nat × Heap :=
  let r := alloc h (.str b)
  createPrimitive r.2 t (.at r.1)

/-- `JsonBoolCreate` (json.c:1521-1525). -/
def createBool (h : Heap) (b : Bool) : Nat × Heap := createPrimitive h .bool (.lit (if b then litTrue else litFalse))

/-- `JsonNullCreate` (json.c:1527-1530). -/
def createNull (h : Heap) : Nat × Heap := createPrimitive h .null (.lit litNull)

/-- The text of a primitive of a type that is freed, in `JsonDestroy` (json.c:404-409). -/
def freeText (h : Heap) : SPtr → Option Heap
  | .lit _ => none
  | .at a => free h a

/-- `JsonDestroy` (json.c:388-422) with `SeqDestroy` (sequence.c:60-70), the depth of the calls bounded by the first argument. -/
def destroyN : Nat → Heap → Nat → Option Heap
  | 0, _, _ => none
  | n + 1, h, e => do
    let nb ← getElem h e
    let h ← (match nb.2 with
      | .cont _ s => do
        let xs ← getSeq h s
        let h ← xs.foldlM (fun h x => destroyN n h x) h
        free h s
      | .prim t v => if t ≠ .null ∧ t ≠ .bool then freeText h v else some h)
    let h ← freeMaybe h nb.1
    free h e

/-- `JsonDestroy` (json.c:388-422). No well-formed tree is deeper than there are blocks. -/
def destroy (h : Heap) (e : Nat) : Option Heap := destroyN (h.next + 1) h e

/-- `SeqIndexOf` with `CompareKeyToPropertyName` (sequence.c:195-207, json.c:1156-1163), from index `i`. -/
def indexOf (h : Heap) (k : SPtr) : List Nat → Nat → Option (Option Nat)
  | [], _ => some none
  | x :: xs, i => do
    let nb ← getElem h x
    let b ← getStr h k
    match nb.1 with
    | none => indexOf h k xs (i + 1)
    | some n => do
      let c ← getStr h (.at n)
      if Str.cmpSign id b c = 0 then some (some i) else indexOf h k xs (i + 1)

/-- The Seq of a container of the given type: the assertions at the start of every function. -/
def kidsPtr (h : Heap) (e : Nat) (t : CType) : Option Nat := do
  let nb ← getElem h e
  match nb.2 with
  | .cont t' s => if t' = t then some s else none
  | .prim .. => none

/-- `SeqAppend` (sequence.c:110-117). -/
def seqAppend (h : Heap) (s : Nat) (x : Nat) : Option Heap := do
  let xs ← getSeq h s
  store h s (.seq (xs ++ [x]))

/-- `SeqRemoveRange` (sequence.c:144-160) with `JsonDestroy`: the items are destroyed first, then the others moved. -/
def seqRemoveRange (h : Heap) (s start stop : Nat) : Option Heap := do
  let xs ← getSeq h s
  if start ≤ stop ∧ stop < xs.length then do
    let h ← ((xs.drop start).take (stop - start + 1)).foldlM destroy h
    store h s (.seq (xs.take start ++ xs.drop (stop + 1)))
  else none

/-- `JsonObjectRemoveKey` (json.c:1176-1190), without its result. -/
def removeKey (h : Heap) (obj : Nat) (k : SPtr) : Option Heap := do
  let s ← kidsPtr h obj .object
  let xs ← getSeq h s
  let i ← indexOf h k xs 0
  match i with
  | none => some h
  | some i => seqRemoveRange h s i i

/-- `JsonObjectAppendElement` (json.c:1120-1135). -/
def put (h : Heap) (obj : Nat) (k : SPtr) (e : Nat) : Option Heap := do
  let h ← removeKey h obj k
  let h ← setName h e (some k)
  let s ← kidsPtr h obj .object
  seqAppend h s e

/-- `SeqLookup` with `JsonElementHasProperty` (sequence.c:167-179, json.c:1137-1151). -/
def lookup (h : Heap) (k : SPtr) : List Nat → Option (Option Nat)
  | [] => some none
  | x :: xs => do
    let nb ← getElem h x
    let n ← nb.1
    let b ← getStr h k
    let c ← getStr h (.at n)
    if Str.cmpSign id b c = 0 then some (some x) else lookup h k xs

/-- `SeqSoftRemove` (sequence.c:304-331). -/
def seqSoftRemove (h : Heap) (s i : Nat) : Option Heap := do
  let xs ← getSeq h s
  if i < xs.length then store h s (.seq (xs.eraseIdx i)) else none

/-- `JsonObjectDetachKey` (json.c:1192-1211). -/
def detachKey (h : Heap) (obj : Nat) (k : SPtr) : Option (Option Nat × Heap) := do
  let s ← kidsPtr h obj .object
  let xs ← getSeq h s
  let i ← indexOf h k xs 0
  match i with
  | none => some (none, h)
  | some i => do
    let d ← lookup h k xs
    let h ← seqSoftRemove h s i
    some (d, h)

/-- `JsonArrayAppendElement` (json.c:1363-1372). -/
def arrAppend (h : Heap) (arr e : Nat) : Option Heap := do
  let s ← kidsPtr h arr .array
  seqAppend h s e

/-- `JsonArrayExtend` (json.c:1374-1390): the children move, the rest of `b` is freed. -/
def arrExtend (h : Heap) (a b : Nat) : Option Heap := do
  let s ← kidsPtr h a .array
  let s' ← kidsPtr h b .array
  let ys ← getSeq h s'
  let h ← ys.foldlM (fun h y => seqAppend h s y) h
  let h ← free h s'
  let nb ← getElem h b
  let h ← freeMaybe h nb.1
  free h b

/-- `JsonArrayRemoveRange` (json.c:1392-1402). -/
def arrRemoveRange (h : Heap) (arr start stop : Nat) : Option Heap := do
  let s ← kidsPtr h arr .array
  seqRemoveRange h s start stop

/-- `JsonContainerReverse` (json.c:1471-1478). -/
def arrReverse (h : Heap) (arr : Nat) : Option Heap := do
  let s ← kidsPtr h arr .array
  let xs ← getSeq h s
  store h s (.seq xs.reverse)

/-- `JsonPrimitiveCopy` (json.c:208-235). -/
def copyPrimitive (rt : RealText) (h : Heap) (t : PType) (v : SPtr) : Option (Nat × Heap) := do
  let b ← getStr h v
  match t with
  | .bool => some (createBool h (b == litTrue))
  | .integer => do
    let x ← getAsInteger b
    some (createText h .integer (intText (Str.toInt x)))
  | .null => some (createNull h)
  | .real => some (createText h .real (rt b))
  | .string => some (createText h .string b)

/-- The loop of `JsonArrayCopy` (json.c:160-165): `cp` copies a child. -/
def copyIntoArray (cp : Heap → Nat → Option (Nat × Heap)) (dst : Nat) : Heap → List Nat → Option Heap
  | h, [] => some h
  | h, x :: xs => do
    let r ← cp h x
    let h ← arrAppend r.2 dst r.1
    copyIntoArray cp dst h xs

/-- The loop of `JsonObjectCopy` (json.c:178-184) and of `JsonObjectMergeObject` (484-489): the key is the name of the child copied. -/
def copyIntoObject (cp : Heap → Nat → Option (Nat × Heap)) (dst : Nat) : Heap → List Nat → Option Heap
  | h, [] => some h
  | h, x :: xs => do
    let nb ← getElem h x
    let n ← nb.1
    let r ← cp h x
    let h ← put r.2 dst (.at n) r.1
    copyIntoObject cp dst h xs

/-- `JsonCopy` (json.c:237-250) with `JsonContainerCopy` (189-206), the depth of the calls bounded by the first argument. -/
def copyN (rt : RealText) : Nat → Heap → Nat → Option (Nat × Heap)
  | 0, _, _ => none
  | n + 1, h, e => do
    let nb ← getElem h e
    match nb.2 with
    | .prim t v => copyPrimitive rt h t v
    | .cont t s => do
      let xs ← getSeq h s
      let r := createContainer h t
      let h ← (match t with
        | .array => copyIntoArray (copyN rt n) r.1 r.2 xs
        | .object => copyIntoObject (copyN rt n) r.1 r.2 xs)
      some (r.1, h)

/-- `JsonCopy` (json.c:237-250). -/
def copy (rt : RealText) (h : Heap) (e : Nat) : Option (Nat × Heap) := copyN rt (h.next + 1) h e

/-- The loop of `JsonObjectMergeArray` (json.c:465-470): the key is allocated and freed. -/
def mergeArrayLoop (rt : RealText) (dst : Nat) : Nat → Heap → List Nat → Option Heap
  | _, h, [] => some h
  | i, h, x :: xs => do
    let k := alloc h (.str (intText i))
    let r ← copy rt k.2 x
    let h ← put r.2 dst (.at k.1) r.1
    let h ← free h k.1
    mergeArrayLoop rt dst (i + 1) h xs

/-- The type and the children of a container. -/
def container (h : Heap) (e : Nat) : Option (CType × List Nat) := do
  let nb ← getElem h e
  match nb.2 with
  | .cont t s => (getSeq h s).map fun xs => (t, xs)
  | .prim .. => none

/-- `JsonMerge` (json.c:493-530), `JsonArrayMergeArray` (433-453), `JsonObjectMergeArray` (455-473), `JsonObjectMergeObject` (475-491). -/
def merge (rt : RealText) (h : Heap) (a b : Nat) : Option (Nat × Heap) := do
  let ca ← container h a
  let cb ← container h b
  match ca.1, cb.1 with
  | .array, .array => do
    let r := createContainer h .array
    let h ← copyIntoArray (copy rt) r.1 r.2 ca.2
    let h ← copyIntoArray (copy rt) r.1 h cb.2
    some (r.1, h)
  | .array, .object => do
    let r ← copy rt h b
    let h ← mergeArrayLoop rt r.1 0 r.2 ca.2
    some (r.1, h)
  | .object, .array => do
    let r ← copy rt h a
    let h ← mergeArrayLoop rt r.1 0 r.2 cb.2
    some (r.1, h)
  | .object, .object => do
    let r ← copy rt h a
    let h ← copyIntoObject (copy rt) r.1 r.2 cb.2
    some (r.1, h)

/-- Following children by index: `JsonAt` (json.c:817-824), one after another. -/
def resolve (h : Heap) : Nat → List Nat → Option Nat
  | e, [] => some e
  | e, i :: p => do
    let c ← container h e
    let x ← c.2[i]?
    resolve h x p

end JsonHeap
