import Verif.Model.List
/-! # Model of the mutable iterators of libutils/list.c

Same memory as in `Verif.Model.List`.  Like there, a list or iterator argument is not NULL. -/
namespace CList
open Queue (Heap Node)

/-- `struct ListMutableIterator` (list.c:35-39): one per list. -/
structure MIter where
  current : Option Nat
  origin : Nat
  valid : Bool

/-- `ListMutableIteratorGet` (list.c:629-652); `opened`: the list has an iterator already. -/
def ListMutableIteratorGet {V : Type} (s : St V) (list : Nat) (opened : Bool) : Option (Option MIter) := do
  let l ← s.lists list
  if opened then some none
  else
    match l.first with
    | none => some none
    | some a => some (some { current := some a, origin := list, valid := true })

/-- `ListMutableIteratorFirst` (list.c:664-676). -/
def mFirst {V : Type} (s : St V) (it : MIter) : Option (MIter × Bool) :=
  if it.valid then do
    let l ← s.lists it.origin
    some ({ it with current := l.first }, true)
  else some (it, false)

/-- `ListMutableIteratorLast` (list.c:678-690). -/
def mLast {V : Type} (s : St V) (it : MIter) : Option (MIter × Bool) :=
  if it.valid then do
    let l ← s.lists it.origin
    some ({ it with current := l.last }, true)
  else some (it, false)

/-- `ListMutableIteratorNext` (list.c:692-708): `current` is dereferenced without a check. -/
def mNext {V : Type} (s : St V) (it : MIter) : Option (MIter × Bool) :=
  if it.valid then do
    let n ← s.nodes.cells (← it.current)
    match n.next with
    | none => some (it, false)
    | some b => some ({ it with current := some b }, true)
  else some (it, false)

/-- `ListMutableIteratorPrevious` (list.c:710-726). -/
def mPrevious {V : Type} (s : St V) (it : MIter) : Option (MIter × Bool) :=
  if it.valid then do
    let n ← s.nodes.cells (← it.current)
    match n.previous with
    | none => some (it, false)
    | some b => some ({ it with current := some b }, true)
  else some (it, false)

/-- `ListMutableIteratorData` (list.c:728-739), followed by reading the object. -/
def mData {V : Type} (s : St V) (it : MIter) : Option (Option V) :=
  if it.valid then do
    let n ← s.nodes.cells (← it.current)
    match n.data with
    | .ptr p => do
      let v ← s.pays.cells p
      some (some v)
    | .null => some none
    | .uninit => none
  else some none

/-- `ListMutableIteratorHasNext` (list.c:886-889): the iterator's validity is not checked. -/
def mHasNext {V : Type} (s : St V) (it : MIter) : Option Bool := do
  let n ← s.nodes.cells (← it.current)
  some n.next.isSome

/-- `ListMutableIteratorHasPrevious` (list.c:891-894). -/
def mHasPrevious {V : Type} (s : St V) (it : MIter) : Option Bool := do
  let n ← s.nodes.cells (← it.current)
  some n.previous.isSome

/-- `ListMutableIteratorRemove` (list.c:741-817): refused (false, the int -1) on the only element. -/
def mRemove {V : Type} (c : Cfg V) (s : St V) (it : MIter) : Option (St V × MIter × Bool) :=
  if it.valid then do
    let s ← ListDetach c s it.origin
    let cur ← it.current
    let n ← s.nodes.cells cur
    let node := match n.next with | some a => some a | none => n.previous
    match node with
    | none => some (s, it, false)
    | some node => do
      let l ← s.lists it.origin
      let (h, l) ← unlink c s.nodes l n
      let pays ← removePay s.pays n.data
      let h ← h.free cur
      let l := { l with nodeCount := l.nodeCount - 1, state := l.state + 1 }
      some (({ s with nodes := h, pays }).putList it.origin (some l), { it with current := some node }, true)
  else some (s, it, false)

/-- `ListMutableIteratorPrepend` (list.c:819-851). -/
def mPrepend {V : Type} (c : Cfg V) (s : St V) (it : MIter) (payload : Pay) : Option (St V × Bool) :=
  if it.valid then do
    let (node, h) := allocNode s.nodes { data := .uninit, next := none, previous := none }
    let s ← ListDetach c { s with nodes := h } it.origin
    let cur ← it.current
    let n ← s.nodes.cells cur
    let l ← s.lists it.origin
    match n.previous with
    | some p => do
      let h := s.nodes.put node { data := payload, next := some cur, previous := some p }
      let h ← setNext h p (some node)
      let h ← setPrev h cur (some node)
      some (({ s with nodes := h }).putList it.origin (some { l with nodeCount := l.nodeCount + 1 }), true)
    | none => do
      let h := s.nodes.put node { data := payload, next := some cur, previous := none }
      let h ← setPrev h cur (some node)
      some (({ s with nodes := h }).putList it.origin (some { l with first := some node, list := some node, nodeCount := l.nodeCount + 1 }), true)
  else some (s, false)

/-- `ListMutableIteratorAppend` (list.c:853-884). -/
def mAppend {V : Type} (c : Cfg V) (s : St V) (it : MIter) (payload : Pay) : Option (St V × Bool) :=
  if it.valid then do
    let (node, h) := allocNode s.nodes { data := .uninit, next := none, previous := none }
    let s ← ListDetach c { s with nodes := h } it.origin
    let cur ← it.current
    let n ← s.nodes.cells cur
    let l ← s.lists it.origin
    match n.next with
    | some p => do
      let h := s.nodes.put node { data := payload, next := some p, previous := some cur }
      let h ← setPrev h p (some node)
      let h ← setNext h cur (some node)
      some (({ s with nodes := h }).putList it.origin (some { l with nodeCount := l.nodeCount + 1 }), true)
    | none => do
      let h := s.nodes.put node { data := payload, next := none, previous := some cur }
      let h ← setNext h cur (some node)
      some (({ s with nodes := h }).putList it.origin (some { l with last := some node, nodeCount := l.nodeCount + 1 }), true)
  else some (s, false)

/-- What `ListRemove` does to an open iterator when the node to remove has been found (list.c:390-416). -/
def removeMoves {V : Type} (s : St V) (it : MIter) (node : Nat) : Option MIter :=
  if it.current = some node then do
    let n ← s.nodes.cells node
    match n.next, n.previous with
    | some a, _ => some { it with current := some a }
    | none, some a => some { it with current := some a }
    | none, none => some { it with valid := false }
  else some it

/-- `ListRemove` (list.c:334-457) on a list with an open iterator. -/
def ListRemoveOpen {V : Type} (c : Cfg V) (s : St V) (list : Nat) (key : Nat) (it : MIter) : Option (St V × MIter × Int) := do
  let l ← s.lists list
  if ← ListFindNode c s.nodes s.pays key (s.nodes.fresh + 1) l.list then do
    let s ← ListDetach c s list
    let l ← s.lists list
    let node ← (← findAgain c s.nodes s.pays key (s.nodes.fresh + 1) l.list)
    let n ← s.nodes.cells node
    let it ← removeMoves s it node
    let (h, l) ← unlink c s.nodes l n
    let pays ← removePay s.pays n.data
    let h ← h.free node
    let l := { l with nodeCount := l.nodeCount - 1, state := l.state + 1 }
    some (({ s with nodes := h, pays }).putList list (some l), it, 0)
  else some (s, it, -1)

end CList
