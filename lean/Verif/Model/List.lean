import Verif.Model.Queue
/-! # Model of libutils/refcount.c and libutils/list.c

Nodes, reference-count user nodes, payloads, reference counters and list headers each live in an explicit heap; reading or
freeing an unallocated address is undefined behaviour (`none`).  malloc never fails and never reuses an address.

Simplifications: mutable iterators are not open (`list->iterator == NULL`) in the history model, so the block list.c:391-416 is skipped; NULL list
arguments (which the functions answer with -1) are not represented: a list argument is an address.
`node_count`/`user_count` are unbounded naturals. -/
namespace CList
open Queue (Heap Node)

/-- Write the `next` field of a node. -/
def setNext {α : Type} (h : Heap α) (a : Nat) (v : Option Nat) : Option (Heap α) := do
  let n ← h.cells a
  some (h.put a { n with next := v })

/-- Write the `previous` field of a node. -/
def setPrev {α : Type} (h : Heap α) (a : Nat) (v : Option Nat) : Option (Heap α) := do
  let n ← h.cells a
  some (h.put a { n with previous := v })

/-- malloc of a node with given fields. -/
def allocNode {α : Type} (h : Heap α) (n : Node α) : Nat × Heap α :=
  (h.fresh, { (h.put h.fresh n) with fresh := h.fresh + 1 })

/-! ## refcount.c -/

/-- `struct RefCount` (refcount.h:35-39); the users are nodes in a heap of `RefCountNode`s. -/
structure RC where
  userCount : Nat
  users : Option Nat
  last : Option Nat

/-- `RefCountNew` (refcount.c:30-40). -/
def RefCountNew : RC := { userCount := 0, users := none, last := none }

/-- `RefCountAttach` (refcount.c:58-79), for non-NULL arguments. -/
def RefCountAttach (h : Heap Nat) (ref : RC) (owner : Nat) : Option (Heap Nat × RC) :=
  let (node, h) := allocNode h { data := owner, next := none, previous := none }
  match ref.last with
  | some l => do
    let h ← setNext h l (some node)
    let h ← setPrev h node (some l)
    some (h, { ref with userCount := ref.userCount + 1, last := some node })
  | none => some (h, { userCount := ref.userCount + 1, users := some node, last := some node })

/-- The search loop of `RefCountDetach` (refcount.c:97-99, 127): the first node whose user is `owner`. -/
def findUser (h : Heap Nat) (owner : Nat) : Nat → Option Nat → Option (Option Nat)
  | 0, _ => none
  | _ + 1, none => some none
  | fuel + 1, some p => do
    let n ← h.cells p
    if n.data = owner then some (some p) else findUser h owner fuel n.next

/-- Outcome of `RefCountDetach`: returned normally, or stopped in `ProgrammingError`. -/
inductive Detach where
  | ok (h : Heap Nat) (ref : RC)
  | programmingError

/-- `RefCountDetach` (refcount.c:81-133), for non-NULL arguments. -/
def RefCountDetach (h : Heap Nat) (ref : RC) (owner : Nat) : Option Detach :=
  if ref.userCount ≤ 1 then some (.ok h ref)
  else do
    match ← findUser h owner (h.fresh + 1) ref.users with
    | none => some .programmingError
    | some p => do
      let n ← h.cells p
      match n.previous, n.next with
      | some pr, some nx => do
        let h ← setNext h pr (some nx)
        let h ← setPrev h nx (some pr)
        let h ← h.free p
        some (.ok h { ref with userCount := ref.userCount - 1 })
      | some pr, none => do
        let h ← setNext h pr none
        let h ← h.free p
        some (.ok h { ref with last := some pr, userCount := ref.userCount - 1 })
      | none, some nx => do
        let h ← setPrev h nx none
        let h ← h.free p
        some (.ok h { ref with users := some nx, userCount := ref.userCount - 1 })
      | none, none => some (.ok h ref)

/-- `RefCountIsShared` (refcount.c:135-138). -/
def RefCountIsShared (ref : RC) : Bool := ref.userCount > 1

/-! ## list.c -/

/-- A `void *payload`: NULL, a pointer to an object, or an indeterminate value (malloc'ed, never written). -/
inductive Pay where
  | null
  | ptr (a : Nat)
  | uninit

/-- The payload heap: what the user's objects contain. -/
structure Pays (V : Type) where
  cells : Nat → Option V
  fresh : Nat

/-- The user allocates an object holding `v`. -/
def Pays.alloc {V : Type} (p : Pays V) (v : V) : Nat × Pays V :=
  (p.fresh, { cells := fun b => if b = p.fresh then some v else p.cells b, fresh := p.fresh + 1 })

/-- The user's destroy function, or `free`: undefined behaviour on a dead object. -/
def Pays.free {V : Type} (p : Pays V) (a : Nat) : Option (Pays V) :=
  match p.cells a with
  | none => none
  | some _ => some { p with cells := fun b => if b = a then none else p.cells b }

/-- The user's three callbacks (list.c:51-56).  `compare a b` is true when the C function returns 0; `copy` makes a new object
with the same content; `destroy` frees the object. Absent callbacks are NULL in C. -/
structure Cfg (V : Type) where
  compare : Option (V → V → Bool)
  copy : Bool
  destroy : Bool

/-- `struct List` (list.c:40-61) without the callbacks, which a copy inherits, and the mutable iterator. -/
structure Lst where
  nodeCount : Nat
  state : Nat
  list : Option Nat
  first : Option Nat
  last : Option Nat
  refCount : Nat

/-- The whole memory. -/
structure St (V : Type) where
  nodes : Heap Pay
  users : Heap Nat
  pays : Pays V
  rcs : Nat → Option RC
  rcFresh : Nat
  lists : Nat → Option Lst
  lFresh : Nat

/-- Empty memory. -/
def St.init {V : Type} : St V :=
  { nodes := ⟨fun _ => none, 0⟩, users := ⟨fun _ => none, 0⟩, pays := ⟨fun _ => none, 0⟩, rcs := fun _ => none, rcFresh := 0,
    lists := fun _ => none, lFresh := 0 }

/-- Store a reference counter. -/
def St.putRC {V : Type} (s : St V) (a : Nat) (r : Option RC) : St V :=
  { s with rcs := fun b => if b = a then r else s.rcs b }

/-- Store a list header. -/
def St.putList {V : Type} (s : St V) (a : Nat) (l : Option Lst) : St V :=
  { s with lists := fun b => if b = a then l else s.lists b }

/-- `RefCountNew(&list->ref_count); RefCountAttach(list->ref_count, list)` (list.c:139-140, 157-158). -/
def newRefCount {V : Type} (s : St V) (owner : Nat) : Option (St V × Nat) := do
  let (u, r) ← RefCountAttach s.users RefCountNew owner
  some ({ s with users := u, rcs := fun b => if b = s.rcFresh then some r else s.rcs b, rcFresh := s.rcFresh + 1 }, s.rcFresh)

/-- Payload of the copied node (list.c:99-109, 119-129): nothing is stored when the source payload is NULL. -/
def copyPay {V : Type} (c : Cfg V) (pays : Pays V) : Pay → Option (Pays V × Pay)
  | .null => some (pays, .uninit)
  | .uninit => none
  | .ptr a =>
    if c.copy then do
      let v ← pays.cells a
      let (b, pays) := pays.alloc v
      some (pays, .ptr b)
    else some (pays, .ptr a)

/-- The copy loop of `ListDetach` (list.c:90-132). `q` is the last node made so far, `new` the first one; the result is
(nodes, payloads, first, last). -/
def detachLoop {V : Type} (c : Cfg V) :
    Nat → Heap Pay → Pays V → (p q new : Option Nat) → Option (Heap Pay × Pays V × Option Nat × Option Nat)
  | 0, _, _, _, _, _ => none
  | _ + 1, h, pays, none, q, new => some (h, pays, new, q)
  | fuel + 1, h, pays, some p, q, new => do
    match new with
    | some _ => do
      let q ← q
      let (node, h) := allocNode h { data := .uninit, next := none, previous := some q }
      let h ← setNext h q (some node)
      let n ← h.cells p
      let (pays, d) ← copyPay c pays n.data
      let m ← h.cells node
      let h := h.put node { m with data := d }
      let n ← h.cells p
      detachLoop c fuel h pays n.next (some node) new
    | none => do
      let (node, h) := allocNode h { data := .uninit, next := none, previous := none }
      let n ← h.cells p
      let (pays, d) ← copyPay c pays n.data
      let m ← h.cells node
      let h := h.put node { m with data := d }
      let n ← h.cells p
      detachLoop c fuel h pays n.next (some node) (some node)

/-- `ListDetach` (list.c:78-142). -/
def ListDetach {V : Type} (c : Cfg V) (s : St V) (list : Nat) : Option (St V) := do
  let l ← s.lists list
  let rc ← s.rcs l.refCount
  if RefCountIsShared rc then do
    let (nodes, pays, first, last) ← detachLoop c (s.nodes.fresh + 1) s.nodes s.pays l.list none none
    match ← RefCountDetach s.users rc list with
    | .programmingError => none
    | .ok users rc => do
      let s := ({ s with nodes, pays, users }).putRC l.refCount (some rc)
      let (s, r) ← newRefCount s list
      some (s.putList list (some { l with list := first, first := first, last := last, refCount := r }))
  else some s

/-- `ListNew` (list.c:144-160). -/
def ListNew {V : Type} (s : St V) : Option (St V × Nat) := do
  let a := s.lFresh
  let (s, r) ← newRefCount { s with lFresh := s.lFresh + 1 } a
  some (s.putList a (some { nodeCount := 0, state := 0, list := none, first := none, last := none, refCount := r }), a)

/-- The user's destroy function on a payload of a dying list (list.c:183-186): called on whatever the node holds. -/
def destroyPay {V : Type} (c : Cfg V) (pays : Pays V) (p : Pay) : Option (Pays V) :=
  if c.destroy then
    match p with
    | .ptr a => pays.free a
    | .null => some pays
    | .uninit => none
  else some pays

/-- The loop of `ListDestroy` (list.c:181-189). -/
def destroyLoop {V : Type} (c : Cfg V) : Nat → Heap Pay → Pays V → Option Nat → Option (Heap Pay × Pays V)
  | 0, _, _, _ => none
  | _ + 1, h, pays, none => some (h, pays)
  | fuel + 1, h, pays, some a => do
    let n ← h.cells a
    let pays ← destroyPay c pays n.data
    let h ← h.free a
    destroyLoop c fuel h pays n.next

/-- `RefCountDestroy` (refcount.c:42-56) on a counter with at most one user: frees the first user node and the counter. -/
def RefCountDestroy {V : Type} (s : St V) (r : Nat) : Option (St V) := do
  let rc ← s.rcs r
  if rc.userCount > 1 then some s
  else do
    let users ← match rc.users with
      | some u => s.users.free u
      | none => some s.users
    some (({ s with users }).putRC r none)

/-- `ListDestroy` (list.c:162-195). -/
def ListDestroy {V : Type} (c : Cfg V) (s : St V) (list : Nat) : Option (St V) := do
  let l ← s.lists list
  let rc ← s.rcs l.refCount
  if RefCountIsShared rc then
    match ← RefCountDetach s.users rc list with
    | .programmingError => none
    | .ok users rc => some ((({ s with users }).putRC l.refCount (some rc)).putList list none)
  else do
    let (nodes, pays) ← destroyLoop c (s.nodes.fresh + 1) s.nodes s.pays l.first
    let s ← RefCountDestroy { s with nodes, pays } l.refCount
    some (s.putList list none)

/-- `ListCopy` (list.c:197-228): -1 (here `none` in the second component) without a copy function. -/
def ListCopy {V : Type} (c : Cfg V) (s : St V) (origin : Nat) : Option (St V × Option Nat) := do
  let l ← s.lists origin
  if c.copy then do
    let a := s.lFresh
    let s := ({ s with lFresh := s.lFresh + 1 }).putList a (some l)
    let rc ← s.rcs l.refCount
    let (users, rc) ← RefCountAttach s.users rc a
    some (({ s with users }).putRC l.refCount (some rc), some a)
  else some (s, none)

/-- `ListPrepend` (list.c:230-257). -/
def ListPrepend {V : Type} (c : Cfg V) (s : St V) (list : Nat) (payload : Pay) : Option (St V) := do
  let s ← ListDetach c s list
  let l ← s.lists list
  let (node, h) := allocNode s.nodes { data := payload, next := none, previous := none }
  match l.list with
  | some f => do
    let h ← setNext h node (some f)
    let h ← setPrev h f (some node)
    some (({ s with nodes := h }).putList list
      (some { l with list := some node, first := some node, nodeCount := l.nodeCount + 1 }))
  | none =>
    some (({ s with nodes := h }).putList list
      (some { l with last := some node, list := some node, first := some node, nodeCount := l.nodeCount + 1 }))

/-- `ListAppend` (list.c:259-286). -/
def ListAppend {V : Type} (c : Cfg V) (s : St V) (list : Nat) (payload : Pay) : Option (St V) := do
  let s ← ListDetach c s list
  let l ← s.lists list
  let (node, h) := allocNode s.nodes { data := payload, next := none, previous := none }
  match l.last with
  | some t => do
    let h ← setPrev h node (some t)
    let h ← setNext h t (some node)
    some (({ s with nodes := h }).putList list (some { l with last := some node, nodeCount := l.nodeCount + 1 }))
  | none =>
    some (({ s with nodes := h }).putList list
      (some { l with list := some node, first := some node, last := some node, nodeCount := l.nodeCount + 1 }))

/-- One comparison of a node's payload with the searched payload (list.c:308-323, 365-380); `compare` dereferences both. -/
def payMatches {V : Type} (c : Cfg V) (pays : Pays V) (p : Pay) (key : Nat) : Option Bool :=
  match c.compare with
  | some f =>
    match p with
    | .ptr a => do
      let x ← pays.cells a
      let y ← pays.cells key
      some (f x y)
    | .null => none
    | .uninit => none
  | none =>
    match p with
    | .ptr a => some (decide (a = key))
    | .null => some false
    | .uninit => none

/-- `ListFindNode` (list.c:294-326): skips NULL payloads. -/
def ListFindNode {V : Type} (c : Cfg V) (h : Heap Pay) (pays : Pays V) (key : Nat) : Nat → Option Nat → Option Bool
  | 0, _ => none
  | _ + 1, none => some false
  | fuel + 1, some a => do
    let n ← h.cells a
    match n.data with
    | .null => ListFindNode c h pays key fuel n.next
    | .uninit => none
    | .ptr _ =>
      if ← payMatches c pays n.data key then some true else ListFindNode c h pays key fuel n.next

/-- The second search, in `ListRemove` (list.c:363-381): does not skip NULL payloads. -/
def findAgain {V : Type} (c : Cfg V) (h : Heap Pay) (pays : Pays V) (key : Nat) : Nat → Option Nat → Option (Option Nat)
  | 0, _ => none
  | _ + 1, none => some none
  | fuel + 1, some a => do
    let n ← h.cells a
    if ← payMatches c pays n.data key then some (some a) else findAgain c h pays key fuel n.next

/-- Unlinking in `ListRemove` (list.c:420-445): new heap, and the new `list`/`first`/`last` fields. -/
def unlink {V : Type} (_ : Cfg V) (h : Heap Pay) (l : Lst) (n : Node Pay) : Option (Heap Pay × Lst) :=
  match n.next, n.previous with
  | some nx, some pr => do
    let h ← setPrev h nx (some pr)
    let h ← setNext h pr (some nx)
    some (h, l)
  | some nx, none => do
    let h ← setPrev h nx none
    some (h, { l with list := some nx, first := some nx })
  | none, some pr => do
    let h ← setNext h pr none
    some (h, { l with last := some pr })
  | none, none => some (h, { l with list := none, first := none, last := none })

/-- Destroying the removed payload (list.c:446-453): the destroy function, or `free` if there is none. -/
def removePay {V : Type} (pays : Pays V) : Pay → Option (Pays V)
  | .ptr a => pays.free a
  | .null => some pays
  | .uninit => none

/-- `ListRemove` (list.c:334-457), `payload` not NULL; the result is the int returned. `assert(node)` is undefined behaviour in
a release build (NULL dereference), abort in a debug build: `none`. -/
def ListRemove {V : Type} (c : Cfg V) (s : St V) (list : Nat) (key : Nat) : Option (St V × Int) := do
  let l ← s.lists list
  if ← ListFindNode c s.nodes s.pays key (s.nodes.fresh + 1) l.list then do
    let s ← ListDetach c s list
    let l ← s.lists list
    let node ← (← findAgain c s.nodes s.pays key (s.nodes.fresh + 1) l.list)
    let n ← s.nodes.cells node
    let (h, l) ← unlink c s.nodes l n
    let pays ← removePay s.pays n.data
    let h ← h.free node
    let l := { l with nodeCount := l.nodeCount - 1, state := l.state + 1 }
    some (({ s with nodes := h, pays }).putList list (some l), 0)
  else some (s, -1)

/-- `ListCount` (list.c:460-463). -/
def ListCount {V : Type} (s : St V) (list : Nat) : Option Nat := do
  let l ← s.lists list
  some l.nodeCount

/-! ## Read-only iterators (list.c:468-624) -/

/-- `struct ListIterator` (list.c:62-66). -/
structure Iter where
  current : Option Nat
  origin : Nat
  state : Nat

/-- `ListIteratorGet` (list.c:468-486): NULL (inner `none`) for an empty list. -/
def ListIteratorGet {V : Type} (s : St V) (list : Nat) : Option (Option Iter) := do
  let l ← s.lists list
  match l.first with
  | none => some none
  | some _ => some (some { current := l.list, origin := list, state := l.state })

/-- `IsIteratorValid` negated (list.c:68-69; the macro of that name is true on an invalid iterator). -/
def iterUsable {V : Type} (s : St V) (it : Iter) : Option Bool := do
  let l ← s.lists it.origin
  some (decide (it.state = l.state))

/-- `ListIteratorNext` (list.c:530-551): true is success (0). -/
def ListIteratorNext {V : Type} (s : St V) (it : Iter) : Option (Iter × Bool) := do
  if ← iterUsable s it then
    match it.current with
    | none => some (it, false)
    | some a => do
      let n ← s.nodes.cells a
      match n.next with
      | some b => some ({ it with current := some b }, true)
      | none => some (it, false)
  else some (it, false)

/-- `ListIteratorPrevious` (list.c:553-574). -/
def ListIteratorPrevious {V : Type} (s : St V) (it : Iter) : Option (Iter × Bool) := do
  if ← iterUsable s it then
    match it.current with
    | none => some (it, false)
    | some a => do
      let n ← s.nodes.cells a
      match n.previous with
      | some b => some ({ it with current := some b }, true)
      | none => some (it, false)
  else some (it, false)

/-- `ListIteratorFirst` (list.c:500-513). -/
def ListIteratorFirst {V : Type} (s : St V) (it : Iter) : Option (Iter × Bool) := do
  if ← iterUsable s it then do
    let l ← s.lists it.origin
    some ({ it with current := l.first }, true)
  else some (it, false)

/-- `ListIteratorLast` (list.c:515-528). -/
def ListIteratorLast {V : Type} (s : St V) (it : Iter) : Option (Iter × Bool) := do
  if ← iterUsable s it then do
    let l ← s.lists it.origin
    some ({ it with current := l.last }, true)
  else some (it, false)

/-- `ListIteratorData` (list.c:576-588) followed by reading the object: NULL (inner `none`) when invalid; `current` is
dereferenced without a check. -/
def ListIteratorData {V : Type} (s : St V) (it : Iter) : Option (Option V) := do
  if ← iterUsable s it then do
    let a ← it.current
    let n ← s.nodes.cells a
    match n.data with
    | .ptr p => do
      let v ← s.pays.cells p
      some (some v)
    | .null => some none
    | .uninit => none
  else some none

/-- `ListIteratorHasNext` (list.c:590-606); `current` is dereferenced without a check. -/
def ListIteratorHasNext {V : Type} (s : St V) (it : Iter) : Option Bool := do
  if ← iterUsable s it then do
    let a ← it.current
    let n ← s.nodes.cells a
    some n.next.isSome
  else some false

/-- `ListIteratorHasPrevious` (list.c:608-624). -/
def ListIteratorHasPrevious {V : Type} (s : St V) (it : Iter) : Option Bool := do
  if ← iterUsable s it then do
    let a ← it.current
    let n ← s.nodes.cells a
    some n.previous.isSome
  else some false

/-- Reading a whole list forwards with an iterator: `ListIteratorGet`, then `ListIteratorData` and `ListIteratorNext` until it
fails (the loop every user of list.h writes). -/
def readAll {V : Type} (s : St V) : Nat → Iter → Option (List V)
  | 0, _ => none
  | fuel + 1, it => do
    let d ← (← ListIteratorData s it)
    let (it, more) ← ListIteratorNext s it
    if more then do
      let rest ← readAll s fuel it
      some (d :: rest)
    else some [d]

/-- The elements of a list as the iterator API shows them. -/
def contents {V : Type} (s : St V) (list : Nat) : Option (List V) := do
  match ← ListIteratorGet s list with
  | none => some []
  | some it => readAll s (s.nodes.fresh + 1) it

end CList
