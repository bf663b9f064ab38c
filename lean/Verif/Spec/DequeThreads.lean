import Verif.Spec.Linearizable
/-! # The sequential deque and queue that the threaded ones must look like -/
namespace BlockSpec

/-- Results. `nothing`: the call returned false and set the item to NULL; `timedOut`: the call gave up waiting (false, or zero items);
`copied`: a new container with these items, in order, and this capacity; `size`: a number; `destroyed`: the items passed to the
destructor, in order, and the returned size. -/
inductive Res (P : Type) where
  | size (n : Nat)
  | item (x : P)
  | nothing
  | items (xs : List P)
  | bool (b : Bool)
  | copied (xs : List P) (cap : Nat)
  | destroyed (xs : List P) (n : Nat)
  | timedOut

/-- Items, in order, and the room there is. -/
structure St (P : Type) where
  items : List P
  cap : Nat

/-- Room after making sure one more item fits: doubled when full. -/
def grow {P : Type} (s : St P) : Nat := if s.items.length = s.cap then s.cap * 2 else s.cap

/-- A wait of `t` may end without success: it is neither "do not wait" (0) nor "wait forever" (-1). -/
def mayTimeOut (t : Int) : Prop := t ≠ 0 ∧ t ≠ -1

/-- The result of taking an item that may not be there. -/
def taken {P : Type} : Option P → Res P
  | some x => .item x
  | none => .nothing

/-- A blocking call that takes something: it does `done` when the container is not empty; when it is empty and the caller does not
want to wait it gives `empty`; it may time out, changing nothing. -/
def blocking {P : Type} (s : St P) (t : Int) (done : St P × Res P) (empty : Res P) (s' : St P) (r : Res P) : Prop :=
  (s.items ≠ [] ∧ s' = done.1 ∧ r = done.2) ∨ (s.items = [] ∧ t = 0 ∧ s' = s ∧ r = empty) ∨ (mayTimeOut t ∧ s' = s ∧ r = .timedOut)

/-- Waiting for emptiness. -/
def waiting {P : Type} (s : St P) (t : Int) (s' : St P) (r : Res P) : Prop :=
  (s.items = [] ∧ s' = s ∧ r = .bool true) ∨ (s.items ≠ [] ∧ t = 0 ∧ s' = s ∧ r = .bool false) ∨
    (mayTimeOut t ∧ s' = s ∧ r = .bool false)

/-- Operations of threaded_deque.h. -/
inductive DOp (P : Type) where
  | pushLeft (x : P)
  | pushRight (x : P)
  | popLeft (t : Int)
  | popRight (t : Int)
  | popLeftN (n : Nat) (t : Int)
  | popRightN (n : Nat) (t : Int)
  | count
  | capacity
  | isEmpty
  | waitEmpty (t : Int)
  | copy
deriving DecidableEq

/-- What each operation may do when performed alone; the left end comes first. -/
def deque {P : Type} (s : St P) (o : DOp P) (s' : St P) (r : Res P) : Prop :=
  match o with
  | .pushLeft x => s' = ⟨x :: s.items, grow s⟩ ∧ r = .size (s.items.length + 1)
  | .pushRight x => s' = ⟨s.items ++ [x], grow s⟩ ∧ r = .size (s.items.length + 1)
  | .popLeft t => blocking s t (⟨s.items.tail, s.cap⟩, taken s.items.head?) .nothing s' r
  | .popRight t => blocking s t (⟨s.items.dropLast, s.cap⟩, taken s.items.getLast?) .nothing s' r
  | .popLeftN n t => blocking s t (⟨s.items.drop n, s.cap⟩, .items (s.items.take n)) (.items []) s' r
  | .popRightN n t =>
      blocking s t (⟨s.items.take (s.items.length - n), s.cap⟩, .items (s.items.reverse.take n)) (.items []) s' r
  | .count => s' = s ∧ r = .size s.items.length
  | .capacity => s' = s ∧ r = .size s.cap
  | .isEmpty => s' = s ∧ r = .bool (s.items.length == 0)
  | .waitEmpty t => waiting s t s' r
  | .copy => s' = s ∧ r = .copied s.items s.cap

/-- Operations of threaded_queue.h. -/
inductive QOp (P : Type) where
  | push (x : P)
  | pushN (xs : List P)
  | pop (t : Int)
  | popN (n : Nat) (t : Int)
  | clear
  | clearAndPush (x : P)
  | count
  | capacity
  | isEmpty
  | waitEmpty (t : Int)
  | copy
deriving DecidableEq

/-- Adding items one after the other. -/
def addAll {P : Type} : St P → List P → St P
  | s, [] => s
  | s, x :: xs => addAll ⟨s.items ++ [x], grow s⟩ xs

/-- What each operation may do when performed alone; the oldest item comes first. -/
def queue {P : Type} (s : St P) (o : QOp P) (s' : St P) (r : Res P) : Prop :=
  match o with
  | .push x => s' = ⟨s.items ++ [x], grow s⟩ ∧ r = .size (s.items.length + 1)
  | .pushN xs => s' = addAll s xs ∧ r = .size (s.items.length + xs.length)
  | .pop t => blocking s t (⟨s.items.tail, s.cap⟩, taken s.items.head?) .nothing s' r
  | .popN n t => blocking s t (⟨s.items.drop n, s.cap⟩, .items (s.items.take n)) (.items []) s' r
  | .clear => s' = ⟨[], s.cap⟩ ∧ r = .destroyed s.items 0
  | .clearAndPush x => s' = ⟨[x], s.cap⟩ ∧ r = .destroyed s.items 1
  | .count => s' = s ∧ r = .size s.items.length
  | .capacity => s' = s ∧ r = .size s.cap
  | .isEmpty => s' = s ∧ r = .bool (s.items.length == 0)
  | .waitEmpty t => waiting s t s' r
  | .copy => s' = s ∧ r = .copied s.items s.cap

end BlockSpec
