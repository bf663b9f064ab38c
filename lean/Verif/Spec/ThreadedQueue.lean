import Verif.Model.QueueThreads
/-! # Specification: a FIFO queue as a list, and a deque as a list -/
namespace FifoSpec
open TQT

/-- Sequential meaning of a completed call on a list (front = oldest). -/
def apply {P : Type} (l : List P) : Call P → List P × Result P
  | .push x => (l ++ [x], .size (l.length + 1))
  | .pushN xs => (l ++ xs, .size (l.length + xs.length))
  | .pop _ => (l.tail, .item l.head?)
  | .popN n _ => (l.drop n, .items (l.take n))
  | .clear => ([], .destroyed l)
  | .clearAndPush x => ([x], .destroyedSize l 1)
  | .waitEmpty _ => (l, .bool l.isEmpty)
  | .count => (l, .size l.length)

/-- `Legal l log l'`: executing the logged calls one after the other on the list `l` gives the logged results and ends in `l'`. -/
inductive Legal {P : Type} : List P → List (Nat × Call P × Result P) → List P → Prop where
  | nil (l : List P) : Legal l [] l
  | timedOut (l l' : List P) (t : Nat) (c : Call P) (log) : Legal l log l' → Legal l ((t, c, .timedOut) :: log) l'
  | call (l l' : List P) (t : Nat) (c : Call P) (log) : Legal (apply l c).1 log l' → Legal l ((t, c, (apply l c).2) :: log) l'

/-- Items a logged call put into the queue. -/
def entered {P : Type} : Nat × Call P × Result P → List P
  | (_, _, .timedOut) => []
  | (_, .push x, _) => [x]
  | (_, .pushN xs, _) => xs
  | (_, .clearAndPush x, _) => [x]
  | _ => []

/-- Items a logged call took out of the queue: handed to the caller or to the destructor. -/
def left {P : Type} : Nat × Call P × Result P → List P
  | (_, _, .item x) => x.toList
  | (_, _, .items xs) => xs
  | (_, _, .destroyed xs) => xs
  | (_, _, .destroyedSize xs _) => xs
  | _ => []

/-- The thread sleeps waiting for items. -/
def sleepsForItems {P : Type} : TS P → Bool
  | .asleep c => isConsumer c
  | _ => false

/-- The thread was woken (not by its timeout), or holds the lock, and is going to look for items. -/
def seeksItems {P : Type} : TS P → Bool
  | .woken c false => isConsumer c
  | .inside c => isConsumer c
  | _ => false

/-- The thread sleeps waiting for the queue to become empty. -/
def sleepsForEmpty {P : Type} : TS P → Bool
  | .asleep c => isWaitEmpty c
  | _ => false

/-- The thread is not in the middle of anything: it is outside the API or asleep. -/
def quiet {P : Type} : TS P → Bool
  | .idle => true
  | .asleep _ => true
  | _ => false

/-- In this state a critical section is being executed by the thread. -/
def critical {P : Type} : TS P → Bool
  | .inside _ => true
  | .leaving _ => true
  | _ => false

end FifoSpec

namespace DequeSpec

/-- Operations on a deque. -/
inductive Op (P : Type) where
  | pushLeft (x : P)
  | pushRight (x : P)
  | popLeft
  | popRight
  | popLeftN (n : Nat)
  | popRightN (n : Nat)

/-- What the caller gets. -/
inductive Result (P : Type) where
  | size (n : Nat)
  | item (x : Option P)
  | items (xs : List P)

/-- Meaning on a list, left end first. `popRightN` hands out the rightmost first. -/
def apply {P : Type} (l : List P) : Op P → List P × Result P
  | .pushLeft x => (x :: l, .size (l.length + 1))
  | .pushRight x => (l ++ [x], .size (l.length + 1))
  | .popLeft => (l.tail, .item l.head?)
  | .popRight => (l.dropLast, .item l.getLast?)
  | .popLeftN n => (l.drop n, .items (l.take n))
  | .popRightN n => (l.take (l.length - n), .items (l.reverse.take n))

/-- The same call on the implementation. -/
def impl {P : Type} (q : TD.D P) : Op P → Option (TD.D P × Result P)
  | .pushLeft x => (TD.pushLeft q x).map fun (q, n) => (q, .size n)
  | .pushRight x => (TD.pushRight q x).map fun (q, n) => (q, .size n)
  | .popLeft => (TD.popLeft q).map fun (q, x) => (q, .item x)
  | .popRight => (TD.popRight q).map fun (q, x) => (q, .item x)
  | .popLeftN n => (TD.popLeftN q n).map fun (q, xs) => (q, .items xs)
  | .popRightN n => (TD.popRightN q n).map fun (q, xs) => (q, .items xs)

/-- A history (oldest first): final list and results. -/
def runSpec {P : Type} : List P → List (Op P) → List P × List (Result P)
  | l, [] => (l, [])
  | l, op :: ops => let (l, r) := apply l op; let (l, rs) := runSpec l ops; (l, r :: rs)

/-- A history on the implementation. -/
def runImpl {P : Type} : TD.D P → List (Op P) → Option (TD.D P × List (Result P))
  | q, [] => some (q, [])
  | q, op :: ops => do
    let (q, r) ← impl q op
    let (q, rs) ← runImpl q ops
    some (q, r :: rs)

end DequeSpec

namespace FifoSpec
open TQT

/-- The schedule only makes calls satisfying `ok`. -/
def CallsOk {P : Type} (ok : Call P → Prop) (as : List (Action P)) : Prop :=
  ∀ a ∈ as, match a with | .call _ c => ok c | _ => True

/-- Calls that move one item per signal: no `PushN` of several items, no `PopN` of zero items. -/
def Single {P : Type} : Call P → Prop
  | .pushN xs => xs.length ≤ 1
  | .popN n _ => 1 ≤ n
  | _ => True

end FifoSpec
