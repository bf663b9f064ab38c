import Verif.Model.Queue
/-! # Specification of a FIFO queue -/
namespace QueueSpec
open Queue (Op)

/-- Elements enqueued by a history, in order. -/
def enqueued {α : Type} : List (Op α) → List α
  | [] => []
  | .enqueue x :: ops => x :: enqueued ops
  | .dequeue :: ops => enqueued ops

/-- Number of dequeues in a history. -/
def dequeues {α : Type} : List (Op α) → Nat
  | [] => 0
  | .enqueue _ :: ops => dequeues ops
  | .dequeue :: ops => dequeues ops + 1

/-- The caller never dequeues from an empty queue: at every point of the history, starting with `n` elements, the number
of dequeues so far is at most the number of elements available. -/
def Allowed {α : Type} : Nat → List (Op α) → Prop
  | _, [] => True
  | n, .enqueue _ :: ops => Allowed (n + 1) ops
  | n, .dequeue :: ops => 0 < n ∧ Allowed (n - 1) ops

end QueueSpec
