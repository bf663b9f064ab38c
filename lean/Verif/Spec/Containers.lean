/-! # Specification: what containers and failed calls leave behind -/
namespace ContainersSpec

/-- The kinds of container: queues and deques, stacks. -/
inductive Kind where
  | queue
  | stack
  deriving DecidableEq

/-- The initialisation that failed: the mutex, the first or the second condition. -/
inductive Stage where
  | mutex
  | nonEmpty
  | empty
  deriving DecidableEq

/-- What a call did. -/
inductive Event where
  | created (k : Kind)
  | copied (k : Kind)
  | notCreated (k : Kind) (s : Stage)
  | notCopied (k : Kind) (s : Stage)
  | destroyed (k : Kind)
  deriving DecidableEq

/-- Blocks of memory nobody can free any more: one for each failed copy (its array) and for each failed new stack (its mutex). -/
def Event.lostBlocks : Event → Nat
  | .notCopied _ _ => 1
  | .notCreated .stack _ => 1
  | _ => 0

/-- Mutexes and conditions freed without being destroyed. -/
def Event.lostSyncs : Event → Nat
  | .notCreated .queue .nonEmpty => 1
  | .notCreated .queue .empty => 2
  | .notCopied .queue .nonEmpty => 1
  | .notCopied .queue .empty => 2
  | _ => 0

/-- Mutex attributes not destroyed: by every copy of a queue or deque whose mutex could be made. -/
def Event.lostAttrs : Event → Nat
  | .copied .queue => 1
  | .notCopied .queue .nonEmpty => 1
  | .notCopied .queue .empty => 1
  | _ => 0

def total (f : Event → Nat) (es : List Event) : Nat := (es.map f).sum

end ContainersSpec
