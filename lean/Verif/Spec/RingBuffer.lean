import Verif.Model.RingBuffer
/-! # Specification of a ring buffer: a list of which only the newest `cap` elements are visible -/
namespace RingBufferSpec
open RingBuffer (Op)

/-- Items appended since the last clear, oldest first (`acc` is what was there before the history). -/
def sinceClear {α : Type} (acc : List (Option α)) : List (Op α) → List (Option α)
  | [] => acc
  | .append x :: ops => sinceClear (acc ++ [x]) ops
  | .clear :: ops => sinceClear [] ops

/-- The newest `cap` elements of a list, oldest first. -/
def newest {β : Type} (cap : Nat) (l : List β) : List β := l.drop (l.length - cap)

/-- Every item ever appended, in order. -/
def everAppended {α : Type} : List (Op α) → List (Option α)
  | [] => []
  | .append x :: ops => x :: everAppended ops
  | .clear :: ops => everAppended ops

end RingBufferSpec
