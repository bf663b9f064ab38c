import Verif.Model.QueueThreads
/-! # Specification: time limits of the calls of the threaded queue -/
namespace FifoSpec
open TQT

/-- The time limit a call was given, for those that can wait: 0 means not to wait, -1 to wait for ever. -/
def limit {P : Type} : Call P → Option Int
  | .pop t => some t
  | .popN _ t => some t
  | .waitEmpty t => some t
  | _ => none

/-- The call may end because its time is up. -/
def timed {P : Type} (c : Call P) : Prop := ∃ t, limit c = some t ∧ t ≠ 0 ∧ t ≠ -1

/-- The thread is not in a call, or asleep in one. -/
def resting {P : Type} : TS P → Prop
  | .idle => True
  | .asleep _ => True
  | _ => False

end FifoSpec
