import Verif.Model.FileLock
/-! # Who holds which file lock, judged only by what the calls returned -/
namespace FileLockSpec
open FileLock (Kind Ev)

/-- The lock that process `p` has reason to hold through its `FileLock` number `h`: the last call that locked it returned 0, and it has not been unlocked, closed
or lost with the process since. The history is newest first. -/
def holds (p h : Nat) : List (Nat × Ev) → Option (Nat × Kind)
  | [] => none
  | (q, e) :: tr =>
    if q = p then
      match e with
      | .crash => none
      | .lock g f k r => if g = h ∧ r = 0 then some (f, k) else holds p h tr
      | .unlock g c r => if g = h ∧ (r = 0 ∨ c = true) then none else holds p h tr
      | _ => holds p h tr
    else holds p h tr

end FileLockSpec

namespace FileLock

/-- The file a `FileLock` of the process refers to. -/
def Proc.fileOf (x : Proc) (h : Nat) : Option Nat := (x.handle h).bind fun n => (x.find n).map Fd.file

/-- The process uses at most one `FileLock` per file at a time, and does not close the file behind its back. POSIX demands this (C92_two_locks). -/
def Careful (x : Proc) : Act → Prop
  | .lockPath _ file _ _ _ => ∀ g, x.fileOf g ≠ some file
  | .assign _ n => ∃ fd, x.find n = some fd ∧ ∀ g, x.fileOf g ≠ some fd.file
  | .rawClose n => ∀ fd, x.find n = some fd → ∀ g, x.fileOf g ≠ some fd.file
  | _ => True

/-- A run in which every process has always been careful. -/
def CarefulRun : List (Nat × Act) → Prop
  | [] => True
  | (p, a) :: rest => CarefulRun rest ∧ ∀ s tr, run rest = some (s, tr) → Careful (s.proc p) a

end FileLock
