/-! # Model of the file locks of libutils/file_lib.c, the Windows implementation (`__MINGW32__`)

The system keeps for each file the locked ranges with the handle that locked them (`LockFileEx`, `UnlockFileEx`). A `FileLock` that is open has a handle of its own, so that handles are named
by the number of the `FileLock`, over all processes. -/
namespace WinLock

/-- A locked range: its handle, whether it is exclusive, where it begins, how many bytes. -/
structure Range where
  owner : Nat
  ex : Bool
  off : Nat
  len : Nat
deriving DecidableEq, Repr

/-- `LOCKFILE_FAIL_IMMEDIATELY`, `LOCKFILE_EXCLUSIVE_LOCK`, `INT_MAX`. -/
def failImmediately : Nat := 1
def exclusiveLock : Nat := 2
def intMax : Nat := 2147483647

def overlap (a b : Range) : Bool := a.off < b.off + b.len && b.off < a.off + a.len

/-- Excludes the wanted range `w`: an overlapping lock, if `w` is exclusive (also one of the same handle); an exclusive one of another handle, if it is shared. -/
def conflict (w l : Range) : Bool := overlap w l && (w.ex || (l.ex && l.owner != w.owner))

inductive Outcome where
  | granted (locks : List Range)
  | refused
  | blocks
deriving DecidableEq, Repr

/-- `LockFileEx(handle, flags, 0, len, 0, {off})`. -/
def lockFileEx (locks : List Range) (owner flags off len : Nat) : Outcome :=
  let w : Range := ⟨owner, flags &&& exclusiveLock != 0, off, len⟩
  if locks.any (conflict w) then (if flags &&& failImmediately != 0 then .refused else .blocks) else .granted (w :: locks)

/-- Removes the first element with the property. -/
def removeFirst {α : Type} (p : α → Bool) : List α → List α
  | [] => []
  | x :: xs => if p x then xs else x :: removeFirst p xs

/-- `UnlockFileEx(handle, 0, len, 0, {off})`: exactly this range; an exclusive lock first; `none`: there is no such lock. -/
def unlockFileEx (locks : List Range) (owner off len : Nat) : Option (List Range) :=
  let mine := fun (l : Range) => l.owner == owner && l.off == off && l.len == len
  if locks.any (fun l => mine l && l.ex) then some (removeFirst (fun l => mine l && l.ex) locks)
  else if locks.any mine then some (removeFirst mine locks)
  else none

/-- For each file its locks; for each `FileLock` the file it has open. -/
structure State where
  locks : Nat → List Range
  file : Nat → Option Nat

def State.setLocks (s : State) (f : Nat) (l : List Range) : State := { s with locks := fun g => if g = f then l else s.locks g }
def State.setFile (s : State) (h : Nat) (x : Option Nat) : State := { s with file := fun g => if g = h then x else s.file g }

inductive Ev where
  | locked (h file : Nat) (ex : Bool) (ret : Int)
  | unlocked (h : Nat) (close : Bool) (ret : Int)
  | checked (h : Nat) (b : Bool)
  | gone (h : Nat)
deriving DecidableEq, Repr

/-- `LockFD` (file_lib.c:1722-1742); `err`: the call fails for another reason. `none`: it does not return (yet). -/
def lockFD (s : State) (h f flags : Nat) (wait err : Bool) : Option (State × Int) :=
  let flags := if wait then flags else flags ||| failImmediately
  if err then some (s, -1)
  else match lockFileEx (s.locks f) h flags intMax 1 with
    | .granted l => some (s.setLocks f l, 0)
    | .refused => some (s, -1)
    | .blocks => none

/-- The flags `ExclusiveFileLock` and `SharedFileLock` pass (file_lib.c:1744-1758). -/
def lockFlags (ex : Bool) : Nat := if ex then exclusiveLock else 0

/-- `ExclusiveFileLock`, `SharedFileLock` (file_lib.c:1744-1758). -/
def lock (s : State) (h : Nat) (ex wait err : Bool) : Option (State × Ev) :=
  match s.file h with
  | none => none
  | some f => (lockFD s h f (lockFlags ex) wait err).map fun r => (r.1, .locked h f ex r.2)

/-- `ExclusiveFileLockPath`, `SharedFileLockPath` (file_lib.c:1808-1848), the file opened: `lock->fd` is -1 again if the lock was not obtained (the descriptor stays open; nothing refers to it). -/
def lockPath (s : State) (h f : Nat) (ex wait err : Bool) : Option (State × Ev) :=
  match s.file h with
  | some _ => none
  | none => (lockFD (s.setFile h (some f)) h f (lockFlags ex) wait err).map fun r => (if r.2 ≠ 0 then r.1.setFile h none else r.1, .locked h f ex r.2)

/-- Closing the handle: its locks are released. -/
def closeHandle (s : State) (h f : Nat) : State := (s.setLocks f ((s.locks f).filter fun l => l.owner != h)).setFile h none

/-- `UnlockFD` (file_lib.c:1760-1775). -/
def unlockFD (s : State) (h f : Nat) : State × Int :=
  match unlockFileEx (s.locks f) h intMax 1 with
  | some l => (s.setLocks f l, 0)
  | none => (s, -1)

/-- `ExclusiveFileUnlock`, also called by `SharedFileUnlock` (file_lib.c:1784-1805). -/
def unlock (s : State) (h : Nat) (close : Bool) : Option (State × Ev) :=
  match s.file h with
  | none => none
  | some f =>
    if close then some (closeHandle (unlockFD s h f).1 h f, .unlocked h true (unlockFD s h f).2) else some ((unlockFD s h f).1, .unlocked h false (unlockFD s h f).2)

/-- `ExclusiveFileLockCheck` (file_lib.c:1777-1782). -/
def check (s : State) (h : Nat) : Option (State × Ev) := some (s, .checked h false)

inductive Act where
  | lock (h : Nat) (ex wait err : Bool)
  | lockPath (h f : Nat) (ex wait err : Bool)
  | unlock (h : Nat) (close : Bool)
  | check (h : Nat)
  | gone (h : Nat)

/-- One call that returns, or the end of the process that has a `FileLock`. -/
def step (s : State) : Act → Option (State × Ev)
  | .lock h ex wait err => lock s h ex wait err
  | .lockPath h f ex wait err => lockPath s h f ex wait err
  | .unlock h close => unlock s h close
  | .check h => check s h
  | .gone h => match s.file h with
    | none => some (s, .gone h)
    | some f => some (closeHandle s h f, .gone h)

/-- A history, the latest call first. -/
def run : List Act → Option (State × List Ev)
  | [] => some (⟨fun _ => [], fun _ => none⟩, [])
  | a :: acts => (run acts).bind fun r => (step r.1 a).map fun q => (q.1, q.2 :: r.2)

end WinLock
