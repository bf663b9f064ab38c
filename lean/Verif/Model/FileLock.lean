/-! # Model of the file locks of libutils/file_lib.c (POSIX variant), any number of processes

Kernel: POSIX record locks on whole files. A process is single threaded; between two system calls of one process any other process may run. -/
namespace FileLock

inductive Kind where
  | sh
  | ex
deriving DecidableEq, Repr

/-- An open descriptor: its number, its file, and whether it is open for writing. -/
structure Fd where
  num : Nat
  file : Nat
  w : Bool
deriving DecidableEq, Repr

/-- Inside `LockFD` (file_lib.c:1594-1626), about to call `fcntl`; `path`: called from `…FileLockPath` (file_lib.c:1808-1848). `h` names the `FileLock`. -/
structure Pending where
  h : Nat
  fd : Nat
  kind : Kind
  wait : Bool
  path : Bool
deriving DecidableEq, Repr

/-- A process: its descriptors, the field `fd` of each of its `FileLock`s (`none` is -1), and what it is doing. -/
structure Proc where
  fds : List Fd
  handle : Nat → Option Nat
  pc : Option Pending

/-- All processes, and for every file the locks on it: who, and which kind. -/
structure State where
  lock : Nat → List (Nat × Kind)
  proc : Nat → Proc

def Proc.find (p : Proc) (n : Nat) : Option Fd := p.fds.find? (fun d => d.num == n)

def State.setProc (s : State) (p : Nat) (x : Proc) : State := { s with proc := fun q => if q = p then x else s.proc q }
def State.setLock (s : State) (f : Nat) (l : List (Nat × Kind)) : State := { s with lock := fun g => if g = f then l else s.lock g }

/-- Another process has a lock on the file that excludes one of this kind (POSIX). -/
def conflict (l : List (Nat × Kind)) (p : Nat) (k : Kind) : Bool := l.any fun x => x.1 != p && (k == .ex || x.2 == .ex)
/-- The locks after `p` got one: at most one for a process. -/
def grant (l : List (Nat × Kind)) (p : Nat) (k : Kind) : List (Nat × Kind) := (p, k) :: l.filter (fun x => x.1 != p)
/-- The locks without those of `p`. -/
def release (l : List (Nat × Kind)) (p : Nat) : List (Nat × Kind) := l.filter (fun x => x.1 != p)

/-- How a system call completes: it takes effect, is interrupted (EINTR), finds a conflicting lock (EAGAIN), or fails otherwise. -/
inductive Reply where
  | ok
  | eintr
  | again
  | err
deriving DecidableEq, Repr

/-- What a caller sees. -/
inductive Ev where
  | lock (h file : Nat) (kind : Kind) (ret : Int)
  | unlock (h : Nat) (close : Bool) (ret : Int)
  | check (h : Nat) (ret : Bool)
  | crash
  | other
deriving DecidableEq, Repr

/-- `fcntl(fd, F_SETLK/F_SETLKW)`: the state after it, if it can complete in this way. -/
def fcntlSet (s : State) (p : Nat) (d : Pending) (r : Reply) : Option State :=
  match r with
  | .err => some s
  | .eintr => if d.wait then some s else none
  | .again => match (s.proc p).find d.fd with
    | none => none
    | some fd => if !d.wait && conflict (s.lock fd.file) p d.kind then some s else none
  | .ok => match (s.proc p).find d.fd with
    | none => none
    | some fd =>
      if (d.kind == .ex && !fd.w) || conflict (s.lock fd.file) p d.kind then none
      else some (s.setLock fd.file (grant (s.lock fd.file) p d.kind))

/-- What `LockFD` returns then (file_lib.c:1603-1625); `none`: it calls `fcntl` again. -/
def lockFdRet (wait : Bool) (r : Reply) : Option Int :=
  match r with
  | .ok => some 0
  | .eintr => if wait then none else some (-1)
  | _ => some (-1)

/-- `LockFD` after its `fcntl`, and what its callers do with its result (file_lib.c:1647-1661, 1813-1819, 1840-1846). `file` is the file of the descriptor. -/
def lockRet (s : State) (p : Nat) (d : Pending) (file : Nat) (r : Reply) : State × Option Ev :=
  match lockFdRet d.wait r with
  | none => (s, none)
  | some ret =>
    let x := s.proc p
    let x := { x with pc := none }
    let x := if d.path && ret != 0 then { x with handle := fun h => if h = d.h then none else x.handle h } else x
    (s.setProc p x, some (.lock d.h file d.kind ret))

/-- `close(2)`: the descriptor is gone, and with it all locks of the process on its file (POSIX). -/
def closeFd (s : State) (p : Nat) (fd : Fd) : State :=
  let x := s.proc p
  (s.setProc p { x with fds := x.fds.filter (fun d => d.num != fd.num) }).setLock fd.file (release (s.lock fd.file) p)

/-- `ExclusiveFileUnlock`, also called by `SharedFileUnlock` (file_lib.c:1684-1717), `UnlockFD` (1628-1645). -/
def unlock (s : State) (p h : Nat) (close : Bool) (r : Reply) : Option (State × Option Ev) :=
  match (s.proc p).handle h with
  | none => none
  | some n => match (s.proc p).find n with
    | none => none
    | some fd =>
      if close then
        let s := closeFd s p fd
        let x := s.proc p
        some (s.setProc p { x with handle := fun g => if g = h then none else x.handle g }, some (.unlock h true (if r = .ok then 0 else -1)))
      else if r = .ok then some (s.setLock fd.file (release (s.lock fd.file) p), some (.unlock h false 0))
      else some (s, some (.unlock h false (-1)))

/-- `ExclusiveFileLockCheck` (file_lib.c:1664-1682): `F_GETLK` finds a lock of another process that would exclude an exclusive one. -/
def check (s : State) (p h : Nat) (r : Reply) : Option (State × Option Ev) :=
  match (s.proc p).handle h with
  | none => none
  | some n => match (s.proc p).find n with
    | none => none
    | some fd => some (s, some (.check h (if r = .ok then !conflict (s.lock fd.file) p .ex else false)))

/-- What a process does next. -/
inductive Act where
  /-- `ExclusiveFileLockPath`/`SharedFileLockPath` up to and including `safe_open`, which returns a new descriptor or fails. -/
  | lockPath (h file : Nat) (kind : Kind) (wait : Bool) (fd : Option Nat)
  /-- `ExclusiveFileLock`/`SharedFileLock` called. -/
  | lock (h : Nat) (kind : Kind) (wait : Bool)
  /-- The `fcntl` of the call that is going on. -/
  | fcntl (r : Reply)
  | unlock (h : Nat) (close : Bool) (r : Reply)
  | check (h : Nat) (r : Reply)
  /-- The program opens a file itself. -/
  | rawOpen (fd file : Nat) (w : Bool)
  /-- The program closes a descriptor itself. -/
  | rawClose (fd : Nat)
  /-- The program sets the field `fd` of a `FileLock` that is not in use. -/
  | assign (h fd : Nat)
  | crash
deriving DecidableEq, Repr

/-- Starting `ExclusiveFileLockPath` (file_lib.c:1808-1827) or `SharedFileLockPath` (file_lib.c:1829-1848). -/
def lockPath (s : State) (p h file : Nat) (kind : Kind) (wait : Bool) (fd : Option Nat) : Option (State × Option Ev) :=
  if (s.proc p).handle h ≠ none then none
  else match fd with
    | none => some (s, some (.lock h file kind (-2)))
    | some n =>
      if (s.proc p).find n ≠ none then none
      else
        let x := s.proc p
        some (s.setProc p { fds := ⟨n, file, kind == .ex⟩ :: x.fds, handle := fun g => if g = h then some n else x.handle g, pc := some ⟨h, n, kind, wait, true⟩ }, none)

/-- One step of process `p`; `none` when it cannot do this now. -/
def step (s : State) (p : Nat) (a : Act) : Option (State × Option Ev) :=
  match (s.proc p).pc, a with
  | _, .crash => some ({ lock := fun f => release (s.lock f) p, proc := fun q => if q = p then ⟨[], fun _ => none, none⟩ else s.proc q }, some .crash)
  | some d, .fcntl r => match fcntlSet s p d r, (s.proc p).find d.fd with
    | some s', some fd => some (lockRet s' p d fd.file r)
    | _, _ => none
  | none, .lockPath h file kind wait fd => lockPath s p h file kind wait fd
  | none, .lock h kind wait => match (s.proc p).handle h with
    | none => none
    | some n =>
      let x := s.proc p
      some (s.setProc p { x with pc := some ⟨h, n, kind, wait, false⟩ }, none)
  | none, .unlock h close r => unlock s p h close r
  | none, .check h r => check s p h r
  | none, .rawOpen n file w =>
    if (s.proc p).find n ≠ none then none
    else
      let x := s.proc p
      some (s.setProc p { x with fds := ⟨n, file, w⟩ :: x.fds }, some .other)
  | none, .rawClose n => match (s.proc p).find n with
    | none => none
    | some fd => some (closeFd s p fd, some .other)
  | none, .assign h n =>
    if (s.proc p).handle h ≠ none then none
    else
      let x := s.proc p
      some (s.setProc p { x with handle := fun g => if g = h then some n else x.handle g }, some .other)
  | _, _ => none

/-- No process has done anything yet. -/
def init : State := ⟨fun _ => [], fun _ => ⟨[], fun _ => none, none⟩⟩

/-- A run: the state, and what the callers have seen, newest first. -/
def run : List (Nat × Act) → Option (State × List (Nat × Ev))
  | [] => some (init, [])
  | (p, a) :: rest => match run rest with
    | none => none
    | some (s, tr) => match step s p a with
      | none => none
      | some (s', none) => some (s', tr)
      | some (s', some e) => some (s', (p, e) :: tr)

end FileLock
