import Verif.Model.Writer
import Verif.Model.StrCopy
/-! # Model of the read and write loops of libutils/file_lib.c

System calls complete as an arbitrary schedule says. The descriptor is the list of bytes not yet read (or the bytes written so far). The C
functions loop until they are done, so the model consumes a finite schedule and is `pending` when the schedule ends first. -/
namespace Io

/-- How one `read` or `write` completes: interrupted (EINTR), with another error, or transferring as many bytes as the kernel likes. -/
inductive Ev where
  | eintr
  | err
  | got (k : Nat)
deriving DecidableEq, Repr

/-- Number of bytes transferred by `read(fd, ptr, len)` (POSIX): between 1 and `min len available`, 0 exactly at end of file (for `len > 0`). -/
def readN (k len : Nat) (rest : List UInt8) : Nat := min (max 1 k) (min len rest.length)
/-- Number of bytes transferred by `write(fd, ptr, len)` (POSIX): any number up to `len`. -/
def writeN (k len : Nat) : Nat := min k len

inductive Out (α : Type) where
  | pending
  | done (a : α)
deriving DecidableEq, Repr

/-- A descriptor open for reading and the completions still to come. -/
structure Fd where
  rest : List UInt8
  sched : List Ev
deriving DecidableEq, Repr

/-- `FullRead` (file_lib.c:279-308): returned count, buffer, descriptor. `ptr` is an offset into the allocation `buf`. -/
def fullRead (buf : List (Option UInt8)) (ptr len total : Nat) (rest : List UInt8) : List Ev → Option (Out (Int × List (Option UInt8) × Fd))
  | [] => if len = 0 then some (.done (total, buf, ⟨rest, []⟩)) else some .pending
  | e :: sched =>
    if len = 0 then some (.done (total, buf, ⟨rest, e :: sched⟩))
    else match e with
      | .eintr => fullRead buf ptr len total rest sched
      | .err => some (.done (-1, buf, ⟨rest, sched⟩))
      | .got k =>
        let n := readN k len rest
        if n = 0 then some (.done (total, buf, ⟨rest, sched⟩))
        else do
          let buf ← CMem.store buf ptr (rest.take n)
          fullRead buf (ptr + n) (len - n) (total + n) (rest.drop n) sched

/-- `FullWrite` (file_lib.c:253-277): returned count and everything written so far. `ptr` is an offset into the allocation `src`. -/
def fullWrite (src : List UInt8) (ptr len total : Nat) (sink : List UInt8) : List Ev → Option (Out (Int × List UInt8))
  | [] => if len = 0 then some (.done (total, sink)) else some .pending
  | e :: sched =>
    if len = 0 then some (.done (total, sink))
    else match e with
      | .eintr => fullWrite src ptr len total sink sched
      | .err => some (.done (-1, sink))
      | .got k =>
        let n := writeN k len
        if ptr + n ≤ src.length then fullWrite src (ptr + n) (len - n) (total + n) (sink ++ (src.drop ptr).take n) sched
        else none

/-- `FileReadFromFd` (file_lib.c:207-251): the writer (`none` for a NULL return) and `*truncated`. -/
def fileReadFromFd (max : Nat) (w : Writer.W) (rest : List UInt8) : List Ev → Option (Out (Option Writer.W × Bool))
  | [] => some .pending
  | .eintr :: sched => fileReadFromFd max w rest sched
  | .err :: _ => some (.done (none, false))
  | .got k :: sched =>
    let n := readN k 4096 rest
    if n = 0 then some (.done (some w, false))
    else if n + w.len > max then do
      let (w, _) ← Writer.writeLen w (rest.take n) (max - w.len)
      some (.done (some w, true))
    else do
      let (w, _) ← Writer.writeLen w (rest.take n) n
      fileReadFromFd max w (rest.drop n) sched

end Io
