import Verif.Model.Io
import Verif.Model.StrTrim
/-! # Model of FileSparseWrite, FileSparseCopy and FileSparseClose (libutils/file_lib.c)

System calls complete as an arbitrary schedule says (as in `Verif.Model.Io`); when the schedule ends first the process is taken to have been killed there, and
the result is the destination file at that moment. `fsync` and durability are not modelled: the file is what other processes see. -/
namespace Sparse
open Io (Ev)

abbrev Bytes := List UInt8
def zeros (n : Nat) : Bytes := List.replicate n 0

/-- A regular file and the offset of a descriptor open for writing (POSIX). -/
structure File where
  data : Bytes
  off : Nat
deriving DecidableEq, Repr

/-- `write(2)` of `bs`: at the offset; a gap reads as zeros; writing nothing changes nothing. -/
def File.write (f : File) (bs : Bytes) : File :=
  if bs = [] then f
  else ⟨(f.data ++ zeros (f.off - f.data.length)).take f.off ++ bs ++ f.data.drop (f.off + bs.length), f.off + bs.length⟩
/-- `lseek(2)` with SEEK_CUR. -/
def File.skip (f : File) (n : Nat) : File := { f with off := f.off + n }
/-- `ftruncate(2)`. -/
def File.truncate (f : File) (n : Nat) : File := { f with data := f.data.take n ++ zeros (n - f.data.length) }

/-- The process is killed, or the function returns. -/
inductive Res (α : Type) where
  | killed (f : File)
  | done (a : α) (f : File) (sched : List Ev)

/-- `FullWrite` (file_lib.c:253-277) on a regular file. -/
def fullWrite (src : Bytes) (ptr len total : Nat) (f : File) : List Ev → Option (Res Int)
  | [] => if len = 0 then some (.done total f []) else some (.killed f)
  | e :: sched =>
    if len = 0 then some (.done total f (e :: sched))
    else match e with
      | .eintr => fullWrite src ptr len total f sched
      | .err => some (.done (-1) f sched)
      | .got k =>
        let n := Io.writeN k len
        if ptr + n ≤ src.length then fullWrite src (ptr + n) (len - n) (total + n) (f.write ((src.drop ptr).take n)) sched
        else none

/-- A system call that takes effect or fails. -/
def call {α : Type} (f f' : File) (sched : List Ev) (ok : File → List Ev → Option (Res α)) (fail : File → List Ev → Option (Res α)) : Option (Res α) :=
  match sched with
  | [] => some (.killed f)
  | .got _ :: sched => ok f' sched
  | _ :: sched => fail f sched

/-- `FileSparseWrite` (file_lib.c:1316-1346): the return value and `*wrote_hole`, which was `hole`. -/
def sparseWrite (data : Bytes) (hole : Bool) (f : File) (sched : List Ev) : Option (Res (Bool × Bool)) :=
  if Str.memcchr 0 data 0 = none then
    call f (f.skip data.length) sched (fun f s => some (.done (true, true) f s)) (fun f s => some (.done (false, hole) f s))
  else
    match fullWrite data 0 data.length 0 f sched with
    | none => none
    | some (.killed f) => some (.killed f)
    | some (.done w f s) => if w < 0 then some (.done (false, hole) f s) else some (.done (true, false) f s)

/-- The first `n` bytes of a block; reading an uninitialised byte is undefined. -/
def load (buf : List (Option UInt8)) (n : Nat) : Option Bytes := if n ≤ buf.length then (buf.take n).mapM id else none

/-- The loop of `FileSparseCopy` (file_lib.c:1377-1404): the return value, `*total_bytes_written` and `*last_write_was_a_hole`. `fuel` bounds the number of
rounds. -/
def copyLoop (blk : Nat) : Nat → List (Option UInt8) → Nat → Bool → Bytes → File → List Ev → Option (Res (Bool × Nat × Bool))
  | 0, _, _, _, _, _, _ => none
  | fuel + 1, buf, total, hole, src, f, sched =>
    match Io.fullRead buf 0 blk 0 src sched with
    | none => none
    | some .pending => some (.killed f)
    | some (.done (n, buf, fd)) =>
      if n < 0 then some (.done (false, total, hole) f fd.sched)
      else if n = 0 then some (.done (true, total, hole) f fd.sched)
      else (load buf n.toNat).bind fun data =>
        match sparseWrite data hole f fd.sched with
        | none => none
        | some (.killed f) => some (.killed f)
        | some (.done (ok, hole) f s) =>
          if ok then copyLoop blk fuel buf (total + n.toNat) hole fd.rest f s
          else some (.done (false, total, hole) f s)

/-- `FileSparseCopy` (file_lib.c:1358-1406); `src` are the bytes to be read from `sd`. -/
def copy (blk : Nat) (src : Bytes) (f : File) (sched : List Ev) : Option (Res (Bool × Nat × Bool)) :=
  copyLoop blk (sched.length + 1) (List.replicate blk none) 0 false src f sched

/-- `close(2)` at the end of `FileSparseClose` (file_lib.c:1465-1473). -/
def closeEnd (f : File) (sched : List Ev) : Option (Res Bool) :=
  call f f sched (fun f s => some (.done true f s)) (fun f s => some (.done false f s))
/-- After a failed call: `close(fd); return false` (file_lib.c:1440-1441, 1450-1451). -/
def closeFail (f : File) (sched : List Ev) : Option (Res Bool) :=
  call f f sched (fun f s => some (.done false f s)) (fun f s => some (.done false f s))
/-- `fsync`, whose failure is only logged (file_lib.c:1455-1463). -/
def syncClose (sync : Bool) (f : File) (sched : List Ev) : Option (Res Bool) :=
  if sync then call f f sched closeEnd closeEnd else closeEnd f sched

/-- `FileSparseClose` (file_lib.c:1428-1473). -/
def close (sync : Bool) (total : Nat) (hole : Bool) (f : File) (sched : List Ev) : Option (Res Bool) :=
  if hole then
    match fullWrite [0] 0 1 0 f sched with
    | none => none
    | some (.killed f) => some (.killed f)
    | some (.done w f s) =>
      if w = -1 then closeFail f s
      else call f (f.truncate total) s (syncClose sync) closeFail
  else syncClose sync f sched

end Sparse
