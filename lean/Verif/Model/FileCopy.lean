import Verif.Model.Compat
import Verif.Model.Csv
/-! # Model of File_Copy, CfReadLine and CfReadLines (libutils/file_lib.c)

Streams are modelled by the contract of C's stdio: `fread` returns some of the bytes to come and sets the end-of-file indicator when it reaches the end;
`fwrite` accepts some of the bytes, which reach the file in order and at any later time, at the latest when `fclose` returns 0. -/
namespace FileCopy

abbrev Bytes := List UInt8
abbrev FS := Nat → Bytes

/-- How one call completes: `n` items are transferred if possible, the error indicator is set afterwards, and `flush` buffered bytes reach the file. -/
structure Ev where
  n : Nat
  fail : Bool
  flush : Nat
deriving DecidableEq, Repr

/-- The destination stream: its file, the bytes accepted but not yet in the file, `ferror`. -/
structure Out where
  fs : FS
  file : Nat
  pend : Bytes
  err : Bool

/-- Buffered bytes reach the file. -/
def Out.flush (o : Out) (k : Nat) : Out :=
  { o with fs := fun i => if i = o.file then o.fs i ++ o.pend.take k else o.fs i, pend := o.pend.drop k }

/-- `fwrite(bs, 1, |bs|, out)`: the return value. Writing nothing does nothing. -/
def fwrite (bs : Bytes) (o : Out) : List Ev → Option (Nat × Out × List Ev)
  | [] => if bs = [] then some (0, o, []) else none
  | e :: s =>
    if bs = [] then some (0, o, e :: s)
    else some (min e.n bs.length, ({ o with pend := o.pend ++ bs.take (min e.n bs.length), err := o.err || e.fail }).flush e.flush, s)

/-- Killed with these files, or returned. -/
inductive Res (α : Type) where
  | killed (fs : FS)
  | done (a : α) (o : Out) (sched : List Ev)

/-- The inner loop (file_lib.c:132-136): `bytes_out`. -/
def writeLoop (buf : Bytes) (bytesIn : Nat) : Nat → Nat → Out → List Ev → Option (Res Nat)
  | 0, _, _, _ => none
  | fuel + 1, bytesOut, o, s =>
    if bytesOut < bytesIn ∧ o.err = false then
      if bytesIn ≤ buf.length then
        match fwrite ((buf.drop bytesOut).take (bytesIn - bytesOut)) o s with
        | none => some (.killed o.fs)
        | some (k, o, s) => writeLoop buf bytesIn fuel (bytesOut + k) o s
      else none
    else some (.done bytesOut o s)

/-- `fwrite` of the block and the inner loop (file_lib.c:131-136). -/
def writeBlock (buf : Bytes) (bytesIn : Nat) (o : Out) (s : List Ev) : Option (Res Nat) :=
  if bytesIn ≤ buf.length then
    match fwrite (buf.take bytesIn) o s with
    | none => some (.killed o.fs)
    | some (k, o, s) => writeLoop buf bytesIn (s.length + 1) k o s
  else none

/-- `char buf[BUFSIZE] = {0}` after `fread` (file_lib.c:128-130). -/
def block (bs : Bytes) : Bytes := bs ++ List.replicate (1024 - bs.length) 0

/-- The outer loop (file_lib.c:125-138) and the decision (140-154). `pos` is the position in the source file `file`. The source is read from the files as they
are at that time. -/
def copyLoop (file : Nat) : Nat → Nat → Out → List Ev → Option (Res Bool)
  | 0, _, _, _ => none
  | _ + 1, _, o, [] => some (.killed o.fs)
  | fuel + 1, pos, o, e :: s =>
    let avail := (o.fs file).drop pos
    let n := min (min e.n 1024) avail.length
    let eof := decide (avail.length < min e.n 1024)
    match writeBlock (block (avail.take n)) n o s with
    | none => none
    | some (.killed fs) => some (.killed fs)
    | some (.done bytesOut o s) =>
      if eof = false ∧ e.fail = false ∧ o.err = false ∧ n = bytesOut then copyLoop file fuel (pos + n) o s
      else some (.done (decide (e.fail = false ∧ o.err = false ∧ n = bytesOut)) o s)

/-- `fclose(in)` (file_lib.c:156-164): whether it succeeded. -/
def closeIn (ret : Bool) (o : Out) : List Ev → Res Bool
  | [] => .killed o.fs
  | e :: s => .done (ret && !e.fail) o s

/-- `fclose(out)` (file_lib.c:165-173): success means that everything has reached the file. -/
def closeOut (ret : Bool) (o : Out) : List Ev → Res Bool
  | [] => .killed o.fs
  | e :: s => if e.fail then .done false (o.flush e.flush) s else .done ret (o.flush o.pend.length) s

/-- Opening the destination with "w" makes it empty (C library). -/
def openW (fs : FS) (dst : Nat) : Out := ⟨fun i => if i = dst then [] else fs i, dst, [], false⟩

/-- `File_Copy` (file_lib.c:100-175) after both files, `src` and `dst`, have been opened; what opening does is the subject of C73 and following. -/
def fileCopy (fs : FS) (src dst : Nat) (sched : List Ev) : Option (Res Bool) :=
  match copyLoop src (sched.length + 1) 0 (openW fs dst) sched with
  | none => none
  | some (.killed fs) => some (.killed fs)
  | some (.done ret o s) =>
    match closeIn ret o s with
    | .killed fs => some (.killed fs)
    | .done ret o s => some (closeOut ret o s)

/-! ## Reading lines -/

/-- The caller's `*buff` and `*size`. -/
abbrev Buf := Option (List (Option UInt8)) × Nat

/-- After `getline` returned `b > 0` (file_lib.c:1481-1488): drop the newline. -/
def chop (buf : List (Option UInt8)) (b : Nat) : Option (List (Option UInt8) × Nat) :=
  match CMem.get buf (b - 1) with
  | none => none
  | some c => if c = 10 then (CMem.write buf (b - 1) (some 0)).map (·, b - 1) else some (buf, b)

/-- `CfReadLine` (file_lib.c:1476-1491) on a stream of which `stream` is still to come, at whose end the reading fails if `bad`. The result: the buffer, what is
left, `feof`, and the return value, `none` for -1. -/
def cfReadLine (bad : Bool) (buf : Buf) (stream : Bytes) : Option (Buf × Bytes × Bool × Option Nat) :=
  match Compat.getdelim 10 buf.1 buf.2 stream with
  | none => none
  | some (b, n, rest, r) =>
    let hitEnd := !stream.contains 10
    if hitEnd && bad then some ((some b, n), rest, false, none)
    else match r with
      | none => some ((some b, n), rest, hitEnd, none)
      | some len => if len = 0 then none else (chop b len).map fun x => ((some x.1, n), rest, hitEnd, some x.2)

/-- `xstrdup(*buff)` and the rest of `CfReadLines` for a line (file_lib.c:1519-1522). -/
def lineOf (buf : Buf) : Option Bytes := match buf.1 with | none => none | some b => CMem.str b

/-- The loop of `CfReadLines` (file_lib.c:1504-1528): the lines appended, and the return value, `none` for -1. `fuel` bounds the number of calls. -/
def readLoop (bad : Bool) : Nat → Buf → Bytes → Bool → List Bytes → Option (List Bytes × Option Nat)
  | 0, _, _, _, _ => none
  | fuel + 1, buf, stream, eof, acc =>
    if eof then some (acc, some acc.length)
    else match cfReadLine bad buf stream with
      | none => none
      | some (buf, rest, eof, none) => if eof then readLoop bad fuel buf rest eof acc else some (acc, none)
      | some (buf, rest, eof, some _) =>
        match lineOf buf with
        | none => none
        | some l => readLoop bad fuel buf rest eof (acc ++ [l])

/-- Reading `*buff`. -/
def deref (buff : Option Buf) : Option Buf := buff

/-- `CfReadLines` (file_lib.c:1493-1531). With `buff` NULL, `getline` fails at once (EINVAL) without touching the stream, and `free(*buff)` follows
(file_lib.c:1512-1515). -/
def cfReadLines (bad : Bool) (buff : Option Buf) (stream : Bytes) : Option (List Bytes × Option Nat) :=
  match buff with
  | none => (deref buff).map fun _ => ([], none)
  | some buf => readLoop bad (stream.length + 2) buf stream false []

end FileCopy
