import Verif.Model.Mem
/-! # Model of small functions of libutils/file_lib.c: `ReadFileStreamToBuffer`, `SetCloseOnExec`, `SetUmask`, `RestoreUmask`

A stream is what its successive attempts to read will find. -/
namespace FileMisc

/-- A stretch of bytes, and how it ends: with the end of the file (behind which more may appear later, as for a growing file or a terminal) or with an error. -/
structure Stretch where
  bytes : List UInt8
  error : Bool
deriving DecidableEq, Repr

/-- A stream: what is to come (nothing: the end of the file again and again), and its two indicators. -/
structure Stream where
  todo : List Stretch
  eof : Bool
  err : Bool
deriving DecidableEq, Repr

/-- `fread(p, 1, m, file)` (C library): the bytes, fewer than `m` only if an indicator is set; the stream afterwards. -/
def fread (s : Stream) (m : Nat) : List UInt8 × Stream :=
  match s.todo with
  | [] => ([], if m = 0 then s else { s with eof := true })
  | x :: rest =>
    if m ≤ x.bytes.length then (x.bytes.take m, { s with todo := { x with bytes := x.bytes.drop m } :: rest })
    else (x.bytes, { todo := rest, eof := s.eof || !x.error, err := s.err || x.error })

/-- Bytes put into a buffer at an offset; `none`: outside. -/
def put (buf : List (Option UInt8)) (off : Nat) (bs : List UInt8) : Option (List (Option UInt8)) :=
  if off + bs.length ≤ buf.length then some (buf.take off ++ bs.map some ++ buf.drop (off + bs.length)) else none

/-- The loop of `ReadFileStreamToBuffer` (file_lib.c:81-93): `inr` is `return FILE_ERROR_READ`. -/
def readLoop (maxBytes : Nat) : Nat → List (Option UInt8) → Nat → Stream → Option (List (Option UInt8) × Stream × (Nat ⊕ Unit))
  | 0, _, _, _ => none
  | fuel + 1, buf, bytesRead, s =>
    if bytesRead < maxBytes then
      let r := fread s (maxBytes - bytesRead)
      match put buf bytesRead r.1 with
      | none => none
      | some buf =>
        if r.2.err && !r.2.eof then some (buf, r.2, .inr ())
        else if r.1.length = 0 then some (buf, r.2, .inl bytesRead)
        else readLoop maxBytes fuel buf (bytesRead + r.1.length) r.2
    else some (buf, s, .inl bytesRead)

/-- `ReadFileStreamToBuffer` (file_lib.c:76-98): buffer, stream, result (`FILE_ERROR_READ` is -1). -/
def readFileStreamToBuffer (fuel : Nat) (s : Stream) (maxBytes : Nat) (buf : List (Option UInt8)) : Option (List (Option UInt8) × Stream × Int) :=
  (readLoop maxBytes fuel buf 0 s).map fun r =>
    match r.2.2 with
    | .inr () => (r.1, r.2.1, -1)
    | .inl n => (r.1, r.2.1, if r.2.1.err then -1 else (n : Int))

/-- `SetCloseOnExec` (file_lib.c:1212-1224). `fds`: the flags of the open descriptors; `FD_CLOEXEC` is 1; `fcntl` fails on others only. The result of a failed `F_GETFD` is -1, all ones. -/
def setCloseOnExec (fds : Int → Option (BitVec 32)) (fd : Int) (enable : Bool) : (Int → Option (BitVec 32)) × Bool :=
  let flags := match fds fd with
    | some f => f
    | none => BitVec.allOnes 32
  let flags := if enable then flags ||| 1#32 else flags &&& ~~~ 1#32
  match fds fd with
  | some _ => (fun g => if g = fd then some flags else fds g, true)
  | none => (fds, false)

/-- `umask(2)`: the new mask is the permission bits of the argument; the old one is returned. -/
def umask (cur new : BitVec 32) : BitVec 32 × BitVec 32 := (new &&& 0o777#32, cur)

/-- `SetUmask` (file_lib.c:496-501): the process's mask, and the result. -/
def setUmask (cur new : BitVec 32) : BitVec 32 × BitVec 32 := umask cur new

/-- `RestoreUmask` (file_lib.c:502-506). -/
def restoreUmask (cur old : BitVec 32) : BitVec 32 := (umask cur old).1

end FileMisc
