import Verif.Spec.PassFile
/-!
# Model of libutils/passopenfile.c (the Unix implementation) and of the local stream socket it uses

The socket is the queue of messages sent and not yet read; a message is some bytes and the open files attached to it
(`SCM_RIGHTS`).  Reading follows Linux: bytes of consecutive messages are glued together until the buffer is full, but a read
that has taken bytes of a message with open files attached ends with that message; what does not fit stays in the queue, without
the files.  A read that finds nothing waits, unless the sender closed its end.  Assertions are not active, as in release builds (configure.ac:241).
-/
namespace PassFile
open PassFileSpec

/-- One message in the socket. -/
structure Msg where
  bytes : List UInt8
  files : List Nat
deriving DecidableEq

/-- Sender's end closed?, queue, and the open files the receiver has been given descriptors for (never closed here). -/
structure Sock where
  queue : List Msg
  closed : Bool
  opened : List Nat
deriving DecidableEq

/-- `NULL_MSG` with its terminator (passopenfile.c:344): 0 N U L L 0. -/
def nullMsg : List UInt8 := [0, 78, 85, 76, 76, 0]

/-- `PassOpenFile_Put` (passopenfile.c:346-424): one message, the text with its terminator or `NULL_MSG`, one open file. `sent` says
whether `sendmsg` succeeds (it cannot when the end is closed). -/
def put (s : Sock) (file : Nat) (text : Option (List UInt8)) (sent : Bool) : Sock × Bool :=
  if s.closed then (s, false)
  else if sent then
    let bytes := match text with
      | some t => t ++ [0]
      | none => nullMsg
    ({ s with queue := s.queue ++ [⟨bytes, [file]⟩] }, true)
  else (s, false)

/-- What `recvmsg` gives. -/
inductive Recv where
  | waits
  | data (bytes : List UInt8) (files : List Nat) (rest : List Msg)

/-- `recvmsg(…, MSG_WAITALL)` with room for `want` more bytes after `acc`. -/
def recv (closed : Bool) : List Msg → Nat → List UInt8 → Recv
  | [], _, acc => if closed then .data acc [] [] else .waits
  | m :: q, want, acc =>
    if want < m.bytes.length then .data (acc ++ m.bytes.take want) m.files (⟨m.bytes.drop want, []⟩ :: q)
    else if m.files ≠ [] then .data (acc ++ m.bytes) m.files q
    else if want = m.bytes.length then .data (acc ++ m.bytes) [] q
    else recv closed q (want - m.bytes.length) (acc ++ m.bytes)

/-- `strcmp(buffer + i, lit) != 0`; `lit` includes its terminator. `none`: reads outside of the buffer. -/
def strNe (buf : List UInt8) : Nat → List UInt8 → Option Bool
  | _, [] => none
  | i, c :: cs => match buf[i]? with
    | none => none
    | some b => if b ≠ c then some true else if c = 0 then some false else strNe buf (i + 1) cs

/-- `MAX_MESSAGE_SIZE` (passopenfile.c:41). -/
def maxMessage : Nat := 1024

/-- The buffer after `recvmsg`: zeroed first (passopenfile.c:441-443). -/
def buffer (bytes : List UInt8) : List UInt8 := bytes ++ List.replicate (maxMessage - bytes.length) 0

/-- The text handed back (passopenfile.c:498-523): `xstrndup(buffer, sizeof(buffer))` or NULL. At verbose level the buffer is also
printed as a string. -/
def textOf (verbose : Bool) (buf : List UInt8) : Option (Option (List UInt8)) :=
  match buf[0]? with
  | none => none
  | some b0 =>
    if b0 ≠ 0 then
      if verbose && !buf.contains 0 then none else some (some (buf.takeWhile (· ≠ 0)))
    else match strNe buf 1 [78, 85, 76, 76, 0] with
      | none => none
      | some true => if verbose && !buf.contains 0 then none else some (some (buf.takeWhile (· ≠ 0)))
      | some false => some none

/-- Files for which the receiver gets descriptors: the control buffer has room for two (`CMSG_SPACE(sizeof(int))`, padded), and
only while the process may open more. -/
def delivered (files : List Nat) (slots : Nat) : List Nat := (files.take 2).take slots

/-- `PassOpenFile_Get` (passopenfile.c:426-523), `text` not NULL. `slots`: how many more descriptors the receiver may open. The control
message is absent when nothing was delivered. -/
def get (verbose : Bool) (s : Sock) (slots : Nat) : Option (Sock × Out) :=
  match recv s.closed s.queue maxMessage [] with
  | .waits => some (s, .waits)
  | .data bytes files rest =>
    match delivered files slots with
    | [] => some ({ s with queue := rest }, .failed)
    | f :: fs =>
      match textOf verbose (buffer bytes) with
      | none => none
      | some t => some ({ s with queue := rest, opened := s.opened ++ f :: fs }, .got f t)

/-- Operations as in the specification. -/
def step (verbose : Bool) (s : Sock) : Op → Option (Sock × Out)
  | .put f t sent => some ((put s f t sent).1, .put (put s f t sent).2)
  | .get free => get verbose s (if free then 1 else 0)
  | .close => some ({ s with closed := true }, .closed)

/-- A history: the outcomes and the final state. -/
def run (verbose : Bool) (s : Sock) : List Op → Option (Sock × List Out)
  | [] => some (s, [])
  | o :: os => match step verbose s o with
    | none => none
    | some (s1, r) => match run verbose s1 os with
      | none => none
      | some (s2, rs) => some (s2, r :: rs)

/-- Anything a peer may do to the socket: send any bytes with any files. -/
def send (s : Sock) (m : Msg) : Sock := { s with queue := s.queue ++ [m] }

end PassFile
