import Verif.Spec.WinPass
import Verif.Model.Bytes
/-!
# Model of libutils/passopenfile.c, the Windows implementation (`__MINGW32__`)

Every call of the system (`recv`, `send`, `select`, `WSADuplicateSocket`, `WSASocket`, `malloc`) is decided by the environment: scripts say
how each goes, and `input` is what the peer sends during the call.  `none` is undefined behaviour.  Logging is not modelled.
Assertions are not active, as in release builds (configure.ac:241).
-/
namespace WinPass
open WinPassSpec

/-- What `select` says (passopenfile.c:42-68): failure, time out, or ready. -/
inductive Sel where
  | error | idle | ready
deriving DecidableEq, Repr

/-- `PID_MSG_SIZE` (passopenfile.c:36): `PRINTSIZE(unsigned long) + 8` with 4-byte longs, printsize.h:60. -/
def pidMsgSize : Nat := 3 + 53 * 4 / 22 + 8

/-- `sizeof(WSAPROTOCOL_INFO)` (the ANSI variant). -/
def blobSize : Nat := 372

/-- `ACK_MSG` with its terminator (passopenfile.c:37). -/
def ackMsg : List UInt8 := bytes! "ACK\n" ++ [0]

/-- The system around one call. `recvs`, `sends`: how many bytes each call moves at most, or that it fails; `dup`, `wsa`: what
`WSADuplicateSocket` and `WSASocket` give. A script that has run out: the call fails. -/
structure Env where
  input : List UInt8
  recvs : List (Option Nat)
  sends : List (Option Nat)
  sels : List Sel
  mallocs : List Bool
  dup : Nat → Nat → Option (List UInt8)
  wsa : List UInt8 → Option Nat

/-- The system's state with what was sent and the ledger. -/
structure St where
  env : Env
  sent : List UInt8
  ledger : Ledger

/-- Start of a call. -/
def start (e : Env) : St := ⟨e, [], ⟨[], [], 0, 0⟩⟩

/-- `recv(uds, buf, n, 0)`: the bytes read (their number is what the call returns), or failure. -/
def recv (s : St) (n : Nat) : St × Option (List UInt8) :=
  match s.env.recvs with
  | [] => (s, none)
  | none :: r => ({ s with env := { s.env with recvs := r } }, none)
  | some k :: r =>
    ({ s with env := { s.env with recvs := r, input := s.env.input.drop (min k n) } }, some (s.env.input.take (min k n)))

/-- `send(uds, buf, n, 0)`: the number of bytes sent, or failure. -/
def send (s : St) (bytes : List UInt8) : St × Option Nat :=
  match s.env.sends with
  | [] => (s, none)
  | none :: r => ({ s with env := { s.env with sends := r } }, none)
  | some k :: r =>
    ({ s with env := { s.env with sends := r }, sent := s.sent ++ bytes.take k }, some (min k bytes.length))

/-- `wait_for` (passopenfile.c:41-67): false and `ready` not set, or true and whether the socket is ready. -/
def waitFor (s : St) : St × Sel :=
  match s.env.sels with
  | [] => (s, .error)
  | x :: r => ({ s with env := { s.env with sels := r } }, x)

/-- `malloc(size)`; a failed one is not counted. -/
def alloc (s : St) : St × Bool :=
  match s.env.mallocs with
  | true :: r => ({ s with env := { s.env with mallocs := r }, ledger := { s.ledger with allocated := s.ledger.allocated + 1 } }, true)
  | false :: r => ({ s with env := { s.env with mallocs := r } }, false)
  | [] => (s, false)

/-- `free(buffer)`; nothing for NULL. -/
def freeBuf (s : St) (have_ : Bool) : St :=
  if have_ then { s with ledger := { s.ledger with freed := s.ledger.freed + 1 } } else s

/-- `closesocket(d)`. -/
def closeSock (s : St) (d : Nat) : St := { s with ledger := { s.ledger with closed := s.ledger.closed ++ [d] } }

/-- White space of `sscanf`. -/
def isSpace (b : UInt8) : Bool := b = 32 || (9 ≤ b && b ≤ 13)

/-- A decimal digit. -/
def isDigit (b : UInt8) : Bool := 48 ≤ b && b ≤ 57

/-- `sscanf(buffer, "PID: %lu\n", &pid) != 1` (passopenfile.c:35, 93): `some none` no conversion, `some (some pid)` converted, `none` a number
that does not fit (undefined, C11 7.21.6.2p10). -/
def scanPid (buf : List UInt8) : Option (Option Nat) :=
  let s := buf.takeWhile (· ≠ 0)
  if s.take 4 = bytes! "PID:" then
    let s := (s.drop 4).dropWhile isSpace
    let neg := s.head? = some 45
    let s := if s.head? = some 45 || s.head? = some 43 then s.drop 1 else s
    let ds := s.takeWhile isDigit
    if ds = [] then some none
    else
      let v := ds.foldl (fun a d => 10 * a + (d.toNat - 48)) 0
      if v < 4294967296 then some (some (if neg then (4294967296 - v) % 4294967296 else v)) else none
  else some none

/-- The four bytes of a `MSG_LEN_T` (passopenfile.c:38), little endian. -/
def u32le (n : Nat) : List UInt8 :=
  [UInt8.ofNat (n % 256), UInt8.ofNat (n / 256 % 256), UInt8.ofNat (n / 65536 % 256), UInt8.ofNat (n / 16777216 % 256)]

/-- `text ? strlen(text) + 1 : 0` as a `MSG_LEN_T` (passopenfile.c:123). -/
def textSize : Option (List UInt8) → Nat
  | some t => (t.length + 1) % 4294967296
  | none => 0

/-- The sending half of `PassOpenFile_Put` (passopenfile.c:118-151): blob, size, text; true: not `had < 0`. -/
def putData (s : St) (blob : List UInt8) (text : Option (List UInt8)) : St × Bool :=
  match send s blob with
  | (s, had) =>
    if had = some blobSize then
      match send s (u32le (textSize text)) with
      | (s, had) =>
        if had = some 4 then
          match text with
          | some t => match send s ((t ++ [0]).take (textSize text)) with
            | (s, had) => (s, had.isSome)
          | none => (s, true)
        else (s, false)
    else (s, false)

/-- `PassOpenFile_Put` (passopenfile.c:70-183). The outcome: the process the socket was duplicated for, if it was, and the result. `none` when a
number does not fit or a buffer is too small. -/
def put (e : Env) (descriptor : Nat) (text : Option (List UInt8)) : Option (St × Option Nat × Bool) :=
  match recv (start e) pidMsgSize with
  | (s, none) => some (s, none, false)
  | (s, some buffer) =>
    if pidMsgSize + 1 ≤ buffer.length then none
    else match scanPid (buffer ++ [0]) with
    | none => none
    | some none => some (s, none, false)
    | some (some pid) =>
      match s.env.dup descriptor pid with
      | none => some (s, none, false)
      | some blob =>
        match waitFor s with
        | (s, .error) => some (s, some pid, false)
        | (s, .idle) => some (s, some pid, false)
        | (s, .ready) =>
          match putData s blob text with
          | (s, false) => some (s, some pid, false)
          | (s, true) =>
            match waitFor s with
            | (s, .error) => some (s, some pid, false)
            | (s, .idle) => some (s, some pid, false)
            | (s, .ready) =>
              match recv s ackMsg.length with
              | (s, none) => some (s, some pid, false)
              | (s, some answer) =>
                if 0 < answer.length then
                  if ackMsg.length + 1 ≤ answer.length then none
                  else some (s, some pid, true)
                else some (s, some pid, false)

/-- Decimal digits, least significant first. -/
def digitsRev (n : Nat) : List UInt8 :=
  if n < 10 then [UInt8.ofNat (48 + n)] else UInt8.ofNat (48 + n % 10) :: digitsRev (n / 10)

/-- `snprintf(msg, sizeof(msg), PID_FMT, pid)` with its terminator (passopenfile.c:189-195), as sent. `none`: it does not fit. -/
def pidMsg (pid : Nat) : Option (List UInt8) :=
  let m := bytes! "PID: " ++ (digitsRev pid).reverse ++ bytes! "\n"
  if m.length < pidMsgSize then some (m ++ [0]) else none

/-- What the caller's `*text` holds after the call, when `text` is not NULL. -/
inductive TextOut where
  | untouched
  | null
  | bytes (b : List UInt8)
deriving DecidableEq, Repr

/-- The text part of `PassOpenFile_Get` (passopenfile.c:232-270) for a size that was read and is not zero. `given`: `text` is not NULL. At
line 241 the test is on `*text`, which was set to NULL at line 231: reading it through a NULL `text` is undefined. -/
def getText (s : St) (given : Bool) (size : Nat) (old : TextOut) : Option (St × TextOut) :=
  match alloc s with
  | (s, buffer) =>
    if given = false then none
    else
      match old with
      | .untouched => none
      | .bytes _ =>
        if buffer then
          match recv s size with
          | (s, got) =>
            if (got.map List.length) = some size then some (s, .bytes (got.getD []))
            else some (freeBuf s buffer, old)
        else none
      | .null => some (freeBuf s buffer, .null)

/-- Lines 217-284 of `PassOpenFile_Get` (passopenfile.c:217-284), after the blob was received: the socket opened from it, and whether it is kept. -/
def getBlob (s : St) (given : Bool) (blob : List UInt8) : Option (St × Option Nat × TextOut) :=
  match s.env.wsa blob with
  | none => some (s, none, .untouched)
  | some d =>
    let s := { s with ledger := { s.ledger with opened := s.ledger.opened ++ [d] } }
    let text := if given then TextOut.null else .untouched
    match recv s 4 with
    | (s, got) =>
      let size := if (got.map List.length) = some 4 then le32 (got.getD []) else 0
      if size ≠ 0 then
        match getText s given size text with
        | none => none
        | some (s, text) =>
          if given && text = .null then some (closeSock s d, none, text)
          else some (s, some d, text)
      else some (s, some d, text)

/-- `PassOpenFile_Get` (passopenfile.c:185-309); the result is the descriptor or -1 (`none`). -/
def get (e : Env) (pid : Nat) (given : Bool) : Option (St × Option Nat × TextOut) :=
  match pidMsg pid with
  | none => none
  | some msg =>
    match send (start e) msg with
    | (s, _) =>
      match waitFor s with
      | (s, .error) => some (s, none, .untouched)
      | (s, .idle) => some (s, none, .untouched)
      | (s, .ready) =>
        match recv s blobSize with
        | (s, got) =>
          if (got.map List.length) = some blobSize then
            match getBlob s given (got.getD []) with
            | none => none
            | some (s, none, text) => some (s, none, text)
            | some (s, some d, text) =>
              match waitFor s with
              | (s, .error) => some (closeSock s d, none, text)
              | (s, .idle) => some (closeSock s d, none, text)
              | (s, .ready) =>
                match send s ackMsg with
                | (s, _) => some (s, some d, text)
          else some (s, none, .untouched)

end WinPass
