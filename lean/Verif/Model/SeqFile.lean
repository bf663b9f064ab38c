import Verif.Model.StrSeq
import Verif.Model.Io
/-! # Model of SeqStringWriteFile, SeqStringWriteFileStream and the descriptors of SeqStringReadFile (libutils/string_sequence.c)

An output stream of the C library keeps bytes in its own buffer and passes them to the file when it likes; any call may fail, having
passed on some of the bytes and kept or dropped the others. Which of this happens is chosen by an arbitrary schedule. -/
namespace SeqFile

abbrev Bytes := List UInt8

/-- How the C library completes one `vfprintf`: it passes `flushed` bytes of its buffer to the file; on failure it keeps only `kept`
of the others for later. -/
inductive OutEv where
  | ok (flushed : Nat)
  | fail (flushed kept : Nat)

/-- A stream open for writing: the bytes in the buffer of the library, the bytes in the file. -/
structure Stream where
  pending : Bytes
  disk : Bytes

/-- `INT_MAX`. -/
def intMax : Nat := 2147483647

/-- `vfprintf` (C library) for a format that produces `text`: the number of bytes, or a negative number if it fails, as it does for
every text longer than `INT_MAX`. -/
def vfprintf (s : Stream) (text : Bytes) : OutEv → Stream × Int
  | .ok n =>
    (⟨(s.pending ++ text).drop n, s.disk ++ (s.pending ++ text).take n⟩, if text.length ≤ intMax then text.length else -1)
  | .fail n k => (⟨((s.pending ++ text).drop n).take k, s.disk ++ (s.pending ++ text).take n⟩, -1)

/-- `FileWriterWriteF` (writer.c:122-126): the `int` is returned as a `size_t` of 64 bits. -/
def fileWriterWriteF (s : Stream) (text : Bytes) (e : OutEv) : Stream × Nat :=
  let (s, r) := vfprintf s text e
  (s, (r % 2 ^ 64).toNat)

/-- `WriteLenPrefixedString` (string_sequence.c:144-156) on a file writer. -/
def writeLenPrefixed (s : Stream) (str : Bytes) (e : OutEv) : Stream × Bool :=
  let (s, written) := fileWriterWriteF s (StrSeq.prefixText str.length ++ str ++ [10]) e
  if written = 0 then (s, false) else (s, true)

/-- `SeqStringWrite` (string_sequence.c:158-171) on a file writer; `ev i` is how the `i`-th call of `vfprintf` completes. -/
def seqStringWrite (ev : Nat → OutEv) (s : Stream) (i : Nat) : List Bytes → Stream × Bool
  | [] => (s, true)
  | str :: seq =>
    match writeLenPrefixed s str (ev i) with
    | (s, false) => (s, false)
    | (s, true) => seqStringWrite ev s (i + 1) seq

/-- `SeqStringWriteFileStream` (string_sequence.c:180-188). -/
def seqStringWriteFileStream (ev : Nat → OutEv) (seq : List Bytes) (s : Stream) : Stream × Bool := seqStringWrite ev s 0 seq

/-- `fclose` (C library): everything buffered reaches the file, or, when it fails (`some n`), `n` bytes of it. -/
def fclose (s : Stream) : Option Nat → Bytes × Bool
  | none => (s.disk ++ s.pending, true)
  | some n => (s.disk ++ s.pending.take n, false)

/-- `SeqStringWriteFile` (string_sequence.c:190-201): the content of the file afterwards and the result. `opened` says whether
`safe_fopen(file, "w")` succeeded, which empties the file. -/
def seqStringWriteFile (opened : Bool) (old : Bytes) (ev : Nat → OutEv) (close : Option Nat) (seq : List Bytes) : Bytes × Bool :=
  if opened then
    let (s, written) := seqStringWriteFileStream ev seq ⟨[], []⟩
    let (disk, closed) := fclose s close
    (disk, written && closed)
  else (old, false)

/-- `SeqStringReadFile` (string_sequence.c:274-304) with its `safe_open`: `file` is the file (`none`: it cannot be opened), `fds` the
number of descriptors the process has open, `limit` how many it may have. The function never closes the descriptor. -/
def seqStringReadFile (limit fuel : Nat) (fds : Nat) (file : Option Io.Fd) : Option (Io.Out (Option (List Bytes) × Nat)) :=
  match file with
  | none => some (.done (none, fds))
  | some fd =>
    if fds < limit then
      match StrSeq.readFile [] fd fuel with
      | none => none
      | some .pending => some .pending
      | some (.done r) => some (.done (r, fds + 1))
    else some (.done (none, fds))

end SeqFile
