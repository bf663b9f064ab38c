import Verif.Model.Io
import Verif.Model.StrNum
/-! # Model of libutils/string_sequence.c

A sequence of strings is the list of the strings (the sequence itself is the subject of C04). `m` is the memory from a pointer to the end of its
allocation; an access beyond is undefined. Merely forming a pointer beyond the end is not counted as an access. -/
namespace StrSeq

/-! ## Splitting -/

/-- The loop of `SeqStringAddSplit` (string_sequence.c:14-43): `piece` are the characters from `prev` to `cur`. -/
def splitLoop (delim : UInt8) (seq : List (List UInt8)) (piece : List UInt8) : List UInt8 → List (List UInt8)
  | [] => if piece.length > 0 then seq ++ [piece] else seq
  | c :: rest => if c = delim then splitLoop delim (seq ++ [piece]) [] rest else splitLoop delim seq (piece ++ [c]) rest

/-- `SeqStringFromString` (string_sequence.c:46-53). -/
def fromString (str : List UInt8) (delim : UInt8) : List (List UInt8) := splitLoop delim [] [] str

/-- `SeqStringContains` (string_sequence.c:55-69). -/
def contains (str : List UInt8) : List (List UInt8) → Bool
  | [] => false
  | s :: seq => if str = s then true else contains str seq

/-- `SeqStringLength` (string_sequence.c:71-83); `int` arithmetic, overflow is undefined. -/
def totalLength (total : Nat) : List (List UInt8) → Option Nat
  | [] => some total
  | s :: seq => if total + s.length ≤ 2147483647 then totalLength (total + s.length) seq else none

/-! ## Writing -/

/-- `printf("%-10zu")` (C library). -/
def prefixText (n : Nat) : List UInt8 := Str.natText n ++ List.replicate (10 - (Str.natText n).length) 32

/-- `WriteLenPrefixedString` (string_sequence.c:144-156). -/
def writePrefixed (w : Writer.W) (s : List UInt8) : Option (Writer.W × Bool) := do
  let (w, n) ← Writer.writeF w (prefixText s.length ++ s ++ [10])
  some (w, n ≠ 0)

/-- `SeqStringWrite` (string_sequence.c:158-171). -/
def write (w : Writer.W) : List (List UInt8) → Option (Writer.W × Bool)
  | [] => some (w, true)
  | s :: seq => do
    let (w, ok) ← writePrefixed w s
    if ok then write w seq else some (w, false)

/-- `SeqStringSerialize` (string_sequence.c:173-178): the string with its terminator. -/
def serialize (seq : List (List UInt8)) : Option (List UInt8) := do
  let (w, _) ← write Writer.stringWriter seq
  Writer.dataZ w

/-! ## Reading -/

/-- `HasNulByte` (string_sequence.c:88-98). -/
def hasNul (m : List UInt8) (i : Nat) : Nat → Option Bool
  | 0 => some false
  | n + 1 => do
    let c ← m[i]?
    if c = 0 then some true else hasNul m (i + 1) n

/-- `sscanf(data, "%ld", &length)` (C library): as `strtol`, reading up to the first character that does not belong to the number. `none` inside:
no item matched. -/
def scanLong (m : List UInt8) : Option (Option Int) :=
  match Str.strtoParse m with
  | none => if m.all Str.isspace then none else some none
  | some (_, _, e) => if e < m.length then some (some (Str.strtol m).1) else none

/-- The conversion and the last check of `GetLengthPrefix` (string_sequence.c:116-125). -/
def prefixValue (m : List UInt8) : Option Int :=
  match scanLong m with
  | none => none
  | some none => some (-1)
  | some (some v) => if v < 0 then some (-1) else some v

/-- `GetLengthPrefix` (string_sequence.c:98-126). -/
def lengthPrefix (m : List UInt8) : Option Int := do
  let z ← hasNul m 0 10
  if z then some (-1)
  else do
    let c ← m[0]?
    if Str.isdigit c then do
      let d ← m[9]?
      if d ≠ 32 then some (-1) else prefixValue m
    else some (-1)

/-- `ValidDuplicate` (string_sequence.c:128-142): `none` inside is NULL, else the allocated block. -/
def validDup (m : List UInt8) (n : Nat) : Option (Option (List (Option UInt8))) := do
  let src ← CMem.str (m.map some)
  let (dst, len) ← Str.stringCopy src (List.replicate (n + 1) (some 0)) (n + 1)
  if len < n then some none else some (some dst)

/-- Body of the loop of `SeqStringDeserialize` (string_sequence.c:213-234): `none` inside means return NULL; else the new string and how far to advance. -/
def deserStep (m : List UInt8) : Option (Option (List UInt8 × Nat)) := do
  let len ← lengthPrefix m
  if len < 0 then some none
  else do
    let src := m.drop 10
    let b ← m[9]?
    if b ≠ 32 then some none
    else do
      let d ← validDup src len.toNat
      match d with
      | none => some none
      | some dst => do
        let e ← src[len.toNat]?
        if e ≠ 10 then some none
        else do
          let s ← CMem.str dst
          some (some (s, 10 + len.toNat + 1))

/-- `SeqStringDeserialize` (string_sequence.c:203-238); `none` inside is NULL. -/
def deserLoop (seq : List (List UInt8)) (m : List UInt8) : Option (Option (List (List UInt8))) :=
  match m with
  | [] => none
  | c :: m' =>
    if c = 0 then some (some seq)
    else match deserStep (c :: m') with
      | none => none
      | some none => some none
      | some (some (s, n)) => deserLoop (seq ++ [s]) (m'.drop (n - 1))
termination_by m.length
decreasing_by simp; omega

def deserialize (m : List UInt8) : Option (Option (List (List UInt8))) := deserLoop [] m

/-! ## Files -/

/-- All cells initialised. -/
def allInit : List (Option UInt8) → Option (List UInt8)
  | [] => some []
  | none :: _ => none
  | some c :: m => (allInit m).map (c :: ·)

/-- The second half of `ReadLenPrefixedString` (string_sequence.c:258-272), with the length from the prefix. -/
def readBody (length : Int) (fd : Io.Fd) : Option (Io.Out (Int × List UInt8 × Io.Fd)) := do
  let size := length + 1
  let data := List.replicate size.toNat (none : Option UInt8)
  let r ← Io.fullRead data 0 size.toNat 0 fd.rest fd.sched
  match r with
  | .pending => some .pending
  | .done (n, data, fd) =>
    if n ≠ size then some (.done (-1, [], fd))
    else if length < 0 then none  -- data[-1]
    else do
      let c ← CMem.get data length.toNat
      if c ≠ 10 then some (.done (-1, [], fd))
      else do
        let data ← CMem.write data length.toNat (some 0)
        let s ← allInit (data.take length.toNat)
        some (.done (1, s, fd))

/-- `ReadLenPrefixedString` (string_sequence.c:241-272): the result and, for 1, the bytes before the terminator put at the end. A failing `assert` is
undefined (with NDEBUG the code goes on with uninitialised bytes). `sscanf` is modelled as reading only as far as it needs, although `prefix` is not
NUL terminated. -/
def readPrefixed (fd : Io.Fd) : Option (Io.Out (Int × List UInt8 × Io.Fd)) := do
  let r ← Io.fullRead (List.replicate 10 none) 0 10 0 fd.rest fd.sched
  match r with
  | .pending => some .pending
  | .done (n, buf, fd) =>
    if n = 0 then some (.done (0, [], fd))
    else if n < 0 then some (.done (-1, [], fd))
    else do
      let c ← CMem.get buf 9
      if c ≠ 32 then none
      else do
        let p ← allInit buf
        let length ← lengthPrefix p
        readBody length fd

/-- `SeqStringReadFile` (string_sequence.c:274-304) after the file is open; `fuel` bounds the number of records. -/
def readFile (seq : List (List UInt8)) (fd : Io.Fd) : Nat → Option (Io.Out (Option (List (List UInt8))))
  | 0 => some .pending
  | fuel + 1 =>
    match readPrefixed fd with
    | none => none
    | some .pending => some .pending
    | some (.done (r, s, fd)) =>
      if r < 0 then some (.done none)
      else if r = 0 then some (.done (some seq))
      else readFile (seq ++ [s]) fd fuel

end StrSeq
