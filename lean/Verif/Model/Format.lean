import Verif.Model.Snprintf
import Verif.Model.Csv
/-! # Model of the functions that format into fresh memory or to a stream

alloc.c:31-40, 72-88 (`CheckResult`, `xasprintf`, `xvasprintf`), string_lib.c:38-60 (`StringVFormat`, `StringFormat`), misc_lib.c:55-90, 107-138 (`__ProgrammingError`, `__UnexpectedError`,
`xsnprintf`), csv_writer.c:86-94, 119-132 (`CsvWriterFieldF`, `CsvWriterFieldVF`) and libcompat/snprintf.c:1572-1653 (`rpl_vfprintf`, `rpl_vprintf`, `rpl_fprintf`, `rpl_printf`), all over the
`vsnprintf` and `vasprintf` of snprintf.c. -/
namespace Format
open Snprintf (Bytes Arg)

/-- How a call ends. -/
inductive Ending (α : Type) where
  | returns (x : α)
  | exits (code : Nat)
  | aborts
  deriving DecidableEq

/-- An `int` converted to `size_t`. -/
def asSize (i : Int) : Nat := (i % 18446744073709551616).toNat

/-- The first `n` bytes of a block, which `fwrite` reads; undefined if one is outside or uninitialised. -/
def readBytes (blk : List (Option UInt8)) (n : Nat) : Option Bytes := if n ≤ blk.length then (blk.take n).mapM id else none

/-- `fwrite(buf, 1, len, stream)`: the stream takes the first `min k len` bytes; the bytes taken and their number. -/
def fwrite (k : Nat) (blk : List (Option UInt8)) (len : Nat) : Option (Bytes × Int) := (readBytes blk len).map fun b => (b.take k, ((b.take k).length : Int))

/-- The end of `rpl_vfprintf` (snprintf.c:1605-1616). -/
def toStream (k : Nat) (blk : List (Option UInt8)) (len : Int) : Option (Bytes × Int) := if len > 0 then fwrite k blk len.toNat else some ([], len)

/-- `rpl_vfprintf` (snprintf.c:1572-1616), and so `rpl_fprintf`, `rpl_printf`, `rpl_vprintf` (1618-1652): what the stream, which takes at most `k` bytes, gets and what is returned.
`len >= sizeof(staticbuf)` and `len >= buf_size` compare as `size_t`. -/
def vfprintf (sep : Bytes) (mallocOk : Bool) (k : Nat) (format : Bytes) (args : List Arg) : Option (Bytes × Int) :=
  (Snprintf.vsnprintf sep (some (List.replicate 1024 none)) 1024 format args).bind fun r =>
    if 1024 ≤ asSize r.2.1 then
      if r.2.1 = 2147483647 then none
      else if mallocOk = false then some ([], -1)
      else (Snprintf.vsnprintf sep (some (List.replicate (asSize (r.2.1 + 1)) none)) (asSize (r.2.1 + 1)) format args).bind fun q =>
        toStream k q.1 (if asSize (r.2.1 + 1) ≤ asSize q.2.1 then -1 else q.2.1)
    else toStream k r.1 r.2.1

/-- `CheckResult` (alloc.c:30-39) of a pointer that must not be NULL. -/
def checkResult {α : Type} : Option α → Ending α
  | some p => .returns p
  | none => .exits 255

/-- `xvasprintf` and `xasprintf` (alloc.c:72-88). -/
def xvasprintf (sep : Bytes) (mallocOk : Bool) (format : Bytes) (args : List Arg) : Option (Ending (List (Option UInt8) × Int)) :=
  (Snprintf.vasprintf sep mallocOk format args).map fun r => checkResult (if r.2 = -1 then none else r.1.map fun b => (b, r.2))

/-- What `StringVFormat` does with the result of `xvasprintf`. -/
def formatted : Ending (List (Option UInt8) × Int) → Ending (Option (List (Option UInt8)))
  | .returns r => .returns (if r.2 < 0 then none else some r.1)
  | .exits c => .exits c
  | .aborts => .aborts

/-- `StringVFormat` and `StringFormat` (string_lib.c:38-60). -/
def stringFormat (sep : Bytes) (mallocOk : Bool) (format : Bytes) (args : List Arg) : Option (Ending (Option (List (Option UInt8)))) := (xvasprintf sep mallocOk format args).map formatted

/-- Both error functions (misc_lib.c:55-90): the format is put behind the place and a text, and printed; `stream` takes everything. The message. -/
def errorMessage (kind : Bytes) (file : Bytes) (line : Nat) (format : Bytes) (args : List Arg) : Option Bytes :=
  (xvasprintf [] true ([37, 115, 58, 37, 100, 58, 32] ++ kind ++ [37, 115, 10]) [.str (file ++ [0]), .w32 line, .str (format ++ [0])]).bind fun r =>
    match r with
    | .returns x => (CMem.str x.1).bind fun f => (vfprintf [] true 2147483647 f args).map Prod.fst
    | _ => none
/-- "Programming Error: " (misc_lib.c:61). -/
def programming : Bytes := [80, 114, 111, 103, 114, 97, 109, 109, 105, 110, 103, 32, 69, 114, 114, 111, 114, 58, 32]
/-- "Unexpected Error - this is a BUG, please report it: " (misc_lib.c:84). -/
def unexpected : Bytes := [85, 110, 101, 120, 112, 101, 99, 116, 101, 100, 32, 69, 114, 114, 111, 114, 32, 45, 32, 116, 104, 105, 115, 32, 105, 115, 32, 97, 32, 66, 85, 71, 44, 32, 112, 108, 101, 97, 115, 101, 32,
  114, 101, 112, 111, 114, 116, 32, 105, 116, 58, 32]
/-- How `__ProgrammingError` (misc_lib.c:55-71) ends; `__UnexpectedError` (78-90) returns. -/
def programmingError {α : Type} (ndebug : Bool) : Ending α := if ndebug then .exits 255 else .aborts

/-- `xsnprintf` (misc_lib.c:115-138): the buffer afterwards, or how the process ends. -/
def xsnprintf (sep : Bytes) (ndebug : Bool) (blk : List (Option UInt8)) (size : Nat) (format : Bytes) (args : List Arg) : Option (Ending (List (Option UInt8))) :=
  (Snprintf.vsnprintf sep (some blk) size format args).bind fun r =>
    if r.2.1 < 0 then (CMem.write r.1 0 (some 0)).map .returns
    else if size ≤ asSize r.2.1 then some (if ndebug then .returns r.1 else programmingError ndebug)
    else some (.returns r.1)

/-- What `CsvWriterFieldVF` does with the result of `xvasprintf` (csv_writer.c:129-131). -/
def csvPut (cw : CsvWriter.CW) : Ending (List (Option UInt8) × Int) → Option (Ending CsvWriter.CW)
  | .returns r => (CMem.str r.1).bind fun s => (CsvWriter.field cw s).map .returns
  | .exits c => some (.exits c)
  | .aborts => some .aborts

/-- `CsvWriterFieldF` and `CsvWriterFieldVF` (csv_writer.c:119-131, 119-131). -/
def csvFieldF (sep : Bytes) (mallocOk : Bool) (cw : CsvWriter.CW) (format : Bytes) (args : List Arg) : Option (Ending CsvWriter.CW) := (xvasprintf sep mallocOk format args).bind (csvPut cw)

end Format
