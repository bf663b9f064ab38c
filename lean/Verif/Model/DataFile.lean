import Verif.Model.Env
import Verif.Model.FileCopy
import Verif.Model.Csv
import Verif.Model.Io
import Verif.Model.Yaml
import Verif.Model.Path
/-! # Model of reading data files: the rest of libutils/json-utils.c, and JsonParseAnyFile of json.c

Opening a file (C50 and following, C110) either fails or gives a stream, which is the bytes of the file and whether reading fails at its end.  `NULL` results
and `false` are `none` inside the outer `Option`. -/

namespace DataFile
open Json
open FileCopy (Buf cfReadLine)

/-- A file opened for reading: its bytes, and whether the read after them fails. -/
structure Stream where
  bytes : Bytes
  bad : Bool

/-! ## ENV files -/

/-- `JsonObjectAppendString` of the key and value `ParseEnvLine` points out (json-utils.c:214-217, json.c:1057-1063). -/
def store (kids : List Elem) (line : List (Option UInt8)) (k v : Nat) : Option (List Elem) :=
  (CMem.str (line.drop k)).bind fun key => (CMem.str (line.drop v)).map fun value => appendElement kids key (stringCreate value)

/-- The loop of `JsonParseEnvFile` (json-utils.c:201-218): the children, `feof` and `byte_count`.  The edits `ParseEnvLine` makes to the line are not kept in
the buffer of the next call: `getline` writes the line anew before anything of it is read. `fuel` bounds the number of lines. -/
def envLoop (bad : Bool) (max : Nat) : Nat → Buf → Bytes → Nat → List Elem → Option (List Elem × Bool × Nat)
  | 0, _, _, _, _ => none
  | fuel + 1, buf, stream, count, kids =>
    match cfReadLine bad buf stream with
    | none => none
    | some (_, _, eof, none) => some (kids, eof, count)
    | some (buf, rest, eof, some _) =>
      match buf.1 with
      | none => none
      | some line =>
        match CMem.str line with
        | none => none
        | some l =>
          if count + l.length > max then some (kids, eof, count + l.length)
          else match Env.parseEnvLine line with
            | none => none
            | some none => envLoop bad max fuel buf rest (count + l.length) kids
            | some (some (line', k, v)) =>
              match store kids line' k v with
              | none => none
              | some kids => envLoop bad max fuel buf rest (count + l.length) kids

/-- `JsonParseEnvFile` (json-utils.c:180-235). -/
def parseEnvFile (file : Option Stream) (max : Nat) : Option (Option Elem) :=
  match file with
  | none => some none
  | some f =>
    match envLoop f.bad max (f.bytes.length + 2) (some (List.replicate 4096 none), 4096) f.bytes 0 [] with
    | none => none
    | some (kids, eof, count) => if !eof && decide (count ≤ max) then some none else some (some (.cont none .object kids))

/-! ## CSV files -/

/-- A line of fields as a JSON array (json-utils.c:280-291). -/
def row (fields : List Bytes) : Elem := .cont none .array (fields.map stringCreate)

/-- The loop of `JsonParseCsvFile` (json-utils.c:263-293): the children and `byte_count`. When it ends by itself the last read has met the end of the file, or
failed. -/
def csvLoop (max : Nat) : Nat → Bytes → Nat → List Elem → Option (List Elem × Nat)
  | 0, _, _, _ => none
  | fuel + 1, s, count, kids =>
    match CsvParser.getLineNext s with
    | none => none
    | some (none, _) => some (kids, count)
    | some (some block, s) =>
      match CMem.str (block.map some) with
      | none => none
      | some line =>
        if count + line.length > max then some (kids, count + line.length)
        else match CsvParser.parse line with
          | none => none
          | some none => csvLoop max fuel s (count + line.length) kids
          | some (some fields) => csvLoop max fuel s (count + line.length) (kids ++ [row fields])

/-- `JsonParseCsvFile` (json-utils.c:237-321). `feof` right after opening (252) is false. If the limit is passed `feof` does not matter (295-297); else the loop
ended by itself, and `feof` is false exactly when reading fails. -/
def parseCsvFile (file : Option Stream) (max : Nat) : Option (Option Elem) :=
  match file with
  | none => some none
  | some f =>
    match csvLoop max (f.bytes.length + 1) f.bytes 0 [] with
    | none => none
    | some (kids, count) => if f.bad && decide (count ≤ max) then some none else some (some (.cont none .array kids))

/-! ## JSON and YAML files -/

/-- `JsonParseAnyFile` (json.c:2746-2780): the outcome of a process that may be waiting for a read (`pending`). `events` stands for libyaml. -/
def parseAnyFile (rt : RealText) (events : Bytes → List Yaml.Event) (yaml : Bool) (file : Option Bytes) (max : Nat) (sched : List Io.Ev) :
    Option (Io.Out (Except Err Elem)) :=
  match file with
  | none => some (.done (.error .noSuchFile))
  | some bytes =>
    match Io.fileReadFromFd max Writer.stringWriter bytes sched with
    | none => none
    | some .pending => some .pending
    | some (.done (none, _)) => some (.done (.error .noSuchFile))
    | some (.done (some _, true)) => some (.done (.error .truncated))
    | some (.done (some w, false)) =>
      match Writer.dataZ w with
      | none => none
      | some block =>
        match CMem.str (block.map some) with
        | none => none
        | some data =>
          if yaml then (Yaml.parseString rt (events data)).map fun e => .done (.ok e)
          else (Json.parse data).map fun r => .done (r.map Prod.fst)

/-- `DataFileType` (json-utils.h:29-36). -/
inductive Kind where
  | unknown | json | yaml | env | csv
deriving DecidableEq, Repr

/-- A file as the tests of the world see it: its bytes, whether reading fails at the end (for streams), and the reads (for descriptors). -/
structure File where
  bytes : Bytes
  bad : Bool
  sched : List Io.Ev

/-- `JsonReadDataFile` (json-utils.c:323-381): the element, `none` for NULL. -/
def readDataFile (rt : RealText) (events : Bytes → List Yaml.Event) (kind : Kind) (file : Option File) (max : Nat) : Option (Io.Out (Option Elem)) :=
  match kind with
  | .env => (parseEnvFile (file.map fun f => ⟨f.bytes, f.bad⟩) max).map .done
  | .csv => (parseCsvFile (file.map fun f => ⟨f.bytes, f.bad⟩) max).map .done
  | _ =>
    match parseAnyFile rt events (kind == .yaml) (file.map File.bytes) max ((file.map File.sched).getD []) with
    | none => none
    | some .pending => some .pending
    | some (.done (.error _)) => some (.done none)
    | some (.done (.ok (.prim _ _ _))) => some (.done none)
    | some (.done (.ok e)) => some (.done (some e))

/-- `StringEqual_IgnoreCase` (string_lib.c:302-305, 272-285) on two strings. -/
def equalIgnoreCase (a b : Bytes) : Bool := Str.cmpSign Str.toLower a b == 0

/-- `GetDataFileTypeFromString` (json-utils.c:383-404). -/
def kindOfName (s : Bytes) : Kind :=
  if equalIgnoreCase s [121, 97, 109, 108] then .yaml
  else if equalIgnoreCase s [99, 115, 118] then .csv
  else if equalIgnoreCase s [101, 110, 118] then .env
  else if equalIgnoreCase s [106, 115, 111, 110] then .json
  else .unknown

/-- `GetDataFileTypeFromSuffix` (json-utils.c:406-425). -/
def kindOfSuffix (s : Bytes) : Option Kind :=
  (Path.endsWithCase s [46, 99, 115, 118] true).bind fun csv => if csv then some .csv else
  (Path.endsWithCase s [46, 121, 97, 109, 108] true).bind fun yaml => if yaml then some .yaml else
  (Path.endsWithCase s [46, 121, 109, 108] true).bind fun yml => if yml then some .yaml else
  (Path.endsWithCase s [46, 101, 110, 118] true).bind fun env => if env then some .env else
  some .json

/-- `DataFileTypeToString` (json-utils.c:427-442). -/
def nameOfKind : Kind → Bytes
  | .csv => [67, 83, 86]
  | .yaml => [89, 65, 77, 76]
  | .env => [69, 78, 86]
  | .json => [74, 83, 79, 78]
  | .unknown => [117, 110, 107, 110, 111, 119, 110]

end DataFile
