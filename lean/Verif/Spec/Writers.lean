import Verif.Spec.Buffer
/-! # Specification: the same text, to a string or to a file -/
namespace WritersSpec
open WriterSpec

abbrev Bytes := List UInt8

/-- The text a call adds to a file: as for a string, but a NUL character cannot be written. -/
def addedFile : Op → Bytes
  | .writeChar c => if c = 0 then [] else [c]
  | op => added op

/-- What a call returns when the file takes `room` more bytes: the number of bytes taken;
a formatted write that did not fit returns the largest `size_t`. -/
def count (room : Nat) (op : Op) : Nat :=
  if (addedFile op).length ≤ room then (addedFile op).length
  else
    match op with
    | .writeF _ => 2 ^ 64 - 1
    | _ => room

/-- What a series of calls returns. -/
def counts : Nat → List Op → List Nat
  | _, [] => []
  | room, op :: ops => count room op :: counts (room - (addedFile op).length) ops

/-- An option of the help text. -/
structure OptItem where
  name : Bytes
  takesValue : Bool
  /-- what `getopt_long` returns for it; printable ASCII if there is a short option -/
  val : Int
  hint : Bytes

/-- A command of the help text. -/
structure CmdItem where
  name : Bytes
  description : Bytes
  usage : Bytes

/-- The bytes of an ASCII text. -/
def ascii (s : String) : Bytes := s.toList.map fun c => UInt8.ofNat c.toNat

/-- `s` followed by blanks up to the width. -/
def column (width : Nat) (s : Bytes) : Bytes := s ++ List.replicate (width - s.length) 0x20

/-- The short form. -/
def short (val : Int) : Bytes :=
  if 0 < val ∧ val < 128 then ascii ", -" ++ [UInt8.ofNat val.toNat] else []

/-- The line about an option. -/
def optLine (o : OptItem) : Bytes :=
  ascii "  --" ++ column 12 o.name ++
    (if o.takesValue then short o.val ++ ascii " value" else column 10 (short o.val)) ++ ascii " - " ++ o.hint ++ ascii "\n"

/-- The lines about a command. -/
def cmdLines (c : CmdItem) : Bytes :=
  ascii "  " ++ column 12 c.name ++ ascii " - " ++ c.description ++ ascii ".\n" ++
  ascii "  " ++ List.replicate 12 0x20 ++ ascii "   Usage: " ++ c.usage ++ ascii "\n"

def optSection (os : List OptItem) : Bytes := ascii "\nOptions:\n" ++ os.flatMap optLine
def cmdSection (cs : List CmdItem) : Bytes := ascii "\nCommands:\n" ++ cs.flatMap cmdLines

def footer : Bytes :=
  ascii "\nWebsite: http://www.cfengine.com\n" ++
  ascii "This software is Copyright (C) 2008,2010-present Northern.tech AS.\n"

/-- The help text of a program; `cs = none`: it has no commands. -/
def help (component : Bytes) (os : List OptItem) (cs : Option (List CmdItem)) (commandFirst file : Bool) : Bytes :=
  let fileArg := if file then ascii " [FILE]" else []
  match cs, commandFirst with
  | none, _ => ascii "Usage: " ++ component ++ ascii " [OPTIONS]" ++ fileArg ++ ascii "\n" ++ optSection os ++ footer
  | some cs, true =>
    ascii "Usage: " ++ component ++ ascii " COMMAND" ++ ascii " [OPTIONS]" ++ fileArg ++ ascii "\n" ++ cmdSection cs ++ optSection os ++ footer
  | some cs, false =>
    ascii "Usage: " ++ component ++ ascii " [OPTIONS]" ++ ascii " COMMAND" ++ fileArg ++ ascii "\n" ++ optSection os ++ cmdSection cs ++ footer

end WritersSpec
