import Verif.Model.Bytes
import Verif.Spec.Writers
/-! # Specification: reading a manual page

A page is read line by line; a line beginning with `.SH ` starts a section. Nothing of the program is used but the lists of options and commands of the help text. -/
namespace ManSpec
open WritersSpec (OptItem CmdItem)

abbrev Bytes := List UInt8

/-- The lines of a text. -/
def lines : Bytes → List Bytes
  | [] => []
  | c :: r =>
    if c = 10 then [] :: lines r
    else
      match lines r with
      | [] => [[c]]
      | l :: ls => (c :: l) :: ls

/-- A line that starts a section. -/
def heading (l : Bytes) : Bool := (bytes! ".SH ").isPrefixOf l

/-- The sections of a page: title and lines. -/
def sections : List Bytes → List (Bytes × List Bytes)
  | [] => []
  | l :: ls => if heading l then (l.drop 4, ls.takeWhile fun x => !heading x) :: sections ls else sections ls

/-- The lines before the first section. -/
def preamble (ls : List Bytes) : List Bytes := ls.takeWhile fun x => !heading x

/-- The lines of a comment in roff start so. -/
def comment (l : Bytes) : Bool := (bytes! ".\\\"").isPrefixOf l

/-- One line. -/
def OneLine (t : Bytes) : Prop := (10 : UInt8) ∉ t

/-- No line of it could be taken for a heading. -/
def Clean (t : Bytes) : Prop := ∀ l ∈ lines (t ++ [10]), heading l = false

/-- ASCII letters in upper case. -/
def upper (c : UInt8) : UInt8 := if 97 ≤ c ∧ c ≤ 122 then c - 32 else c

/-- A date as `YYYY-MM-DD`, for years of four digits. -/
def dateText (y m d : Nat) : Bytes :=
  let digit := fun n : Nat => UInt8.ofNat (48 + n % 10)
  [digit (y / 1000), digit (y / 100), digit (y / 10), digit y] ++ bytes! "-" ++ [digit (m / 10), digit m] ++ bytes! "-" ++ [digit (d / 10), digit d]

/-- The lines about an option with a short form. -/
def optEntry (o : OptItem) : List Bytes :=
  (bytes! ".IP \"--" ++ o.name ++ bytes! ", -" ++ [UInt8.ofNat o.val.toNat] ++ (if o.takesValue then bytes! " value\"" else bytes! "\"")) :: lines (o.hint ++ [10])

/-- The lines about a command. -/
def cmdEntry (c : CmdItem) : List Bytes :=
  [bytes! ".IP \"" ++ c.name ++ bytes! "\"", c.description ++ bytes! ".", bytes! ".br", bytes! "Usage: " ++ c.usage]

/-- The lines of the synopsis. -/
def synopsis (program : Bytes) (hasCommands commandFirst file : Bool) : List Bytes :=
  [bytes! ".B " ++ program] ++
  (match hasCommands, commandFirst with
   | false, _ => [bytes! ".RI [ OPTION ]..."]
   | true, true => [bytes! ".RI COMMAND", bytes! ".RI [ OPTION ]..."]
   | true, false => [bytes! ".RI [ OPTION ]...", bytes! ".RI COMMAND"]) ++
  [if file then bytes! ".RI [ FILE ]" else []]

/-- The page asked for. -/
structure Page where
  program : Bytes
  /-- seconds since 1970 -/
  modified : Int
  short : Bytes
  long : Bytes
  options : List OptItem
  commands : Option (List CmdItem)
  commandFirst : Bool
  file : Bool

/-- What the page must be like to be rendered faithfully: single lines where a line is meant, nothing that looks like a heading, a program name of
graphic ASCII characters, options with a short form. -/
structure Page.Good (p : Page) : Prop where
  program : ∀ c ∈ p.program, 33 ≤ c ∧ c ≤ 126
  program_start : heading (p.program ++ bytes! " ") = false
  short : OneLine p.short
  long : Clean p.long
  options : ∀ o ∈ p.options, OneLine o.name ∧ 32 < o.val ∧ o.val < 127 ∧ Clean o.hint
  commands : ∀ cs, p.commands = some cs → ∀ c ∈ cs, OneLine c.name ∧ OneLine c.description ∧ heading c.description = false ∧ OneLine c.usage

/-- The sections whose content depends on the program, in their order among the others. -/
def Page.expected (p : Page) (cfengine promise bugs see author : List Bytes) : List (Bytes × List Bytes) :=
  [(bytes! "NAME", [p.program ++ bytes! " \\- " ++ p.short]),
   (bytes! "SYNOPSIS", synopsis p.program p.commands.isSome p.commandFirst p.file),
   (bytes! "DESCRIPTION", lines (p.long ++ [10]))] ++
  (match p.commands with
   | none => []
   | some cs => [(bytes! "COMMANDS", cs.flatMap cmdEntry)]) ++
  [(bytes! "OPTIONS", p.options.flatMap optEntry),
   (bytes! "CFENGINE", cfengine), (bytes! "PROMISE THEORY", promise),
   (bytes! "AVAILABILITY", [p.program ++ bytes! " is part of CFEngine.", bytes! ".br",
      bytes! "Binary packages may be downloaded from http://cfengine.com/downloads/.", bytes! ".br",
      bytes! "The source code is available at http://github.com/cfengine/"]),
   (bytes! "BUGS", bugs), (bytes! "\"SEE ALSO\"", see), (bytes! "AUTHOR", author)]

/-- The line with the title, the date and the name of the manual. -/
def Page.title (p : Page) (y m d : Nat) : Bytes :=
  bytes! ".TH " ++ (p.program.take 254).map upper ++ bytes! " 8 \"" ++ dateText y m d ++ bytes! "\" \"CFEngine\" \"System Administration\""

end ManSpec
