import Verif.Model.Bytes
import Verif.Model.Writers
import Verif.Model.StrTrim
import Verif.Model.StrNum
/-! # Model of libutils/man.c: the manual page of a program -/
namespace Man
open Writers

/-- The text of `WriteCopyright` (man.c:31-57). -/
def copyright : Bytes :=
  bytes! ".\\\"Copyright 2021 Northern.tech AS\n" ++
    bytes! ".\\\"\n" ++
    bytes! ".\\\"This file is part of CFEngine 3 - written and maintained by Northern.tech AS.\n" ++
    bytes! ".\\\"\n" ++
    bytes! ".\\\"This program is free software; you can redistribute it and/or modify it\n" ++
    bytes! ".\\\"under the terms of the GNU General Public License as published by the\n" ++
    bytes! ".\\\"Free Software Foundation; version 3.\n" ++
    bytes! ".\\\"\n" ++
    bytes! ".\\\"This program is distributed in the hope that it will be useful,\n" ++
    bytes! ".\\\"but WITHOUT ANY WARRANTY; without even the implied warranty of\n" ++
    bytes! ".\\\"MERCHANTABILITY or FITNESS FOR A PARTICULAR PURPOSE.  See the\n" ++
    bytes! ".\\\"GNU General Public License for more details.\n" ++
    bytes! ".\\\"\n" ++
    bytes! ".\\\"You should have received a copy of the GNU General Public License\n" ++
    bytes! ".\\\"along with this program; if not, write to the Free Software\n" ++
    bytes! ".\\\"Foundation, Inc., 59 Temple Place - Suite 330, Boston, MA  02111-1307, USA\n" ++
    bytes! ".\\\"\n" ++
    bytes! ".\\\"To the extent this program is licensed as part of the Enterprise\n" ++
    bytes! ".\\\"versions of CFEngine, the applicable Commercial Open Source License\n" ++
    bytes! ".\\\"(COSL) may apply to this file if you as a licensee so wish it. See\n" ++
    bytes! ".\\\"included file COSL.txt.\n"

/-- The text of `WriteAuthor` (man.c:88-95). -/
def author : Bytes :=
  bytes! ".SH AUTHOR\n" ++
    bytes! "Mark Burgess and Northern.tech AS\n"

/-- The text of `WriteSeeAlso` (man.c:168-181). -/
def seeAlso : Bytes :=
  bytes! ".SH \"SEE ALSO\"\n" ++
    bytes! ".BR cf-promises (8),\n" ++
    bytes! ".BR cf-agent (8),\n" ++
    bytes! ".BR cf-serverd (8),\n" ++
    bytes! ".BR cf-execd (8),\n" ++
    bytes! ".BR cf-monitord (8),\n" ++
    bytes! ".BR cf-runagent (8),\n" ++
    bytes! ".BR cf-key (8)\n"

/-- The text of `WriteBugs` (man.c:183-192). -/
def bugs : Bytes :=
  bytes! ".SH BUGS\n" ++
    bytes! "Please see the public bug-tracker at http://bug.cfengine.com/.\n" ++
    bytes! ".br\n" ++
    bytes! "GitHub pull-requests may be submitted to http://github.com/cfengine/core/.\n"

/-- The text of `WriteCFEngine` (man.c:194-207). -/
def cfengine : Bytes :=
  bytes! ".SH CFENGINE\n" ++
    bytes! "CFEngine provides automated configuration management of large-scale computer systems. A system administrator " ++
    bytes! "describes the desired state of a system using CFEngine policy code. The program \\fBcf-agent\\fR reads policy code " ++
    bytes! "and attempts to bring the current system state to the desired state described. Policy code is downloaded by " ++
    bytes! "\\fBcf-agent\\fR from a \\fBcf-serverd\\fR daemon. The daemon \\fBcf-execd\\fR is responsible for running " ++
    bytes! "\\fBcf-agent\\fR periodically.\n" ++
    bytes! ".br\n" ++
    bytes! "Documentation for CFEngine is available at http://cfengine.com/documentation/.\n"

/-- The text of `WritePromiseTheory` (man.c:209-224). -/
def promiseTheory : Bytes :=
  bytes! ".SH PROMISE THEORY\n" ++
    bytes! "CFEngine is built on principles from promise theory, proposed by Mark Burgess in 2004. " ++
    bytes! "Promise theory is a model of voluntary cooperation between individual, autonomous " ++
    bytes! "actors or agents who publish their intentions to one another in the form of promises. " ++
    bytes! "A promise is a declaration of intent whose purpose is to increase the recipient's certainty " ++
    bytes! "about a claim of past, present or future behaviour. For a promise to increase certainty, " ++
    bytes! "the recipient needs to trust the promiser, but trust can also be built on the verification " ++
    bytes! "that previous promises have been kept, thus trust plays a symbiotic relationship with promises. \n" ++
    bytes! ".br\n" ++
    bytes! "For an introduction to promise theory, please see http://arxiv.org/abs/0810.3294/\n"

/-- A writer in a world. -/
abbrev St := World × Handle

/-- `WriterWrite(out, t)`, its result ignored. -/
def say (t : Bytes) (s : St) : Option St := (write s.1 s.2 t).map fun r => (r.1, r.2.1)

/-- `WriterWriteF(out, …)` for a format giving `t`, its result ignored. -/
def sayF (t : Bytes) (s : St) : Option St := (writeF s.1 s.2 t).map fun r => (r.1, r.2.1)

/-- Decimal digits (`%d`, `%Y`). -/
def decimal (n : Int) : Bytes := if n < 0 then bytes! "-" ++ Str.natText n.natAbs else Str.natText n.natAbs

/-- Two digits (`%m`, `%d` of `strftime`). -/
def twoDigits (n : Nat) : Bytes := [UInt8.ofNat (48 + n / 10 % 10), UInt8.ofNat (48 + n % 10)]

/-- `gmtime_r` and `strftime(…, 19, "%Y-%m-%d", …)` (man.c:65-70): year, month and day come from the C library as `utc`;
a text that does not fit into 19 bytes with its terminator leaves the array unspecified. -/
def dateModified (utc : Int → Int × Nat × Nat) (t : Int) : Option Bytes :=
  let (y, m, d) := utc t
  let text := decimal y ++ bytes! "-" ++ twoDigits m ++ bytes! "-" ++ twoDigits d
  if text.length < 19 then some text else none

/-- The bytes of a C string in memory, up to its terminator. -/
def cstr : List (Option UInt8) → Option Bytes
  | [] => none
  | none :: _ => none
  | some c :: m => if c = 0 then some [] else (cstr m).map (c :: ·)

/-- `program_upper` (man.c:61-63): an array of 256 zeros, at most 254 characters stored by `snprintf`, then upper case in place. -/
def programUpper (program : Bytes) : Option Bytes := do
  let stored := program.take 254
  let m ← Str.toUpperStr (stored.map some ++ List.replicate (256 - stored.length) (some 0))
  cstr m

/-- `WriteHeader` (man.c:59-73). -/
def writeHeader (utc : Int → Int × Nat × Nat) (program : Bytes) (lastModified : Int) (s : St) : Option St := do
  let upper ← programUpper program
  let date ← dateModified utc lastModified
  sayF (bytes! ".TH " ++ upper ++ bytes! " 8 \"" ++ date ++ bytes! "\" \"CFEngine\" \"System Administration\"\n") s

/-- `WriteAvailability` (man.c:75-86). -/
def writeAvailability (program : Bytes) (s : St) : Option St :=
  sayF (bytes! ".SH AVAILABILITY\n" ++ program ++ bytes! " is part of CFEngine.\n" ++ bytes! ".br\n" ++
    bytes! "Binary packages may be downloaded from http://cfengine.com/downloads/.\n" ++ bytes! ".br\n" ++
    bytes! "The source code is available at http://github.com/cfengine/\n") s

/-- `WriteName` (man.c:97-104). -/
def writeName (program short : Bytes) (s : St) : Option St :=
  sayF (bytes! ".SH NAME\n" ++ program ++ bytes! " \\- " ++ short ++ bytes! "\n") s

/-- `WriteSynopsis` (man.c:106-129). -/
def writeSynopsis (program : Bytes) (command commandFirst file : Bool) (s : St) : Option St := do
  let s ← say (bytes! ".SH SYNOPSIS\n") s
  let s ← sayF (bytes! ".B " ++ program ++ bytes! "\n") s
  let s ← if command && commandFirst then say (bytes! ".RI COMMAND\n") s else some s
  let s ← say (bytes! ".RI [ OPTION ]...\n") s
  let s ← if command && !commandFirst then say (bytes! ".RI COMMAND\n") s else some s
  if file then say (bytes! ".RI [ FILE ]\n") s else say (bytes! "\n") s

/-- `WriteDescription` (man.c:131-134). -/
def writeDescription (description : Bytes) (s : St) : Option St :=
  sayF (bytes! ".SH DESCRIPTION\n" ++ description ++ bytes! "\n") s

/-- The loop of `WriteCommands` (man.c:141-147). -/
def commandsFrom (cs : List Descr) : Nat → St → Option St
  | i, s =>
    if hi : i < cs.length then
      match cs[i].name with
      | none => some s
      | some name => do
        let s ← sayF (bytes! ".IP \"" ++ name ++ bytes! "\"\n") s
        let s ← sayF (cs[i].description ++ bytes! ".\n") s
        let s ← say (bytes! ".br\n") s
        let s ← sayF (bytes! "Usage: " ++ cs[i].usage ++ bytes! "\n") s
        commandsFrom cs (i + 1) s
    else none
  termination_by i => cs.length - i

/-- `WriteCommands` (man.c:136-148). -/
def writeCommands (cs : List Descr) (s : St) : Option St := do
  let s ← say (bytes! ".SH COMMANDS\n") s
  commandsFrom cs 0 s

/-- One turn of the loop of `WriteOptions` (man.c:157-164); `%c` of a NUL character ends nothing in `vfprintf`, and that case is excluded by the theorems. -/
def optionText (name : Bytes) (o : Opt) (hint : Bytes) : Bytes :=
  if o.hasArg then bytes! ".IP \"--" ++ name ++ bytes! ", -" ++ [UInt8.ofNat (o.val % 256).toNat] ++ bytes! " value\"\n" ++ hint ++ bytes! "\n"
  else bytes! ".IP \"--" ++ name ++ bytes! ", -" ++ [UInt8.ofNat (o.val % 256).toNat] ++ bytes! "\"\n" ++ hint ++ bytes! "\n"

/-- The loop of `WriteOptions` (man.c:155-165); reading past the end of either array is undefined. -/
def optionsFrom (options : List Opt) (hints : List Bytes) : Nat → St → Option St
  | i, s =>
    if hi : i < options.length then
      match options[i].name with
      | none => some s
      | some name => do
        let hint ← hints[i]?
        let s ← sayF (optionText name options[i] hint) s
        optionsFrom options hints (i + 1) s
    else none
  termination_by i => options.length - i

/-- `WriteOptions` (man.c:150-166). -/
def writeOptions (options : List Opt) (hints : List Bytes) (s : St) : Option St := do
  let s ← say (bytes! ".SH OPTIONS\n") s
  optionsFrom options hints 0 s

/-- The time shown (man.c:232-238): that of SOURCE_DATE_EPOCH if it is set and begins with a positive number. -/
def timeShown (sourceDateEpoch : Option Bytes) (lastModified : Int) : Int :=
  match sourceDateEpoch with
  | none => lastModified
  | some e => if (Str.strtol e).1 > 0 then (Str.strtol e).1 else lastModified

/-- `ManPageWrite` (man.c:226-255). -/
def manPageWrite (utc : Int → Int × Nat × Nat) (sourceDateEpoch : Option Bytes) (program : Bytes) (lastModified : Int) (short long : Bytes)
    (options : List Opt) (hints : List Bytes) (commands : Option (List Descr)) (commandFirst file : Bool) (s : St) : Option St := do
  let t := timeShown sourceDateEpoch lastModified
  let s ← say copyright s
  let s ← writeHeader utc program t s
  let s ← writeName program short s
  let s ← writeSynopsis program commands.isSome commandFirst file s
  let s ← writeDescription long s
  let s ← match commands with
    | none => some s
    | some cs => writeCommands cs s
  let s ← writeOptions options hints s
  let s ← say cfengine s
  let s ← say promiseTheory s
  let s ← writeAvailability program s
  let s ← say bugs s
  let s ← say seeAlso s
  say author s

end Man
