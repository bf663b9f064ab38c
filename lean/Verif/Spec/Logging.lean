import Verif.Model.Logging
/-! # Specification of logging: whose setting counts, where a message goes, names of levels and modules -/
namespace LoggingSpec
open Logging (Bytes Event Priv)

/-! ## Settings as a function of the history -/

/-- The calls of the interface. -/
inductive Call
  | setGlobal (level : Int)
  | setLevels (log report : Int)
  | setHook (p : Option Priv)
  | setColor (color : Bool)
  | free
  | wouldLog (level : Int)
  | log (stamp : Bytes) (level : Int) (msg : Bytes)

/-- Who called what, newest first. -/
abbrev History := List (Nat × Call)

/-- The level last set globally by anybody; notice (3) at first. -/
def globalOf : History → Int
  | [] => 3
  | (_, .setGlobal l) :: _ => l
  | _ :: h => globalOf h

/-- The levels for syslog and for the console of a thread that has used logging (since it last freed its context): those it set last, or the global level at the time of its first use. -/
def own (t : Nat) : History → Option (Int × Int)
  | [] => none
  | (u, c) :: h =>
    if u ≠ t then own t h
    else match c with
      | .setGlobal l => some (l, l)
      | .setLevels a b => some (a, b)
      | .free => none
      | _ => some ((own t h).getD (globalOf h, globalOf h))

/-- The levels that count for a thread. -/
def levels (t : Nat) (h : History) : Int × Int := (own t h).getD (globalOf h, globalOf h)

/-- The hook the thread set last, if it has not freed its context since. -/
def hookOf (t : Nat) : History → Option Priv
  | [] => none
  | (u, c) :: h =>
    if u ≠ t then hookOf t h
    else match c with
      | .setHook p => p
      | .free => none
      | _ => hookOf t h

/-- Likewise colours. -/
def colorOf (t : Nat) : History → Bool
  | [] => false
  | (u, c) :: h =>
    if u ≠ t then colorOf t h
    else match c with
      | .setColor b => b
      | .free => false
      | _ => colorOf t h

/-! ## Where a message goes -/

/-- Standard output gets messages at least as important as the thread's report level. -/
def toConsole (l : Int × Int) (level : Int) : Prop := level ≤ l.2
/-- Syslog gets messages at least as important as the log level, but none of verbose (5) and debug (6). -/
def toSyslog (l : Int × Int) (level : Int) : Prop := level ≤ l.1 ∧ level ≤ 4
/-- The hook is called for every message that goes somewhere, and for those at least as important as its own level. -/
def forced (p : Option Priv) (level : Int) : Prop := ∃ q f, p = some q ∧ q.hook = some f ∧ level ≤ q.force

/-- "CRITICAL", "error", "warning", "notice", "info", "verbose", "debug". -/
def label (level : Int) : Bytes :=
  ([[67, 82, 73, 84, 73, 67, 65, 76],
   [101, 114, 114, 111, 114],
   [119, 97, 114, 110, 105, 110, 103],
   [110, 111, 116, 105, 99, 101],
   [105, 110, 102, 111],
   [118, 101, 114, 98, 111, 115, 101],
   [100, 101, 98, 117, 103]] : List Bytes).getD level.toNat []

/-- The message as shown: without an end of line at its end. -/
def body (msg : Bytes) : Bytes := if msg.getLast? = some 10 then msg.dropLast else msg

/-- What the hook, if any, makes of a message. -/
def hooked (p : Option Priv) (level : Int) (msg : Bytes) : Bytes :=
  match p with
  | some ⟨some f, _⟩ => f level msg
  | _ => msg

/-- Red, red, yellow, green, green, blue, blue. -/
def colorDigit (level : Int) : UInt8 := ([49, 49, 51, 50, 50, 52, 52] : List UInt8).getD level.toNat 0

/-- The line on standard output: colour, the prefix from information on, the time, the label right-aligned in 8 columns, the message. -/
def consoleLine (vprefix : Bytes) (time : Option Bytes) (color : Bool) (level : Int) (msg : Bytes) : Bytes :=
  (if color then [27, 91, 51, colorDigit level, 109] else []) ++ (if level ≥ 4 ∧ vprefix ≠ [] then vprefix ++ [32] else []) ++ (match time with | some s => s ++ [32] | none => []) ++
    List.replicate (8 - (label level).length) 32 ++ label level ++ [58, 32] ++ msg ++ [10] ++ (if color then [27, 91, 48, 109] else [])

/-- The line in syslog: "CFEngine(agent) prefix message" and end of line, at most 4095 bytes of it. -/
def syslogLine (agent vprefix msg : Bytes) : Bytes := ([67, 70, 69, 110, 103, 105, 110, 101, 40] ++ agent ++ [41, 32] ++ vprefix ++ [32] ++ msg ++ [10]).take 4095

/-- There is a hook. -/
def hasHook (p : Option Priv) : Prop := ∃ q f, p = some q ∧ q.hook = some f

/-- The message is wanted by somebody. -/
def wanted (l : Int × Int) (p : Option Priv) (level : Int) : Prop := toConsole l level ∨ toSyslog l level ∨ forced p level

open Classical in
/-- Everything a message causes, in order: the hook sees it, standard output and syslog get what the hook made of it (syslog priorities: 2 is critical). -/
noncomputable def events (vprefix agent : Bytes) (time : Option Bytes) (l : Int × Int) (p : Option Priv) (color : Bool) (level : Int) (msg : Bytes) : List Event :=
  (if hasHook p ∧ wanted l p level then [.hooked level (body msg)] else []) ++
  (if toConsole l level then [.console (consoleLine vprefix time color level (hooked p level (body msg)))] else []) ++
  (if toSyslog l level then [.syslog (level + 2).toNat (syslogLine agent vprefix (hooked p level (body msg)))] else [])

/-! ## Names -/

/-- The names of which a prefix may be given, from level 0. -/
def levelNames : List Bytes :=
  [[67, 82, 73, 84, 73, 67, 65, 76],
   [101, 114, 114, 111, 114, 115],
   [119, 97, 114, 110, 105, 110, 103, 115],
   [110, 111, 116, 105, 99, 101, 115],
   [105, 110, 102, 111, 114, 109, 97, 116, 105, 111, 110],
   [118, 101, 114, 98, 111, 115, 101],
   [100, 101, 98, 117, 103]]

/-- ASCII lower case. -/
def lower (c : UInt8) : UInt8 := if 65 ≤ c ∧ c ≤ 90 then c + 32 else c

/-- The modules from number 1: evalctx, expand, iterations, parser, vartable, vars, locks, ps. -/
def moduleNames : List Bytes :=
  [[101, 118, 97, 108, 99, 116, 120],
   [101, 120, 112, 97, 110, 100],
   [105, 116, 101, 114, 97, 116, 105, 111, 110, 115],
   [112, 97, 114, 115, 101, 114],
   [118, 97, 114, 116, 97, 98, 108, 101],
   [118, 97, 114, 115],
   [108, 111, 99, 107, 115],
   [112, 115]]

def help : Bytes := [104, 101, 108, 112]
def all : Bytes := [97, 108, 108]

/-- A token asks for module `i`. -/
def asks (tok : Bytes) (i : Nat) : Prop := tok = all ∨ moduleNames[i - 1]? = some tok
/-- A token nobody knows. -/
def unknown (tok : Bytes) : Bool := tok ∉ help :: all :: moduleNames

/-- The unit and the name of it. -/
def units : List (Int × Bytes) := [(1, [98, 121, 116, 101, 115]), (1024, [75, 105, 66]), (1024 ^ 2, [77, 105, 66]), (1024 ^ 3, [71, 105, 66])]

end LoggingSpec
