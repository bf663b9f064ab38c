import Verif.Model.LogThreads
/-! # Specification of logging by several threads -/
namespace LogThreadsSpec
open Logging (Bytes Event)
open LogThreads (Call Cfg)

/-- The name of a level, right-aligned in eight columns, for the levels 0 to 6. -/
def title : Int → Bytes
  | 0 => [67, 82, 73, 84, 73, 67, 65, 76]
  | 1 => [32, 32, 32, 101, 114, 114, 111, 114]
  | 2 => [32, 119, 97, 114, 110, 105, 110, 103]
  | 3 => [32, 32, 110, 111, 116, 105, 99, 101]
  | 4 => [32, 32, 32, 32, 105, 110, 102, 111]
  | 5 => [32, 118, 101, 114, 98, 111, 115, 101]
  | _ => [32, 32, 32, 100, 101, 98, 117, 103]

/-- A message without one end of line at its end. -/
def body (msg : Bytes) : Bytes := if msg.getLast? = some 10 then msg.dropLast else msg

/-- The line on the console. -/
def line (level : Int) (msg : Bytes) : Bytes := title level ++ [58, 32] ++ body msg ++ [10]

/-- What one message puts on the console: colour, prefix (from information on), time, line, end of colour; empty parts are not written. -/
def console (cfg : Cfg) (color : Bool) (stamp : Bytes) (level : Int) (msg : Bytes) : List Event :=
  (if color then [.console (if level ≤ 1 then [27, 91, 51, 49, 109] else if level = 2 then [27, 91, 51, 51, 109] else
    if level ≤ 4 then [27, 91, 51, 50, 109] else [27, 91, 51, 52, 109])] else []) ++
  (if 4 ≤ level ∧ cfg.vprefix ≠ [] then [.console (cfg.vprefix ++ [32])] else []) ++
  (if cfg.timestamps then [.console (stamp ++ [32])] else []) ++
  [.console (line level msg)] ++
  (if color then [.console [27, 91, 48, 109]] else [])

/-- What one message puts into the system log: one entry, with the priority of the level. -/
def system (cfg : Cfg) (level : Int) (msg : Bytes) : List Event :=
  [.syslog (if level = 6 then 7 else level.toNat + 2)
    (([67, 70, 69, 110, 103, 105, 110, 101, 40] ++ cfg.agent ++ [41, 32] ++ cfg.vprefix ++ [32] ++ body msg ++ [10]).take 4095)]

/-- The output of one message under the given levels. -/
def message (cfg : Cfg) (log report : Int) (color : Bool) (stamp : Bytes) (level : Int) (msg : Bytes) : List Event :=
  (if level ≤ report then console cfg color stamp level msg else []) ++ (if level ≤ log ∧ level < 5 then system cfg level msg else [])

/-- The output of a thread that makes these calls one after another.  `G` says which values the global level may have when the thread
makes its settings; settings are those of the thread itself only: syslog level, console level, colour. -/
inductive Alone (cfg : Cfg) (G : Int → Prop) : Option (Int × Int × Bool) → List Call → List Event → Prop
  | done c : Alone cfg G c [] []
  | first cs g1 g2 out : G g1 → G g2 → Alone cfg G (some (g1, g2, false)) cs out → Alone cfg G none cs out
  | setGlobal a b col l cs out : Alone cfg G (some (l, l, col)) cs out → Alone cfg G (some (a, b, col)) (.setGlobal l :: cs) out
  | setLevels a b col a' b' cs out : Alone cfg G (some (a', b', col)) cs out → Alone cfg G (some (a, b, col)) (.setLevels a' b' :: cs) out
  | setColor a b col col' cs out : Alone cfg G (some (a, b, col')) cs out → Alone cfg G (some (a, b, col)) (.setColor col' :: cs) out
  | free c cs out : Alone cfg G none cs out → Alone cfg G c (.free :: cs) out
  | log a b col stamp level msg cs out : Alone cfg G (some (a, b, col)) cs out →
      Alone cfg G (some (a, b, col)) (.log stamp level msg :: cs) (message cfg a b col stamp level msg ++ out)

/-- The values the global level can have: the initial one and those that some thread sets. -/
def Global (prog : Nat → List Call) (l : Int) : Prop := l = 3 ∨ ∃ t, Call.setGlobal l ∈ prog t

/-- What a thread has written. -/
def by' (t : Nat) (out : List (Nat × Event)) : List Event := (out.filter (·.1 == t)).map (·.2)

/-- The bytes on the console. -/
def text : List (Nat × Event) → Bytes
  | [] => []
  | (_, .console x) :: es => x ++ text es
  | _ :: es => text es

/-- All bytes that one message puts on the console. -/
def entry (cfg : Cfg) (color : Bool) (stamp : Bytes) (level : Int) (msg : Bytes) : Bytes := text ((console cfg color stamp level msg).map (0, ·))

/-- Levels of messages are those of the enumeration. -/
def Valid (cs : List Call) : Prop := ∀ s l m, Call.log s l m ∈ cs → 0 ≤ l ∧ l ≤ 6

end LogThreadsSpec
