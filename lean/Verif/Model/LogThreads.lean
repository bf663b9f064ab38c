import Verif.Model.Logging
/-!
# Logging by several threads at once (libutils/logging.c)

The steps between which another thread may run: looking up the thread's context, the two reads of the global level when a context is made,
storing the context, every single `fprintf` (stdio locks the stream for one call, not for several) and every `syslog` call.  The model of
single calls is `Verif.Model.Logging`; hooks are left out here.  A schedule is any list of thread numbers.
-/
namespace LogThreads
open Logging (Bytes Event levelToString levelToColor pad8 dropEol syslogPriority)

/-- What a thread calls. -/
inductive Call
  | setGlobal (level : Int)
  | setLevels (log report : Int)
  | setColor (color : Bool)
  | free
  | log (stamp : Bytes) (level : Int) (msg : Bytes)

/-- `LoggingContext` without its hook (logging.h:74-81). -/
structure Ctx where
  log : Int
  report : Int
  color : Bool
deriving DecidableEq

/-- Settings that no thread changes while logging goes on: `VPREFIX`, `AgentType`, `TIMESTAMPS` (logging.c:33-36). -/
structure Cfg where
  vprefix : Bytes
  agent : Bytes
  timestamps : Bool

/-- The atomic steps. -/
inductive Act
  | get
  | readLog
  | readReport
  | publish
  | setGlobal (level : Int)
  | levels (log report : Int)
  | color (color : Bool)
  | free
  | choose (stamp : Bytes) (level : Int) (msg : Bytes)
  | emit (e : Event)

/-- The calls of `fprintf` in `LogToConsole` (logging.c:210-240), in order. -/
def consolePieces (cfg : Cfg) (stamp : Bytes) (level : Int) (msg : Bytes) (color : Bool) : Option (List Event) := do
  let a ← if color then do some [.console (← levelToColor level)] else some []
  let b := if level ≥ 4 ∧ cfg.vprefix ≠ [] then [.console (cfg.vprefix ++ [32])] else []
  let c := if cfg.timestamps then [.console (stamp ++ [32])] else []
  let name ← levelToString level
  let d := [.console (pad8 name ++ [58, 32] ++ msg ++ [10])]
  let e := if color then [.console [27, 91, 48, 109]] else []
  some (a ++ b ++ c ++ d ++ e)

/-- `LogToSystemLog` (logging.c:261-266). -/
def syslogPiece (cfg : Cfg) (level : Int) (msg : Bytes) : Option Event := do
  let p ← syslogPriority level
  some (.syslog p (([67, 70, 69, 110, 103, 105, 110, 101, 40] ++ cfg.agent ++ [41, 32] ++ cfg.vprefix ++ [32] ++ msg ++ [10]).take 4095))

/-- What `VLog` (logging.c:323-375) is going to write, with its own context. -/
def pieces (cfg : Cfg) (c : Ctx) (stamp : Bytes) (level : Int) (msg : Bytes) : Option (List Event) := do
  let a ← if level ≤ c.report then consolePieces cfg stamp level (dropEol msg) c.color else some []
  let b ← if level ≤ c.log ∧ level < 5 then do some [← syslogPiece cfg level (dropEol msg)] else some []
  some (a ++ b)

/-- A thread: the calls left, the steps left of the current call, its context, and the two levels of a context that is being made. -/
structure Thread where
  prog : List Call
  acts : List Act
  ctx : Option Ctx
  fresh : Int × Int

structure St where
  global : Int
  th : Nat → Thread
  out : List (Nat × Event)

/-- The steps of a call: `LogSetGlobalLevel` (logging.c:561-565), `LoggingPrivSetLevels` (logging.c:105-110), `LoggingSetColor`
(logging.c:586-590), `LoggingFreeCurrentThreadContext` (logging.c:70-81), `VLog` (logging.c:323-375). -/
def start : Call → List Act
  | .setGlobal l => [.setGlobal l, .get, .levels l l]
  | .setLevels a b => [.get, .levels a b]
  | .setColor b => [.get, .color b]
  | .free => [.free]
  | .log s l m => [.get, .choose s l m]

def put (s : St) (t : Nat) (x : Thread) : St := { s with th := fun u => if u = t then x else s.th u }

/-- One step of thread `t`; `none` ends the program (`ProgrammingError` of an unknown level).  `get`, `readLog`, `readReport` and `publish`
are `GetCurrentThreadContext` (logging.c:56-68). -/
def step (cfg : Cfg) (s : St) (t : Nat) : Option St :=
  let x := s.th t
  match x.acts with
  | [] =>
    match x.prog with
    | [] => some s
    | c :: cs => some (put s t { x with prog := cs, acts := start c })
  | .get :: as =>
    match x.ctx with
    | none => some (put s t { x with acts := .readLog :: .readReport :: .publish :: as })
    | some _ => some (put s t { x with acts := as })
  | .readLog :: as => some (put s t { x with acts := as, fresh := (s.global, x.fresh.2) })
  | .readReport :: as => some (put s t { x with acts := as, fresh := (x.fresh.1, s.global) })
  | .publish :: as => some (put s t { x with acts := as, ctx := some ⟨x.fresh.1, x.fresh.2, false⟩ })
  | .setGlobal l :: as => some { put s t { x with acts := as } with global := l }
  | .levels a b :: as =>
    match x.ctx with
    | none => none
    | some c => some (put s t { x with acts := as, ctx := some ⟨a, b, c.color⟩ })
  | .color b :: as =>
    match x.ctx with
    | none => none
    | some c => some (put s t { x with acts := as, ctx := some ⟨c.log, c.report, b⟩ })
  | .free :: as => some (put s t { x with acts := as, ctx := none })
  | .choose st l m :: as =>
    match x.ctx with
    | none => none
    | some c => do
      let es ← pieces cfg c st l m
      some (put s t { x with acts := es.map .emit ++ as })
  | .emit e :: as => some { put s t { x with acts := as } with out := s.out ++ [(t, e)] }

/-- All threads before their first call; LOG_LEVEL_NOTICE (logging.c:38). -/
def init (prog : Nat → List Call) : St := ⟨3, fun t => ⟨prog t, [], none, (0, 0)⟩, []⟩

def run (cfg : Cfg) : List Nat → St → Option St
  | [], s => some s
  | t :: ts, s => do
    let s ← step cfg s t
    run cfg ts s

end LogThreads
