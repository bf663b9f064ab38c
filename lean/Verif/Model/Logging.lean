import Verif.Model.StrNum
/-! # Model of logging (libutils/logging.c, logging.h, logging_priv.h)

Each thread has its own context; the model runs the calls of the threads one after another. Strings are lists of bytes without NUL; the formatted message (`StringVFormat`) is an argument. `none` is
undefined behaviour, a failed assertion or `ProgrammingError`. Levels are the values of the enum (logging.h:36-46): -1 nothing, 0 critical, 1 error, 2 warning, 3 notice, 4 information, 5 verbose, 6 debug. -/
namespace Logging

abbrev Bytes := List UInt8

/-- `LogLevelToString` (logging.c:112-133): "CRITICAL", "error", "warning", "notice", "info", "verbose", "debug". -/
def levelToString (level : Int) : Option Bytes :=
  if level = 0 then some [67, 82, 73, 84, 73, 67, 65, 76]
  else if level = 1 then some [101, 114, 114, 111, 114]
  else if level = 2 then some [119, 97, 114, 110, 105, 110, 103]
  else if level = 3 then some [110, 111, 116, 105, 99, 101]
  else if level = 4 then some [105, 110, 102, 111]
  else if level = 5 then some [118, 101, 114, 98, 111, 115, 101]
  else if level = 6 then some [100, 101, 98, 117, 103]
  else none

/-- `StringEqualN_IgnoreCase` (string_lib.c:307-310) of strings at different addresses. -/
def equalNI (s t : Bytes) (n : Nat) : Bool := Str.cmpSignN Str.toLower n s t == 0

/-- `LogLevelFromString` (logging.c:135-173); NULL is `none`. -/
def levelFromString (s : Option Bytes) : Int :=
  match s with
  | none => -1
  | some s =>
    if s.length = 0 then -1
    else if equalNI s [67, 82, 73, 84, 73, 67, 65, 76] s.length then 0
    else if equalNI s [101, 114, 114, 111, 114, 115] s.length then 1
    else if equalNI s [119, 97, 114, 110, 105, 110, 103, 115] s.length then 2
    else if equalNI s [110, 111, 116, 105, 99, 101, 115] s.length then 3
    else if equalNI s [105, 110, 102, 111, 114, 109, 97, 116, 105, 111, 110] s.length then 4
    else if equalNI s [118, 101, 114, 98, 111, 115, 101] s.length then 5
    else if equalNI s [100, 101, 98, 117, 103] s.length then 6
    else -1

/-- `LogLevelToColor` (logging.c:175-198): red, yellow, green, blue. -/
def levelToColor (level : Int) : Option Bytes :=
  if level = 0 ∨ level = 1 then some [27, 91, 51, 49, 109]
  else if level = 2 then some [27, 91, 51, 51, 109]
  else if level = 3 ∨ level = 4 then some [27, 91, 51, 50, 109]
  else if level = 5 ∨ level = 6 then some [27, 91, 51, 52, 109]
  else none

/-- `LoggingPrivContext` (logging_priv.h:36-51): the hook, if any, as a function of level and message. -/
structure Priv where
  hook : Option (Int → Bytes → Bytes)
  force : Int

/-- `LoggingContext` (logging.h:74-81). -/
structure Ctx where
  log : Int
  report : Int
  color : Bool
  pctx : Option Priv

/-- The global variables (logging.c:33-41, 419) and the threads' contexts. -/
structure State where
  global : Int
  ctx : Nat → Option Ctx
  enabled : Nat → Bool
  vprefix : Bytes
  agent : Bytes
  timestamps : Bool

/-- The initial state: LOG_LEVEL_NOTICE, "generic". -/
def State.init : State := ⟨3, fun _ => none, fun _ => false, [], [103, 101, 110, 101, 114, 105, 99], false⟩

/-- What can be observed of a call: the hook called, bytes on standard output, a line to syslog with its priority. -/
inductive Event
  | hooked (level : Int) (msg : Bytes)
  | console (text : Bytes)
  | syslog (priority : Nat) (text : Bytes)
deriving DecidableEq

/-- `GetCurrentThreadContext` (logging.c:56-68). -/
def getCtx (st : State) (t : Nat) : Ctx × State :=
  match st.ctx t with
  | some c => (c, st)
  | none =>
    let c : Ctx := ⟨st.global, st.global, false, none⟩
    (c, { st with ctx := fun u => if u = t then some c else st.ctx u })

def setCtx (st : State) (t : Nat) (c : Option Ctx) : State := { st with ctx := fun u => if u = t then c else st.ctx u }

/-- `LoggingFreeCurrentThreadContext` (logging.c:70-81). -/
def freeCtx (st : State) (t : Nat) : State :=
  match st.ctx t with
  | none => st
  | some _ => setCtx st t none

/-- `LoggingPrivSetContext` (logging.c:93-97). -/
def privSetContext (st : State) (t : Nat) (p : Option Priv) : State :=
  let r := getCtx st t
  setCtx r.2 t (some { r.1 with pctx := p })

/-- `LoggingPrivSetLevels` (logging.c:105-110). -/
def privSetLevels (st : State) (t : Nat) (log report : Int) : State :=
  let r := getCtx st t
  setCtx r.2 t (some { r.1 with log := log, report := report })

/-- `LoggingSetColor` (logging.c:586-590). -/
def setColor (st : State) (t : Nat) (color : Bool) : State :=
  let r := getCtx st t
  setCtx r.2 t (some { r.1 with color := color })

/-- `LogSetGlobalLevel` (logging.c:561-565). -/
def setGlobalLevel (st : State) (t : Nat) (level : Int) : State := privSetLevels { st with global := level } t level level

/-- `LogSetGlobalLevelArgOrExit` (logging.c:567-579); `none` ends the program with an error message. -/
def setGlobalLevelArg (st : State) (t : Nat) (arg : Bytes) : Option State :=
  let level := levelFromString (some arg)
  if level = -1 then none else some (setGlobalLevel st t level)

/-- `printf("%8s", s)`. -/
def pad8 (s : Bytes) : Bytes := List.replicate (8 - s.length) 32 ++ s

/-- `LogToConsole` (logging.c:210-240), with the formatted timestamp as an argument. -/
def toConsole (st : State) (stamp msg : Bytes) (level : Int) (color : Bool) : Option Bytes := do
  let a ← if color then levelToColor level else some []
  let b := if level ≥ 4 ∧ st.vprefix ≠ [] then st.vprefix ++ [32] else []
  let c := if st.timestamps then stamp ++ [32] else []
  let name ← levelToString level
  let d := pad8 name ++ [58, 32] ++ msg ++ [10]
  let e := if color then [27, 91, 48, 109] else []
  some (a ++ b ++ c ++ d ++ e)

/-- `LogLevelToSyslogPriority` (logging.c:243-259), with the numbers of syslog.h. -/
def syslogPriority (level : Int) : Option Nat :=
  if level = 0 then some 2
  else if level = 1 then some 3
  else if level = 2 then some 4
  else if level = 3 then some 5
  else if level = 4 then some 6
  else if level = 5 then some 7
  else if level = 6 then some 7
  else none

/-- `LogToSystemLog` (logging.c:261-266): `snprintf` into 4096 bytes. -/
def toSyslog (st : State) (msg : Bytes) (level : Int) : Option Event := do
  let logmsg := ([67, 70, 69, 110, 103, 105, 110, 101, 40] ++ st.agent ++ [41, 32] ++ st.vprefix ++ [32] ++ msg ++ [10]).take 4095
  let p ← syslogPriority level
  some (.syslog p logmsg)

/-- The condition for the console (logging.c:313, 327). -/
def logToConsole (c : Ctx) (level : Int) : Bool := level ≤ c.report
/-- The condition for syslog (logging.c:314-315, 328-329). -/
def logToSyslog (c : Ctx) (level : Int) : Bool := level ≤ c.log ∧ level < 5
/-- The condition for calling the hook in any case (logging.c:316-318, 330-332). -/
def forceHook (c : Ctx) (level : Int) : Bool :=
  match c.pctx with
  | none => false
  | some p => p.hook.isSome ∧ p.force ≥ level

/-- `WouldLog` (logging.c:308-320). -/
def wouldLog (st : State) (t : Nat) (level : Int) : Bool × State :=
  let r := getCtx st t
  (logToConsole r.1 level || logToSyslog r.1 level || forceHook r.1 level, r.2)

/-- Removing the end of line (logging.c:343-350). -/
def dropEol : Bytes → Bytes
  | [] => []
  | [c] => if c = 10 then [] else [c]
  | c :: d :: cs => c :: dropEol (d :: cs)

/-- Calling the hook (logging.c:352-359). -/
def callHook (c : Ctx) (level : Int) (msg : Bytes) : Bytes × List Event :=
  match c.pctx with
  | none => (msg, [])
  | some p =>
    match p.hook with
    | none => (msg, [])
    | some h => (h level msg, [.hooked level msg])

/-- The message to the console (logging.c:361-364). -/
def consoleEvents (st : State) (c : Ctx) (stamp msg : Bytes) (level : Int) : Option (List Event) :=
  if logToConsole c level then (toConsole st stamp msg level c.color).map fun x => [.console x] else some []

/-- The message to syslog (logging.c:365-368). -/
def syslogEvents (st : State) (c : Ctx) (msg : Bytes) (level : Int) : Option (List Event) :=
  if logToSyslog c level then (toSyslog st msg level).map fun x => [x] else some []

/-- `VLog` (logging.c:323-375). -/
def vlog (st : State) (t : Nat) (stamp : Bytes) (level : Int) (fmt : Bytes) : Option (List Event × State) :=
  let r := getCtx st t
  if !logToConsole r.1 level && !logToSyslog r.1 level && !forceHook r.1 level then some ([], r.2)
  else do
    let msg := dropEol fmt
    let h := callHook r.1 level msg
    let e1 ← consoleEvents r.2 r.1 stamp h.1 level
    let e2 ← syslogEvents r.2 r.1 h.1 level
    some (h.2 ++ e1 ++ e2, r.2)

/-- CF_BUFSIZE (libutils/definitions.h). -/
def BUFSIZE : Nat := 4096

/-- `LogRaw` (logging.c:382-407) for `buflen` up to CF_BUFSIZE (more is a programming error by its comment); `buf` is the allocation. -/
def logRaw (st : State) (t : Nat) (stamp : Bytes) (level : Int) (pre : Bytes) (buf : Bytes) (buflen : Nat) : Option (List Event × State) :=
  if buflen > BUFSIZE then none
  else
    let r := getCtx st t
    if level ≤ r.1.report ∨ level ≤ r.1.log then
      if buflen ≤ buf.length then
        vlog r.2 t stamp level (pre ++ (buf.take buflen).map fun c => if Str.isprint c then c else 46)
      else none
    else some ([], r.2)

/-- The number of modules, LOG_MOD_MAX (logging.h:53-65). -/
def MOD_MAX : Nat := 9

/-- `log_modules` (logging.c:421-432): "", "evalctx", "expand", "iterations", "parser", "vartable", "vars", "locks", "ps". -/
def logModules : List Bytes :=
  [[],
   [101, 118, 97, 108, 99, 116, 120],
   [101, 120, 112, 97, 110, 100],
   [105, 116, 101, 114, 97, 116, 105, 111, 110, 115],
   [112, 97, 114, 115, 101, 114],
   [118, 97, 114, 116, 97, 98, 108, 101],
   [118, 97, 114, 115],
   [108, 111, 99, 107, 115],
   [112, 115]]

/-- `LogModuleFromString` (logging.c:433-444); 0 is LOG_MOD_NONE. -/
def moduleFromString (s : Bytes) : Nat := ((logModules.findIdx? (fun m => Str.cmpSign id m s == 0))).getD 0

/-- `LogEnableModule` (logging.c:446-451). -/
def enableModule (en : Nat → Bool) (mod : Nat) : Option (Nat → Bool) := if mod < MOD_MAX then some (fun i => if i = mod then true else en i) else none

/-- The loop of "all" (logging.c:496-499): modules `j`, …, MOD_MAX - 1. -/
def enableFrom (en : Nat → Bool) (j : Nat) : Nat → Option (Nat → Bool)
  | 0 => some en
  | n + 1 =>
    if j < MOD_MAX then do
      let en ← enableModule en j
      enableFrom en (j + 1) n
    else some en

/-- The index at or behind `i` of the first comma or NUL: `strchrnul` (libcompat/strchrnul.c:9-21). -/
def sepFrom (m : Bytes) : Nat → Nat → Option Nat
  | _, 0 => none
  | i, n + 1 => do
    let c ← CMem.read m i
    if c = 44 ∨ c = 0 then some i else sepFrom m (i + 1) n

/-- The string at `i`. -/
def strAt (m : Bytes) : Nat → Nat → Option Bytes
  | _, 0 => none
  | i, n + 1 => do
    let c ← CMem.read m i
    if c = 0 then some [] else do
      let s ← strAt m (i + 1) n
      some (c :: s)

/-- What happens with one token (logging.c:488-517): the modules, the unknown token warned about, and `retval`. -/
def enableToken (en : Nat → Bool) (token : Bytes) : Option ((Nat → Bool) × List Bytes × Bool) :=
  if token = [104, 101, 108, 112] then some (en, [], false)
  else if token = [97, 108, 108] then do
    let en ← enableFrom en 1 MOD_MAX
    some (en, [], true)
  else
    let mod := moduleFromString token
    if mod = 0 then some (en, [token], true)
    else do
      let en ← enableModule en mod
      some (en, [], true)

/-- The loop of `LogEnableModulesFromString` (logging.c:481-524) from `token`; the argument's memory is changed and restored as in the code. The result: modules, tokens warned about, `retval`, memory. -/
def enableLoop (en : Nat → Bool) (m : Bytes) (token : Nat) : Nat → Option ((Nat → Bool) × List Bytes × Bool × Bytes)
  | 0 => none
  | n + 1 => do
    let next ← sepFrom m token (m.length + 1)
    let saved ← CMem.read m next
    let m ← CMem.write m next 0
    let s ← strAt m token (m.length + 1)
    let (en, warn, retval) ← enableToken en s
    let m ← CMem.write m next saved
    if saved ≠ 0 ∧ retval then do
      let (en, warn', retval, m) ← enableLoop en m (next + 1) n
      some (en, warn ++ warn', retval, m)
    else some (en, warn, retval, m)

/-- `LogEnableModulesFromString` (logging.c:477-525) on the memory `m` of its argument. The warnings are logged with `Log`; here they are listed. -/
def enableModulesFromString (en : Nat → Bool) (m : Bytes) : Option ((Nat → Bool) × List Bytes × Bool × Bytes) := enableLoop en m 0 (m.length + 1)

/-- `LogModuleEnabled` (logging.c:527-540) with its assertions. -/
def moduleEnabled (en : Nat → Bool) (mod : Nat) : Option Bool := if 0 < mod ∧ mod < MOD_MAX then some (en mod) else none

/-- `LogDebug` (logging.c:542-556). -/
def logDebug (st : State) (t : Nat) (stamp : Bytes) (mod : Nat) (fmt : Bytes) : Option (List Event × State) := do
  let e ← moduleEnabled st.enabled mod
  if e then vlog st t stamp 6 fmt else some ([], st)

/-- `byte_magnitude` (logging.c:592-611), `long` of 64 bits: the products do not overflow. -/
def byteMagnitude (bytes : Int) : Int :=
  let Ki := 1024
  let Mi := Ki * 1024
  let Gi := Mi * 1024
  if bytes > 8 * Gi then bytes.tdiv Gi
  else if bytes > 8 * Mi then bytes.tdiv Mi
  else if bytes > 8 * Ki then bytes.tdiv Ki
  else bytes

/-- `byte_unit` (logging.c:614-636): "GiB", "MiB", "KiB", "bytes". -/
def byteUnit (bytes : Int) : Bytes :=
  let Ki : Int := 1024
  let Mi := Ki * 1024
  let Gi := Mi * 1024
  if bytes > 8 * Gi then [71, 105, 66]
  else if bytes > 8 * Mi then [77, 105, 66]
  else if bytes > 8 * Ki then [75, 105, 66]
  else [98, 121, 116, 101, 115]

end Logging
