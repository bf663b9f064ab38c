import Verif.Model.StrTrim
import Verif.Model.StrNum
/-! # Models of ParseEnvLine (libutils/json-utils.c), CompareVersion (version_comparison.c) and cleanup.c -/

namespace Env

/-- `TrimWhitespace` applied to the pointer `off` into the block. -/
def trimAt (m : List (Option UInt8)) (off : Nat) : Option (List (Option UInt8) × Nat) := do
  let (d, o) ← Str.trimWhitespace (m.drop off)
  some (m.take off ++ d, off + o)

/-- The loop of `filtered_copy` (json-utils.c:64-94): `q` is `opening_quote` (0 for none); `none` inside is the NULL return. The fuel exceeds the
number of cells, and every iteration advances `src`. -/
def filteredLoop (q : UInt8) (m : List (Option UInt8)) (src dst : Nat) : Nat → Option (Option (List (Option UInt8)))
  | 0 => none
  | fuel + 1 => do
    let c ← CMem.get m src
    if c = 0 ∨ c = q then do
      let m ← CMem.write m dst (some 0)
      some (some m)
    else if q = 0 ∧ (c = 34 ∨ c = 39) then some none
    else if c = 92 then do
      let c ← CMem.get m (src + 1)
      if c = 110 then do
        let m ← CMem.write m dst (some 10)
        filteredLoop q m (src + 2) (dst + 1) fuel
      else do
        let m ← CMem.write m dst (some c)
        filteredLoop q m (src + 2) (dst + 1) fuel
    else do
      let m ← CMem.write m dst (some c)
      filteredLoop q m (src + 1) (dst + 1) fuel

/-- `filtered_copy(value, value)` (json-utils.c:52-95). -/
def filteredCopy (m : List (Option UInt8)) (off : Nat) : Option (Option (List (Option UInt8))) := do
  let c ← CMem.get m off
  if c = 34 ∨ c = 39 then filteredLoop c m (off + 1) off (m.length + 1) else filteredLoop 0 m off off (m.length + 1)

/-- `strchr(m + off, c)` (C library). -/
def strchr (m : List (Option UInt8)) (off : Nat) (x : UInt8) : Option (Option Nat) := do
  let s ← CMem.str (m.drop off)
  if x ∈ s then some (some (off + (s.takeWhile (· ≠ x)).length)) else some none

/-- The part of `ParseEnvLine` after the equal sign was found (json-utils.c:140-165). -/
def parseTail (m : List (Option UInt8)) (line eq : Nat) : Option (Option (List (Option UInt8) × Nat × Nat)) := do
  let m ← CMem.write m eq (some 0)
  let (m, key) ← trimAt m line
  let (m, value) ← trimAt m (eq + 1)
  let r ← filteredCopy m value
  match r with
  | none => some none
  | some m => some (some (m, key, value))

/-- `ParseEnvLine` (json-utils.c:110-166): `none` inside means both out-parameters stay NULL; else the edited line, key and value pointers. -/
def parseEnvLine (m : List (Option UInt8)) : Option (Option (List (Option UInt8) × Nat × Nat)) := do
  let (m, line) ← trimAt m 0
  let c ← CMem.get m line
  if c = 0 then some none
  else if c = 35 then some none
  else do
    let eq ← strchr m line 61
    match eq with
    | none => some none
    | some eq => if eq = line then some none else parseTail m line eq

end Env

namespace Version

/-- `sscanf(s, "%d.%d.%d", …)` (C library): the converted numbers; one that does not fit an `int` is undefined (C11 7.21.6.2p10). -/
def scan : Nat → List UInt8 → Option (List Int)
  | 0, _ => some []
  | k + 1, s =>
    match Str.strtoParse s with
    | none => some []
    | some (neg, mag, e) =>
      let v : Int := if neg then -mag else mag
      if v < -2147483648 ∨ v > 2147483647 then none
      else match s.drop e with
        | 46 :: r => (scan k r).map (v :: ·)
        | _ => some [v]

inductive Cmp where
  | smaller | equal | greater | error
deriving DecidableEq, Repr

/-- `CompareVersion` (version_comparison.c:5-78); a variable that is not converted stays 0. -/
def compare (a b : List UInt8) : Option Cmp := do
  let xs ← scan 3 a
  let aNum := xs.length
  if aNum < 1 ∨ aNum > 3 then some .error
  else do
    let ys ← scan 3 b
    let bNum := ys.length
    if bNum < 1 ∨ bNum > 3 then some .error
    else if xs.getD 0 0 > ys.getD 0 0 then some .greater
    else if xs.getD 0 0 < ys.getD 0 0 then some .smaller
    else if aNum = 1 ∨ bNum = 1 then some .equal
    else if xs.getD 1 0 < ys.getD 1 0 then some .smaller
    else if xs.getD 1 0 > ys.getD 1 0 then some .greater
    else if aNum = 2 ∨ bNum = 2 then some .equal
    else if xs.getD 2 0 < ys.getD 2 0 then some .smaller
    else if xs.getD 2 0 > ys.getD 2 0 then some .greater
    else some .equal

end Version

namespace Cleanup

/-- A registered function: its identity, and whether it calls `RegisterCleanupFunction` itself. -/
structure Fn where
  id : Nat
  registers : Bool := false
deriving DecidableEq, Repr

/-- A node (cleanup.c:29-33). -/
structure Node where
  fn : Fn
  next : Option Nat
deriving DecidableEq, Repr

/-- The heap cells of the nodes (`none`: freed) and the list head `cleanup_functions`; `log` records the calls. -/
structure State where
  heap : List (Option Node) := []
  head : Option Nat := none
  log : List Nat := []
deriving DecidableEq, Repr

/-- The outcome of an operation: it returns, or it blocks for ever on the mutex. -/
inductive Res where
  | ret (s : State)
  | deadlock
deriving DecidableEq, Repr

/-- `RegisterCleanupFunction` (cleanup.c:63-74), called with the mutex free. -/
def register (s : State) (f : Fn) : State :=
  { s with heap := s.heap ++ [some ⟨f, s.head⟩], head := some s.heap.length }

/-- The loop of `CallCleanupFunctions` (cleanup.c:44-51), run with the mutex held: call, read `next`, free. A callback that registers a function
blocks on the mutex (PTHREAD_MUTEX_INITIALIZER: not recursive). -/
def callLoop (s : State) (p : Option Nat) : Nat → Option Res
  | 0 => none
  | fuel + 1 =>
    match p with
    | none => some (.ret { s with head := none })
    | some i =>
      match s.heap[i]? with
      | some (some n) =>
        if n.fn.registers then some .deadlock
        else callLoop { s with heap := s.heap.set i none, log := s.log ++ [n.fn.id] } n.next fuel
      | _ => none

/-- `CallCleanupFunctions` (cleanup.c:39-55). -/
def call (s : State) : Option Res := callLoop s s.head (s.heap.length + 1)

end Cleanup
