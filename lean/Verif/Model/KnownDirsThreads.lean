import Mathlib.Data.List.Basic
/-!
# The static buffers of known_dirs.c with several threads

One buffer of one function, as its bytes, and the threads that call the function and then read the text at the pointer they got. Every read and every write of a byte is
a step; threads take steps in any order. Simplifications: memory is sequentially consistent; `snprintf` writes its text in order, then the NUL; all calls print
the same text (same user, same environment), which has no NUL and fits.
-/
namespace KnownDirsThreads

abbrev Bytes := List UInt8

/-- Where a thread is. -/
inductive Pc
  | idle
  /-- inside `snprintf`, about to write byte `k` -/
  | write (k : Nat)
  /-- the pointer was returned; the caller has read `acc` and is about to read byte `k` -/
  | read (k : Nat) (acc : Bytes)

structure State where
  cells : Nat → UInt8
  th : Nat → Pc
  /-- the texts read so far: thread and text, oldest first -/
  got : List (Nat × Bytes)

/-- Static buffers start out zero. -/
def init : State := ⟨fun _ => 0, fun _ => .idle, []⟩

def State.goto (s : State) (t : Nat) (pc : Pc) : State := { s with th := fun u => if u = t then pc else s.th u }

/-- One step of thread `t`. `once`: the function prints only if the buffer looks empty, as `GetDefaultDir_helper` (known_dirs.c:52-91, test in line 59); otherwise it prints on
every call, as `GET_DIRECTORY_DEFINE_FUNC_BODY` (known_dirs.c:162-186) and `GetBinDir` with the override (known_dirs.c:141-145). `text` is what it prints. -/
def step (once : Bool) (text : Bytes) (s : State) (t : Nat) : State :=
  match s.th t with
  | .idle => if once ∧ s.cells 0 ≠ 0 then s.goto t (.read 0 []) else s.goto t (.write 0)
  | .write k =>
    match text[k]? with
    | some c => { s.goto t (.write (k + 1)) with cells := fun i => if i = k then c else s.cells i }
    | none => { s.goto t (.read 0 []) with cells := fun i => if i = k then 0 else s.cells i }
  | .read k acc =>
    if s.cells k = 0 then { s.goto t .idle with got := s.got ++ [(t, acc)] }
    else s.goto t (.read (k + 1) (acc ++ [s.cells k]))

/-- A schedule: which thread takes each step. -/
def run (once : Bool) (text : Bytes) (s : State) (sched : List Nat) : State := sched.foldl (step once text) s

end KnownDirsThreads
