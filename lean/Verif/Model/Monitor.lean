import Verif.Spec.Linearizable
/-!
# Threads, a mutex and condition variables

The part of libutils/mutex.c (and of the pthread calls behind it) that threaded_queue.c and threaded_deque.c use.  A function is a
program of single accesses to the shared structure, with taking and releasing the mutex, sleeping on a condition variable and waking
others as instructions of the program.  Threads are interleaved between any two instructions; nothing but the lock instructions keeps
two threads from working on the structure at the same time.
-/
namespace Mon
open Lin

/-- Rest of a function. `M`: the shared structure, `C`: its condition variables, `R`: results of the API. -/
inductive Prog (M C R : Type) : Type 1 where
  | lock (k : Prog M C R)
  | unlock (k : Prog M C R)
  | acc {β : Type} (f : M → Option (M × β)) (k : β → Prog M C R)   -- one access to the structure; `none` is undefined
  | wait                                                              -- `ThreadWait`, followed by the code in `Code.resume`
  | signal (c : C) (k : Prog M C R)
  | broadcast (c : C) (k : Prog M C R)
  | ret (r : R)

/-- The functions of a module: what each operation does from its first instruction, and from the point where its `ThreadWait` returned
(`true`: timed out); the condition variable it waits on; and whether its wait has a time limit. -/
structure Code (M O C R : Type) : Type 1 where
  prog : O → Prog M C R
  resume : O → Bool → Prog M C R
  cond : O → C
  limited : O → Bool

/-- Where a thread is. -/
inductive TS (M O C R : Type) : Type 1 where
  | idle
  | running (o : O) (p : Prog M C R)
  | asleep (o : O)                     -- inside pthread_cond_wait / pthread_cond_timedwait, mutex released
  | woken (o : O) (timedOut : Bool)    -- still inside, has to take the mutex again

/-- Everything. -/
structure State (M O C R : Type) : Type 1 where
  mem : M
  lock : Option Nat
  th : List (TS M O C R)
  hist : List (Ev O R)

/-- What may happen next: a thread calls a function; a thread executes its next instruction (`who` is the sleeper chosen by a
`pthread_cond_signal`, if that is the instruction); a sleeper times out; a sleeper wakes up for no reason. -/
inductive Action (O : Type) where
  | call (t : Nat) (o : O)
  | run (t : Nat) (who : Option Nat)
  | timeout (t : Nat)
  | spurious (t : Nat)

/-- The thread sleeps on `c`. -/
def sleepsOn {M O C R : Type} [DecidableEq C] (code : Code M O C R) (c : C) : TS M O C R → Bool
  | .asleep o => code.cond o == c
  | _ => false

/-- `pthread_cond_signal`: wakes the chosen sleeper, which must sleep on `c`; nobody can only be chosen when nobody sleeps there. -/
def signal {M O C R : Type} [DecidableEq C] (code : Code M O C R) (c : C) (th : List (TS M O C R)) :
    Option Nat → Option (List (TS M O C R))
  | some u => match th[u]? with
    | some (.asleep o) => if code.cond o = c then some (th.set u (.woken o false)) else none
    | _ => none
  | none => if th.any (sleepsOn code c) then none else some th

/-- `pthread_cond_broadcast` -/
def wake {M O C R : Type} [DecidableEq C] (code : Code M O C R) (c : C) : TS M O C R → TS M O C R
  | .asleep o => if code.cond o = c then .woken o false else .asleep o
  | x => x

/-- Thread `t`, in operation `o`, executes the first instruction of `p`. `none`: not possible now (the mutex is taken), or undefined
(the access is; the mutex is released by a thread that does not hold it, mutex.c:52-69 exits then). -/
def instr {M O C R : Type} [DecidableEq C] (code : Code M O C R) (s : State M O C R) (t : Nat) (who : Option Nat) (o : O) :
    Prog M C R → Option (State M O C R)
  | .lock k =>                                                    -- mutex.c:31-50
    if s.lock = none then some { s with lock := some t, th := s.th.set t (.running o k) } else none
  | .unlock k =>                                                  -- mutex.c:52-69
    if s.lock = some t then some { s with lock := none, th := s.th.set t (.running o k) } else none
  | .acc f k => match f s.mem with
    | some (m, b) => some { s with mem := m, th := s.th.set t (.running o (k b)) }
    | none => none
  | .wait =>                                                      -- mutex.c:71-112: the mutex is released and the thread sleeps
    if s.lock = some t then some { s with lock := none, th := s.th.set t (.asleep o) } else none
  | .signal c k => match signal code c s.th who with
    | some th => some { s with th := th.set t (.running o k) }
    | none => none
  | .broadcast c k => some { s with th := (s.th.map (wake code c)).set t (.running o k) }
  | .ret r => some { s with th := s.th.set t .idle, hist := s.hist ++ [.ret t r] }

/-- One step of a schedule. -/
def step {M O C R : Type} [DecidableEq C] (code : Code M O C R) (s : State M O C R) : Action O → Option (State M O C R)
  | .call t o => match s.th[t]? with
    | some .idle => some { s with th := s.th.set t (.running o (code.prog o)), hist := s.hist ++ [.call t o] }
    | _ => none
  | .run t who => match s.th[t]? with
    | some (.running o p) => instr code s t who o p
    | some (.woken o b) =>                                        -- the mutex is taken again before `ThreadWait` returns
      if s.lock = none then some { s with lock := some t, th := s.th.set t (.running o (code.resume o b)) } else none
    | _ => none
  | .timeout t => match s.th[t]? with                             -- mutex.c:76-87: only with a time limit
    | some (.asleep o) => if code.limited o then some { s with th := s.th.set t (.woken o true) } else none
    | _ => none
  | .spurious t => match s.th[t]? with
    | some (.asleep o) => some { s with th := s.th.set t (.woken o false) }
    | _ => none

/-- A schedule. -/
def run {M O C R : Type} [DecidableEq C] (code : Code M O C R) : State M O C R → List (Action O) → Option (State M O C R)
  | s, [] => some s
  | s, a :: as => match step code s a with
    | some s => run code s as
    | none => none

/-- `n` threads outside of any call, around the structure `m`. -/
def start {M O C R : Type} (n : Nat) (m : M) : State M O C R := ⟨m, none, List.replicate n .idle, []⟩

end Mon
