/-!
# Cleanup functions with several threads (libutils/cleanup.c)

Every access to the list, every allocation and every call of a cleanup function is a step; threads take steps in any order.  The list is a heap of
nodes whose fields are unset after `xmalloc`.  A cleanup function is a number; it does not call this module (that case is `Cleanup` in
`Verif.Model.Env`).
-/
namespace CleanupThreads

/-- `CleanupList` (cleanup.c:29-33); `none` is a field not yet written. -/
structure Node where
  fn : Option Nat
  next : Option (Option Nat)

/-- What threads call: `RegisterCleanupFunction`, `CallCleanupFunctions`, `DoCleanupAndExit`. -/
inductive Op
  | register (f : Nat)
  | call
  | exit

/-- Where a thread is. `ex` says that the call is part of `DoCleanupAndExit`. -/
inductive Pc
  | idle
  /-- cleanup.c:67, behind the lock. -/
  | regLocked (f : Nat)
  /-- cleanup.c:68. -/
  | regAlloc (f p : Nat)
  /-- cleanup.c:69. -/
  | regFn (f p : Nat)
  /-- cleanup.c:71. -/
  | regNext (f p : Nat)
  /-- cleanup.c:73. -/
  | regStored
  /-- cleanup.c:43, behind the lock. -/
  | callLocked (ex : Bool)
  /-- cleanup.c:44, with the value of `p`. -/
  | loop (p : Option Nat) (ex : Bool)
  /-- cleanup.c:48, the function has returned. -/
  | ran (cur : Nat) (ex : Bool)
  /-- cleanup.c:49. -/
  | advanced (cur : Nat) (p : Option Nat) (ex : Bool)
  /-- cleanup.c:54. -/
  | cleared (ex : Bool)
  /-- cleanup.c:60. -/
  | exiting

/-- A thread: where it is, and its further calls. -/
structure Thread where
  pc : Pc
  ops : List Op

/-- What can be seen: a registration taking effect, a function being run, the process ending. -/
inductive Event
  | registered (t f : Nat)
  | run (t f : Nat)
  | exited
deriving DecidableEq

structure State where
  threads : List Thread
  mutex : Option Nat
  head : Option Nat
  heap : Nat → Option Node
  exited : Bool
  trace : List Event

/-- Initial state: `PTHREAD_MUTEX_INITIALIZER`, list empty (cleanup.c:35-36). -/
def init (ops : List (List Op)) : State :=
  { threads := ops.map fun o => ⟨.idle, o⟩, mutex := none, head := none, heap := fun _ => none, exited := false, trace := [] }

/-- A step: not possible now (also: `p` is not an address `malloc` can give), undefined behaviour, or the next state. -/
inductive Res
  | blocked
  | undefined
  | ok (s : State)

/-- Thread `t` goes to `pc` with `ops` left. -/
def State.to (s : State) (t : Nat) (pc : Pc) (ops : List Op) : State := { s with threads := s.threads.set t ⟨pc, ops⟩ }

/-- One step of thread `t`; `p` is the address `malloc` gives, if it is called. -/
def step (s : State) (t p : Nat) : Res :=
  if s.exited then .blocked
  else match s.threads[t]? with
  | none => .blocked
  | some ⟨pc, ops⟩ =>
    match pc with
    | .idle =>
      match ops with
      | [] => .blocked
      | .register f :: ops => -- cleanup.c:65
        if s.mutex = none then .ok { s.to t (.regLocked f) ops with mutex := some t } else .blocked
      | .call :: ops => -- cleanup.c:41
        if s.mutex = none then .ok { s.to t (.callLocked false) ops with mutex := some t } else .blocked
      | .exit :: ops => -- cleanup.c:41, 59
        if s.mutex = none then .ok { s.to t (.callLocked true) ops with mutex := some t } else .blocked
    | .regLocked f => -- cleanup.c:67
      match s.heap p with
      | some _ => .blocked
      | none => .ok { s.to t (.regAlloc f p) ops with heap := fun q => if q = p then some ⟨none, none⟩ else s.heap q }
    | .regAlloc f p => -- cleanup.c:68
      match s.heap p with
      | none => .undefined
      | some n => .ok { s.to t (.regFn f p) ops with heap := fun q => if q = p then some { n with fn := some f } else s.heap q }
    | .regFn f p => -- cleanup.c:69
      match s.heap p with
      | none => .undefined
      | some n => .ok { s.to t (.regNext f p) ops with heap := fun q => if q = p then some { n with next := some s.head } else s.heap q }
    | .regNext f p => -- cleanup.c:71
      .ok { s.to t .regStored ops with head := some p, trace := s.trace ++ [.registered t f] }
    | .regStored => -- cleanup.c:73
      .ok { s.to t .idle ops with mutex := none }
    | .callLocked ex => -- cleanup.c:43
      .ok (s.to t (.loop s.head ex) ops)
    | .loop none ex => -- cleanup.c:44, 52
      .ok { s.to t (.cleared ex) ops with head := none }
    | .loop (some cur) ex => -- cleanup.c:46-47
      match s.heap cur with
      | some ⟨some f, _⟩ => .ok { s.to t (.ran cur ex) ops with trace := s.trace ++ [.run t f] }
      | _ => .undefined
    | .ran cur ex => -- cleanup.c:48
      match s.heap cur with
      | some ⟨_, some p⟩ => .ok (s.to t (.advanced cur p ex) ops)
      | _ => .undefined
    | .advanced cur p ex => -- cleanup.c:49
      match s.heap cur with
      | none => .undefined
      | some _ => .ok { s.to t (.loop p ex) ops with heap := fun q => if q = cur then none else s.heap q }
    | .cleared ex => -- cleanup.c:54
      .ok { s.to t (if ex then .exiting else .idle) ops with mutex := none }
    | .exiting => -- cleanup.c:60
      .ok { s.to t .idle ops with exited := true, trace := s.trace ++ [.exited] }

/-- The states that can be reached, under every schedule and with every choice of addresses. -/
inductive Reach (ops : List (List Op)) : State → Prop
  | init : Reach ops (init ops)
  | step (s s' : State) (t p : Nat) : Reach ops s → step s t p = .ok s' → Reach ops s'

end CleanupThreads
