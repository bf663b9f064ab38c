import Verif.Model.ThreadedQueue
/-!
# Model of the locking and waiting in libutils/threaded_queue.c and libutils/mutex.c

Any number of threads call the queue.  One `Action` is one atomic step of one thread: entering a call, taking the mutex,
going to sleep on a condition variable (which releases the mutex), waking up (signalled, timed out or spuriously), taking the
mutex again, the critical section, releasing the mutex.  The mutex is a holder field; only its holder runs a critical section.
`pthread_cond_signal` wakes one sleeper chosen by the schedule if there is one, `pthread_cond_broadcast` wakes all.
Failures of the pthread calls themselves (which exit the process) are not modelled.
-/
namespace TQT
open TQ

/-- API calls (threaded_queue.h). -/
inductive Call (P : Type) where
  | push (x : P)
  | pushN (xs : List P)
  | pop (timeout : Int)
  | popN (num : Nat) (timeout : Int)
  | clear
  | clearAndPush (x : P)
  | waitEmpty (timeout : Int)
  | count
deriving DecidableEq

/-- What a call gives back, including the items passed to the destructor. -/
inductive Result (P : Type) where
  | size (n : Nat)
  | item (x : Option P)
  | items (xs : List P)
  | destroyed (xs : List P)
  | destroyedSize (xs : List P) (n : Nat)
  | bool (b : Bool)
  | timedOut
deriving DecidableEq

/-- The condition under which the caller waits (threaded_queue.c:179, 232, 361-363): evaluated on entry and after every wake-up. -/
def mustWait {P : Type} (q : Q P) : Call P → Bool
  | .pop t => q.size == 0 && t != 0
  | .popN _ t => q.size == 0 && t != 0
  | .waitEmpty t => q.size != 0 && t != 0
  | _ => false

/-- Calls waiting on `cond_non_empty` (threaded_queue.c:183, 236). -/
def isConsumer {P : Type} : Call P → Bool
  | .pop _ => true
  | .popN _ _ => true
  | _ => false

/-- Calls waiting on `cond_empty` (threaded_queue.c:368). -/
def isWaitEmpty {P : Type} : Call P → Bool
  | .waitEmpty _ => true
  | _ => false

/-- `timeout` is neither "do not wait" (0) nor `THREAD_BLOCK_INDEFINITELY` (-1) (mutex.c:75-86). -/
def canTimeOut {P : Type} : Call P → Bool
  | .pop t => t != 0 && t != -1
  | .popN _ t => t != 0 && t != -1
  | .waitEmpty t => t != 0 && t != -1
  | _ => false

/-- The critical section, when not waiting. -/
def body {P : Type} (q : Q P) : Call P → Option (Q P × Result P)
  | .push x => (TQ.push q x).map fun (q, n) => (q, .size n)
  | .pushN xs => (TQ.pushN q xs).map fun (q, n) => (q, .size n)
  | .pop _ => (TQ.pop q).map fun (q, x) => (q, .item x)
  | .popN n _ => (TQ.popN q n).map fun (q, xs) => (q, .items xs)
  | .clear => (TQ.clear q).map fun (q, xs) => (q, .destroyed xs)
  | .clearAndPush x => (TQ.clearAndPush q x).map fun (q, xs, n) => (q, .destroyedSize xs n)
  | .waitEmpty _ => some (q, .bool (q.size == 0))          -- threaded_queue.c:354-389
  | .count => some (q, .size q.size)                        -- threaded_queue.c:321-330

/-- `pthread_cond_signal(cond_non_empty)` is called (threaded_queue.c:292, 314, 491). -/
def signals {P : Type} : Call P → Bool
  | .push _ => true
  | .pushN _ => true
  | .clearAndPush _ => true
  | _ => false

/-- `pthread_cond_broadcast(cond_empty)` is called (threaded_queue.c:212-216, 269-273, 472); `q` is the queue afterwards. -/
def broadcasts {P : Type} (q : Q P) : Call P → Bool
  | .pop _ => q.size == 0
  | .popN _ _ => q.size == 0
  | .clear => true
  | _ => false

/-- Where a thread is. -/
inductive TS (P : Type) where
  | idle
  | entering (c : Call P)               -- before ThreadLock
  | inside (c : Call P)                 -- holds the lock, about to evaluate the waiting condition
  | asleep (c : Call P)                 -- in pthread_cond_wait, lock released
  | woken (c : Call P) (timedOut : Bool) -- must take the lock again
  | leaving (c : Call P)                -- before ThreadUnlock
deriving DecidableEq

/-- Everything. `log` lists the completed calls in the order of their critical sections. -/
structure State (P : Type) where
  q : Q P
  lock : Option Nat
  th : List (TS P)
  log : List (Nat × Call P × Result P)

/-- `n` idle threads and a new queue. -/
def init {P : Type} (cap n : Nat) : State P := ⟨TQ.new cap, none, List.replicate n .idle, []⟩

/-- Steps a schedule can take. -/
inductive Action (P : Type) where
  | call (t : Nat) (c : Call P)
  | lock (t : Nat)
  | wait (t : Nat)
  | timeout (t : Nat)
  | spurious (t : Nat)
  | body (t : Nat) (wakes : Option Nat)
  | unlock (t : Nat)

/-- `pthread_cond_signal(cond_non_empty)`: wakes the chosen sleeper, which must be one; choosing nobody is only possible when
nobody sleeps there. -/
def signal {P : Type} (th : List (TS P)) : Option Nat → Option (List (TS P))
  | some t => match th[t]? with
    | some (.asleep c) => if isConsumer c then some (th.set t (.woken c false)) else none
    | _ => none
  | none => if th.any (fun s => match s with | .asleep c => isConsumer c | _ => false) then none else some th

/-- `pthread_cond_broadcast(cond_empty)` -/
def wakeEmpty {P : Type} : TS P → TS P
  | .asleep c => if isWaitEmpty c then .woken c false else .asleep c
  | s => s

/-- One step; `none` when the action is not possible in this state (or the critical section is undefined). -/
def step {P : Type} (s : State P) : Action P → Option (State P)
  | .call t c => match s.th[t]? with
    | some .idle => some { s with th := s.th.set t (.entering c) }
    | _ => none
  | .lock t => match s.lock, s.th[t]? with
    | none, some (.entering c) => some { s with lock := some t, th := s.th.set t (.inside c) }
    | none, some (.woken c false) => some { s with lock := some t, th := s.th.set t (.inside c) }
    -- threaded_queue.c:185-191: after a timeout the call returns without looking at the queue
    | none, some (.woken c true) =>
      some { s with lock := some t, th := s.th.set t (.leaving c), log := s.log ++ [(t, c, .timedOut)] }
    | _, _ => none
  | .wait t => match s.th[t]? with
    | some (.inside c) =>
      if s.lock = some t ∧ mustWait s.q c then some { s with lock := none, th := s.th.set t (.asleep c) } else none
    | _ => none
  | .timeout t => match s.th[t]? with
    | some (.asleep c) => if canTimeOut c then some { s with th := s.th.set t (.woken c true) } else none
    | _ => none
  | .spurious t => match s.th[t]? with
    | some (.asleep c) => some { s with th := s.th.set t (.woken c false) }
    | _ => none
  | .body t wakes => match s.th[t]? with
    | some (.inside c) =>
      if s.lock = some t ∧ mustWait s.q c = false then do
        let (q, r) ← body s.q c
        let th := if broadcasts q c then s.th.map wakeEmpty else s.th
        let th ← if signals c then signal th wakes else some th
        some { s with q := q, th := th.set t (.leaving c), log := s.log ++ [(t, c, r)] }
      else none
    | _ => none
  | .unlock t => match s.th[t]? with
    | some (.leaving _) => if s.lock = some t then some { s with lock := none, th := s.th.set t .idle } else none
    | _ => none

/-- A schedule. -/
def run {P : Type} : State P → List (Action P) → Option (State P)
  | s, [] => some s
  | s, a :: as => do
    let s ← step s a
    run s as

end TQT
