import Verif.Model.CleanupThreads
/-! # Specification: cleanup functions and several threads -/
namespace CleanupThreadsSpec
open CleanupThreads

/-- Effect of an event on the functions waiting (last registered first) and on whether the process has ended; `none` if a function is run that is
not the last registered of those waiting, or anything happens after the end. -/
def effect (x : List Nat × Bool) (e : Event) : Option (List Nat × Bool) :=
  match e, x with
  | .registered _ f, (fs, false) => some (f :: fs, false)
  | .run _ f, (g :: fs, false) => if f = g then some (fs, false) else none
  | .exited, (fs, false) => some (fs, true)
  | _, _ => none

/-- The functions waiting after the events, and whether the process has ended. -/
def waiting (es : List Event) : Option (List Nat × Bool) := es.foldlM effect ([], false)

/-- The functions thread `t` has registered, in order. -/
def registeredBy (t : Nat) (es : List Event) : List Nat := es.filterMap fun
  | .registered u f => if u = t then some f else none
  | _ => none

/-- The functions of the calls of `RegisterCleanupFunction` in a program, in order. -/
def registrations (ops : List Op) : List Nat := ops.filterMap fun
  | .register f => some f
  | _ => none

/-- How often `f` was registered, and run. -/
def timesRegistered (f : Nat) (es : List Event) : Nat := es.countP fun | .registered _ g => g == f | _ => false
def timesRun (f : Nat) (es : List Event) : Nat := es.countP fun | .run _ g => g == f | _ => false

/-- The thread is between two calls. -/
def Between (th : Thread) : Prop := th.pc = .idle

end CleanupThreadsSpec
