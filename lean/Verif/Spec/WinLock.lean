import Verif.Model.WinLock
/-! # What a `FileLock` holds, judged by what the calls returned (the latest first) -/
namespace WinLockSpec
open WinLock (Ev)

/-- Without one: an exclusive one, if there is one. -/
def less (l : List (Nat × Bool)) : List (Nat × Bool) := if l.any (fun x => x.2) then WinLock.removeFirst (fun x => x.2) l else l.tail

/-- The locks of `FileLock` number `h`: file, exclusive. -/
def held (h : Nat) : List Ev → List (Nat × Bool)
  | [] => []
  | .locked g f ex ret :: tr => if g = h ∧ ret = 0 then (f, ex) :: held h tr else held h tr
  | .unlocked g close ret :: tr => if g = h then (if close = true then [] else if ret = 0 then less (held h tr) else held h tr) else held h tr
  | .gone g :: tr => if g = h then [] else held h tr
  | .checked _ _ :: tr => held h tr

end WinLockSpec
