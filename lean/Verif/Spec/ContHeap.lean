import Verif.Model.ContHeap
/-! # Specification: several stacks, queues, ring buffers and iterators as plain lists

Only the names of the calls are taken from the model. -/
namespace ContHeapSpec
open ContHeap (Op)

/-- A container or iterator as a value. `owns` says whether it has a destructor. -/
inductive Val
  /-- items from the bottom to the top -/
  | stack (owns : Bool) (items : List Nat)
  /-- items from the oldest to the newest -/
  | queue (owns : Bool) (items : List Nat)
  /-- at most `capacity` items, from the oldest to the newest -/
  | ring (owns : Bool) (capacity : Nat) (items : List Nat)
  /-- over the ring buffer made as number `ring`; `read` items were delivered -/
  | iter (ring read : Nat)
  | gone

/-- The newest `n` of a list. -/
def newest (n : Nat) (l : List Nat) : List Nat := l.drop (l.length - n)

/-- What leaves a list of which only the newest `n` are kept. -/
def overflow (n : Nat) (l : List Nat) : List Nat := l.take (l.length - n)

/-- What a destructor is called with, if there is one. -/
def kill (owns : Bool) (l : List Nat) : List Nat := if owns then l else []

/-- The same for a ring buffer, which skips NULL. -/
def killR (owns : Bool) (l : List Nat) : List Nat := if owns then l.filter (· ≠ 0) else []

/-- `Step vs op vs' d r`: with the things `vs`, the call `op` is allowed, may leave `vs'`, gives the items `d` to destructors, in this order, and returns `r` (0 is NULL or
nothing). Nothing but the thing named changes; new ones come last. -/
def Step (vs : List Val) : Op → List Val → List Nat → Nat → Prop
  | .stackNew _ o, vs', d, r => vs' = vs ++ [.stack o []] ∧ d = [] ∧ r = 0
  | .queueNew o, vs', d, r => vs' = vs ++ [.queue o []] ∧ d = [] ∧ r = 0
  | .ringNew c o, vs', d, r => 0 < c ∧ vs' = vs ++ [.ring o c []] ∧ d = [] ∧ r = 0
  | .iterNew i, vs', d, r => (∃ o c l, vs[i]? = some (.ring o c l)) ∧ vs' = vs ++ [.iter i 0] ∧ d = [] ∧ r = 0
  | .push i x, vs', d, r => ∃ o l, vs[i]? = some (.stack o l) ∧ vs' = vs.set i (.stack o (l ++ [x])) ∧ d = [] ∧ r = l.length + 1
  | .pop i, vs', d, r => ∃ o l, vs[i]? = some (.stack o l) ∧ vs' = vs.set i (.stack o l.dropLast) ∧ d = [] ∧ r = l.getLast?.getD 0
  | .top i, vs', d, r => ∃ o l, vs[i]? = some (.stack o l) ∧ vs' = vs ∧ d = [] ∧ r = l.getLast?.getD 0
  | .stackCopy i, vs', d, r => ∃ o l, vs[i]? = some (.stack o l) ∧ vs' = vs ++ [.stack o l] ∧ d = [] ∧ r = 0
  | .softDestroy i, vs', d, r => ∃ o l, vs[i]? = some (.stack o l) ∧ vs' = vs.set i .gone ∧ d = [] ∧ r = 0
  | .enqueue i x, vs', d, r => ∃ o l, vs[i]? = some (.queue o l) ∧ vs' = vs.set i (.queue o (l ++ [x])) ∧ d = [] ∧ r = 0
  | .dequeue i, vs', d, r => ∃ o x l, vs[i]? = some (.queue o (x :: l)) ∧ vs' = vs.set i (.queue o l) ∧ d = [] ∧ r = x
  | .queueHead i, vs', d, r => ∃ o x l, vs[i]? = some (.queue o (x :: l)) ∧ vs' = vs ∧ d = [] ∧ r = x
  | .ringAppend i x, vs', d, r => ∃ o c l, vs[i]? = some (.ring o c l) ∧ vs' = vs.set i (.ring o c (newest c (l ++ [x]))) ∧ d = killR o (overflow c (l ++ [x])) ∧ r = 0
  | .ringClear i, vs', d, r => ∃ o c l, vs[i]? = some (.ring o c l) ∧ vs' = vs.set i (.ring o c []) ∧ d.Perm (killR o l) ∧ r = 0
  | .ringHead i, vs', d, r => ∃ o c l, vs[i]? = some (.ring o c l) ∧ vs' = vs ∧ d = [] ∧ r = l.getLast?.getD 0
  | .iterNext i, vs', d, r => ∃ k n o c l, vs[i]? = some (.iter k n) ∧ vs[k]? = some (.ring o c l) ∧ n ≤ l.length ∧
      vs' = vs.set i (.iter k (min (n + 1) l.length)) ∧ d = [] ∧ r = l[n]?.getD 0
  | .count i, vs', d, r => vs' = vs ∧ d = [] ∧ ((∃ o l, vs[i]? = some (.stack o l) ∧ r = l.length) ∨ (∃ o l, vs[i]? = some (.queue o l) ∧ r = l.length) ∨
      ∃ o c l, vs[i]? = some (.ring o c l) ∧ r = l.length)
  | .destroy i, vs', d, r => vs' = vs.set i .gone ∧ r = 0 ∧ ((∃ o l, vs[i]? = some (.stack o l) ∧ d = kill o l) ∨ (∃ o l, vs[i]? = some (.queue o l) ∧ d = kill o l) ∨
      (∃ o c l, vs[i]? = some (.ring o c l) ∧ d.Perm (killR o l)) ∨ ∃ k n, vs[i]? = some (.iter k n) ∧ d = [])

/-- A history: what its calls gave to destructors, and what they returned. -/
inductive Steps : List Val → List Op → List Val → List Nat → List Nat → Prop
  | nil (vs : List Val) : Steps vs [] vs [] []
  | cons {vs vs1 vs2 : List Val} {o : Op} {os : List Op} {d e : List Nat} {r : Nat} {rs : List Nat} :
      Step vs o vs1 d r → Steps vs1 os vs2 e rs → Steps vs (o :: os) vs2 (d ++ e) (r :: rs)

/-- The program never makes a call that is not allowed, whatever the calls before did. -/
def Allowed : List Val → List Op → Prop
  | _, [] => True
  | vs, o :: os => (∃ vs' d r, Step vs o vs' d r) ∧ ∀ vs' d r, Step vs o vs' d r → Allowed vs' os

/-- How many allocations a thing is. -/
def Val.size : Val → Nat
  | .stack .. => 2
  | .queue _ l => 1 + l.length
  | .ring .. => 2
  | .iter .. => 1
  | .gone => 0

/-- The items in a container. -/
def Val.items : Val → List Nat
  | .stack _ l => l
  | .queue _ l => l
  | .ring _ _ l => l
  | .iter .. => []
  | .gone => []

/-- The items a program hands to containers, in order. -/
def given : List Op → List Nat
  | [] => []
  | .push _ x :: os => x :: given os
  | .enqueue _ x :: os => x :: given os
  | .ringAppend _ x :: os => x :: given os
  | _ :: os => given os

/-- The items a program takes back: what the calls that remove an item returned, but NULL. -/
def taken : List Op → List Nat → List Nat
  | .pop _ :: os, r :: rs => (if r = 0 then [] else [r]) ++ taken os rs
  | .dequeue _ :: os, r :: rs => r :: taken os rs
  | _ :: os, _ :: rs => taken os rs
  | _, _ => []

/-- Calls after which an item is in two containers, or in none without having been destroyed. -/
def Op.strays : Op → Bool
  | .stackNew _ o => !o
  | .queueNew o => !o
  | .ringNew _ o => !o
  | .stackCopy _ => true
  | .softDestroy _ => true
  | _ => false

end ContHeapSpec
