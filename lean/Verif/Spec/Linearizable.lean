/-!
# Linearizability

A history is the sequence of call and return events of all threads, in the order in which they happened.  It is linearizable
for a sequential object when one can add, for every call that returned (and for some of the calls still under way), a single
instant between its call and its return, such that performing the operations one after the other at those instants on the
sequential object gives exactly the results the calls returned.
-/
namespace Lin

/-- What is observed: thread `t` calls operation `o`; thread `t` gets result `r`. -/
inductive Ev (O R : Type) where
  | call (t : Nat) (o : O)
  | ret (t : Nat) (r : R)
deriving DecidableEq

/-- A history with the instants at which the operations take effect filled in. -/
inductive GEv (O R : Type) where
  | call (t : Nat) (o : O)
  | effect (t : Nat) (o : O) (r : R)
  | ret (t : Nat) (r : R)

/-- Forgetting the instants. -/
def erase {O R : Type} : List (GEv O R) → List (Ev O R)
  | [] => []
  | .call t o :: g => .call t o :: erase g
  | .effect _ _ _ :: g => erase g
  | .ret t r :: g => .ret t r :: erase g

/-- What one thread is doing. -/
inductive Phase (O R : Type) where
  | idle
  | pending (o : O)       -- called, no effect yet
  | took (r : R)          -- has taken effect with this result, not returned yet

/-- Per thread: call, effect of that very operation, return of that very result, in turn. -/
inductive Phases {O R : Type} : List (GEv O R) → (Nat → Phase O R) → Prop where
  | start : Phases [] (fun _ => .idle)
  | call {g ph} (t : Nat) (o : O) : Phases g ph → ph t = .idle →
      Phases (g ++ [.call t o]) (fun u => if u = t then .pending o else ph u)
  | effect {g ph} (t : Nat) (o : O) (r : R) : Phases g ph → ph t = .pending o →
      Phases (g ++ [.effect t o r]) (fun u => if u = t then .took r else ph u)
  | ret {g ph} (t : Nat) (r : R) : Phases g ph → ph t = .took r →
      Phases (g ++ [.ret t r]) (fun u => if u = t then .idle else ph u)

/-- The effects, in order, are what the sequential object `step` does from `s`, ending in the given state. -/
inductive Legal {S O R : Type} (step : S → O → S × R) (s : S) : List (GEv O R) → S → Prop where
  | start : Legal step s [] s
  | call {g s'} (t : Nat) (o : O) : Legal step s g s' → Legal step s (g ++ [.call t o]) s'
  | effect {g s'} (t : Nat) (o : O) (r : R) : Legal step s g s' → (step s' o).2 = r →
      Legal step s (g ++ [.effect t o r]) (step s' o).1
  | ret {g s'} (t : Nat) (r : R) : Legal step s g s' → Legal step s (g ++ [.ret t r]) s'

/-- The history `h` is linearizable for the object `step` started in state `s`. -/
def Linearizable {S O R : Type} (step : S → O → S × R) (s : S) (h : List (Ev O R)) : Prop :=
  ∃ (g : List (GEv O R)) (ph : Nat → Phase O R) (s' : S), erase g = h ∧ Phases g ph ∧ Legal step s g s'

/-- The same for an object whose operations may have several outcomes: `step s o s' r` says that `o` performed in state `s` may
end in state `s'` with result `r`. -/
inductive LegalRel {S O R : Type} (step : S → O → S → R → Prop) (s : S) : List (GEv O R) → S → Prop where
  | start : LegalRel step s [] s
  | call {g s'} (t : Nat) (o : O) : LegalRel step s g s' → LegalRel step s (g ++ [.call t o]) s'
  | effect {g s' s''} (t : Nat) (o : O) (r : R) : LegalRel step s g s' → step s' o s'' r →
      LegalRel step s (g ++ [.effect t o r]) s''
  | ret {g s'} (t : Nat) (r : R) : LegalRel step s g s' → LegalRel step s (g ++ [.ret t r]) s'

/-- The history `h` is linearizable for the object `step` started in state `s`. -/
def LinearizableRel {S O R : Type} (step : S → O → S → R → Prop) (s : S) (h : List (Ev O R)) : Prop :=
  ∃ (g : List (GEv O R)) (ph : Nat → Phase O R) (s' : S), erase g = h ∧ Phases g ph ∧ LegalRel step s g s'

end Lin
