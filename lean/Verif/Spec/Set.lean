import Verif.Spec.Map
/-! # Specification of a set by its history (newest call first) -/
namespace SetSpec

inductive Op (K : Type) where
  | add (x : K)
  | remove (x : K)
  | clear

/-- Membership after the history. -/
def mem {K : Type} (eq : K → K → Bool) : List (Op K) → K → Bool
  | [], _ => false
  | .add y :: h, x => eq y x || mem eq h x
  | .remove y :: h, x => !eq y x && mem eq h x
  | .clear :: _, _ => false

open CMap (Map Fns Destroyed)

/-- Run a history on the implementation, from `SetNew`. -/
def runImpl {K : Type} (f : Fns K) : List (Op K) → Option (Map K K)
  | [] => some CMap.mapNew
  | op :: h => do
    let s ← runImpl f h
    match op with
    | .add x => let (s, _) ← CMap.setAdd f s x; some s
    | .remove x => let (s, _, _) ← CMap.mapRemove f s x; some s
    | .clear => let (s, _) ← CMap.mapClear s; some s

end SetSpec
