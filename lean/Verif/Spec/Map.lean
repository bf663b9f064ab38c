import Verif.Model.Map
/-!
# Specification of a map by its history

`lookup h k` is the pair a reader of the history `h` (most recent call first) expects to find for key `k`: the last insert of
an equal key that was not removed or cleared since.
-/
namespace MapSpec

/-- A mutating call. -/
inductive Op (K V : Type) where
  | insert (k : K) (v : V)
  | remove (k : K)
  | clear

/-- What is stored for `k` after the history `h`, newest call first. -/
def lookup {K V : Type} (eq : K → K → Bool) : List (Op K V) → K → Option (K × V)
  | [], _ => none
  | .insert k' v :: h, k => if eq k' k then some (k', v) else lookup eq h k
  | .remove k' :: h, k => if eq k' k then none else lookup eq h k
  | .clear :: _, _ => none

/-- Keys handed to the map. -/
def insertedKeys {K V : Type} : List (Op K V) → List K
  | [] => []
  | .insert k _ :: h => k :: insertedKeys h
  | _ :: h => insertedKeys h

/-- Values handed to the map. -/
def insertedVals {K V : Type} : List (Op K V) → List V
  | [] => []
  | .insert _ v :: h => v :: insertedVals h
  | _ :: h => insertedVals h

/-- The user's contract on callbacks: `eq` is an equivalence and equal keys have equal hashes. -/
structure Lawful {K : Type} (f : CMap.Fns K) : Prop where
  refl : ∀ a, f.eq a a = true
  symm : ∀ a b, f.eq a b = true → f.eq b a = true
  trans : ∀ a b c, f.eq a b = true → f.eq b c = true → f.eq a c = true
  hash : ∀ a b, f.eq a b = true → f.hash a = f.hash b

/-- A list of pairs is an enumeration of what `look` says is stored: no two equal keys, and exactly the stored pairs. -/
def Enumerates {K V : Type} (eq : K → K → Bool) (look : K → Option (K × V)) (l : List (K × V)) : Prop :=
  l.Pairwise (fun p q => eq p.1 q.1 = false) ∧ ∀ k p, look k = some p ↔ p ∈ l ∧ eq p.1 k = true

open CMap (Map Fns Destroyed)

/-- Run one call on the implementation: new map, returned boolean (`false` for clear), destructor calls. -/
def stepImpl {K V : Type} (f : Fns K) (m : Map K V) : Op K V → Option (Map K V × Bool × Destroyed K V)
  | .insert k v => CMap.mapInsert f m k v
  | .remove k => CMap.mapRemove f m k
  | .clear => (CMap.mapClear m).map fun (m, d) => (m, false, d)

/-- Run calls (newest first, so the tail runs first) on the implementation from `MapNew`; destructor calls accumulate. -/
def runImpl {K V : Type} (f : Fns K) : List (Op K V) → Option (Map K V × Destroyed K V)
  | [] => some (CMap.mapNew, {})
  | op :: h => do
    let (m, d) ← runImpl f h
    let (m, _, d') ← stepImpl f m op
    some (m, d.append d')

/-- Expected return value: whether an equal key was present. -/
def expectedReturn {K V : Type} (eq : K → K → Bool) (h : List (Op K V)) : Op K V → Bool
  | .insert k _ => (lookup eq h k).isSome
  | .remove k => (lookup eq h k).isSome
  | .clear => false

end MapSpec
