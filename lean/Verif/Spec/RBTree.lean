import Verif.Model.RBTree
import Verif.Spec.Map
import Verif.Spec.Seq
/-! # Specification of red-black trees: shape and ordered-map behaviour -/
namespace RBSpec
open RB

/-- In-order payloads. -/
def inorder {P : Type} : T P → List P
  | .nil => []
  | .node _ l p r => inorder l ++ p :: inorder r

/-- Number of nodes on the longest path from the root. -/
def height {P : Type} : T P → Nat
  | .nil => 0
  | .node _ l _ r => max (height l) (height r) + 1

/-- No red node has a red child. -/
def NoRedRed {P : Type} : T P → Prop
  | .nil => True
  | .node red l _ r => (red = true → l.isRed = false ∧ r.isRed = false) ∧ NoRedRed l ∧ NoRedRed r

/-- For every path from the root to a missing child: the number of black nodes on it. -/
def blackCounts {P : Type} : T P → List Nat
  | .nil => [0]
  | .node red l _ r => (blackCounts l ++ blackCounts r).map (· + if red then 0 else 1)

/-- Red-black tree: black root, no red node with a red child, the same number of black nodes on all paths. -/
def IsRedBlack {P : Type} (t : T P) : Prop :=
  t.isRed = false ∧ NoRedRed t ∧ ∃ n, ∀ c ∈ blackCounts t, c = n

/-- Strictly increasing keys. -/
def Increasing {K V : Type} (cmp : K → K → Int) (l : List (K × V)) : Prop := l.Pairwise fun a b => cmp a.1 b.1 < 0

/-- One mutating call on the implementation: new tree, returned boolean, destroyed pairs. -/
def stepImpl {K V : Type} (cmp : K → K → Int) (t : Tree K V) : MapSpec.Op K V → Option (Tree K V × Bool × List (K × V))
  | .insert k v => put cmp t k v
  | .remove k => (remove cmp t k).map fun (t, d) => (t, d.isSome, d.toList)
  | .clear => some ((clear t).1, false, (clear t).2)

/-- A history, newest call first, from `RBTreeNew`: the tree and all pairs destroyed so far. -/
def runImpl {K V : Type} (cmp : K → K → Int) : List (MapSpec.Op K V) → Option (Tree K V × List (K × V))
  | [] => some (new, [])
  | op :: h => do
    let (t, d) ← runImpl cmp h
    let (t, _, d') ← stepImpl cmp t op
    some (t, d ++ d')

/-- The pairs handed to `RBTreePut`. -/
def insertedPairs {K V : Type} : List (MapSpec.Op K V) → List (K × V)
  | [] => []
  | .insert k v :: h => (k, v) :: insertedPairs h
  | _ :: h => insertedPairs h

/-- What the next call must destroy: the pair stored under an equal key, or for clear all live pairs. -/
def expectedDestroyed {K V : Type} (eq : K → K → Bool) (h : List (MapSpec.Op K V)) (live : List (K × V)) :
    MapSpec.Op K V → List (K × V)
  | .insert k _ => (MapSpec.lookup eq h k).toList
  | .remove k => (MapSpec.lookup eq h k).toList
  | .clear => live

/-- Keys are the same when the comparator says 0. -/
def keyEq {K : Type} (cmp : K → K → Int) (a b : K) : Bool := decide (cmp a b = 0)

end RBSpec
