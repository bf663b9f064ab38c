import Verif.Model.RBPtr
import Verif.Spec.RBTree
/-! # Specification of the red-black tree in memory -/
namespace RBPtrSpec
open RBPtr

/-- Only finitely many blocks are allocated. -/
def Finite (alive : Nat → Bool) : Prop := ∃ N, ∀ a, N ≤ a → alive a = false

/-- The contract of `malloc`: a block that is not in use. -/
def Allocator (malloc : (Nat → Bool) → Nat) : Prop := ∀ alive, Finite alive → alive (malloc alive) = false

/-- One mutating call: the new state, the returned boolean, the payloads handed to the destructors (`none`: NULL). -/
def stepPtr {K V : Type} (malloc : (Nat → Bool) → Nat) (cmp : K → K → Int) (s : St K V) :
    MapSpec.Op K V → Option (St K V × Bool × List (Option (K × V)))
  | .insert k v => put malloc cmp s k v
  | .remove k => remove cmp s k
  | .clear => (clear malloc s).map fun r => (r.1, false, r.2)

/-- A history, newest call first, from `RBTreeNew` in the memory `h0`. -/
def runPtr {K V : Type} (malloc : (Nat → Bool) → Nat) (cmp : K → K → Int) (h0 : Heap (K × V)) :
    List (MapSpec.Op K V) → Option (St K V × List (Option (K × V)))
  | [] => (new malloc h0).map fun s => (s, [])
  | op :: h => do
    let (s, d) ← runPtr malloc cmp h0 h
    let (s, _, d') ← stepPtr malloc cmp s op
    some (s, d ++ d')

/-- Calling `RBTreeIteratorNext` until it returns false, at most `n` times: where the iterator stood and what was delivered. -/
def collect {K V : Type} (s : St K V) : Nat → Nat → Option (List (Nat × Option (K × V)))
  | 0, _ => none
  | n + 1, curr => do
    let r ← iterNext s curr
    match r with
    | (none, _) => some []
    | (some p, nxt) => do
      let rest ← collect s n nxt
      some ((curr, p) :: rest)

/-- A whole iteration. -/
def visits {K V : Type} (s : St K V) : Option (List (Nat × Option (K × V))) := do
  let curr ← iterNew s
  collect s (s.size + 1) curr

/-- The block at `a` is allocated and unchanged. -/
structure Untouched {K V : Type} (h h' : Heap (K × V)) (a : Nat) : Prop where
  alive : h'.alive a = h.alive a
  red : h'.red a = h.red a
  left : h'.left a = h.left a
  right : h'.right a = h.right a
  parent : h'.parent a = h.parent a
  pay : h'.pay a = h.pay a

/-- How many times the tree was cleared. -/
def clears {K V : Type} : List (MapSpec.Op K V) → Nat
  | [] => 0
  | .clear :: h => clears h + 1
  | _ :: h => clears h

/-- Neither clears the tree nor removes a key equal to `k`. -/
def Keeps {K V : Type} (cmp : K → K → Int) (k : K) : MapSpec.Op K V → Prop
  | .insert _ _ => True
  | .remove k' => cmp k' k ≠ 0
  | .clear => False

end RBPtrSpec
