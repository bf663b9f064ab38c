import Verif.Model.HashPtr
import Verif.Spec.Map
/-! # Specification of the hash map in memory -/
namespace HashPtrSpec
open HashPtr
open CMap (Fns Destroyed)

/-- Only finitely many blocks are allocated. -/
def Finite {P : Type} (h : Heap P) : Prop := ∃ N, ∀ a, N ≤ a → h a = none

/-- The contract of `malloc`: the address of a block that is not in use, and not NULL. -/
def Allocator (malloc : (Nat → Bool) → Nat) : Prop :=
  ∀ used : Nat → Bool, (∃ N, ∀ a, N ≤ a → used a = false) → used (malloc used) = false ∧ malloc used ≠ 0

/-- One mutating call: the new state, the returned boolean, the destructor calls. -/
def stepPtr {K V : Type} (malloc : (Nat → Bool) → Nat) (f : Fns K) (s : St K V) :
    MapSpec.Op K V → Option (St K V × Bool × Destroyed K V)
  | .insert k v => insert malloc f s k v
  | .remove k => remove malloc f s k
  | .clear => (clear s).map fun r => (r.1, false, r.2)

/-- A history, newest call first, from `HashMapNew` with `initSize` in the memory `h0`. -/
def runPtr {K V : Type} (malloc : (Nat → Bool) → Nat) (f : Fns K) (h0 : Heap (K × V)) (initSize : Nat) :
    List (MapSpec.Op K V) → Option (St K V × Destroyed K V)
  | [] => some (new malloc h0 initSize, {})
  | op :: h => do
    let (s, d) ← runPtr malloc f h0 initSize h
    let (s, _, d') ← stepPtr malloc f s op
    some (s, d.append d')

/-- Neither clears the map nor removes a key equal to `k`. -/
def Keeps {K V : Type} (eq : K → K → Bool) (k : K) : MapSpec.Op K V → Prop
  | .insert _ _ => True
  | .remove k' => eq k' k = false
  | .clear => False

/-- What `HashMapGet` shows the caller: the pair behind the pointer it returns, if it is not NULL. -/
def view {K V : Type} (f : Fns K) (s : St K V) (k : K) : Option (Option (K × V)) := do
  let a ← get f s k
  if a = 0 then some none
  else do
    let p ← getPay s.h a
    some (some p)

/-- The destructor calls a call must make when `h` is the history so far: the pair it replaces, removes, or all the pairs. -/
def ExpectedDestroyed {K V : Type} (eq : K → K → Bool) (h : List (MapSpec.Op K V)) (l : List (K × V)) (d : Destroyed K V) :
    MapSpec.Op K V → Prop
  | .insert k _ => d.keys = ((MapSpec.lookup eq h k).toList.map (·.1)) ∧ d.vals = ((MapSpec.lookup eq h k).toList.map (·.2))
  | .remove k => d.keys = ((MapSpec.lookup eq h k).toList.map (·.1)) ∧ d.vals = ((MapSpec.lookup eq h k).toList.map (·.2))
  | .clear => ∃ l' : List (K × V), l'.Perm l ∧ d.keys = l'.map (·.1) ∧ d.vals = l'.map (·.2)

/-- Calling `HashMapIteratorNext` until it returns NULL, at most `n` times: the addresses of the items delivered, the pairs
found there, and the map afterwards. After each delivered item whose key satisfies `drop`, that key is removed from the map. -/
def walk {K V : Type} (malloc : (Nat → Bool) → Nat) (f : Fns K) (drop : K → Bool) :
    Nat → St K V → Iter → Option (List (Nat × (K × V)) × St K V)
  | 0, _, _ => none
  | n + 1, s, i => do
    let (i, a) ← iterNext s i
    if a = 0 then some ([], s)
    else do
      let p ← getPay s.h a
      let s ← if drop p.1 then (remove malloc f s p.1).map (·.1) else some s
      let (rest, s) ← walk malloc f drop n s i
      some ((a, p) :: rest, s)

/-- A whole iteration that removes nothing. -/
def visits {K V : Type} (malloc : (Nat → Bool) → Nat) (f : Fns K) (s : St K V) : Option (List (Nat × (K × V))) := do
  let i ← iterInit s
  let (l, _) ← walk malloc f (fun _ => false) (s.load + 1) s i
  some l

/-- The numbers of `ls` from the largest to the smallest. -/
def Descending (ls sorted : List Nat) : Prop := sorted.Perm ls ∧ sorted.Pairwise (fun x y => y ≤ x)

end HashPtrSpec
