import Verif.Model.RBTree
/-! # Model of the checks and of the default comparison of libutils/rb-tree.c -/
namespace RB

/-- `VerifyNode_` (rb-tree.c:714-742): `black` is `black_count`, `path` is `*path_black_count`, -1 being `none`; the new `*path_black_count`, or `none` if an assertion fails. -/
def verifyNode {P : Type} : T P → Nat → Option Nat → Option (Option Nat)
  | .nil, black, none => some (some (black + 1))
  | .nil, black, some n => if black + 1 = n then some (some n) else none
  | .node red l _ r, black, path =>
    if red = true ∧ (l.isRed = true ∨ r.isRed = true) then none
    else (verifyNode l (if red then black else black + 1) path).bind fun path => verifyNode r (if red then black else black + 1) path

/-- `VerifyTree_` (rb-tree.c:744-756): all assertions hold. The sentinels are never painted or given keys in the model. -/
def verifyTree {K V : Type} (t : Tree K V) : Bool := (verifyNode t.root 0 none).isSome

/-- `PointerCompare_` (rb-tree.c:67-70), the comparison of a tree made without one (rb-tree.c:130-134): the difference of two addresses, returned as an `int` (converted modulo 2^32, as gcc does). -/
def pointerCompare (a b : Nat) : Int := (BitVec.ofInt 32 ((a : Int) - (b : Int))).toInt

end RB
