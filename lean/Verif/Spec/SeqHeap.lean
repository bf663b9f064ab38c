import Verif.Model.SeqHeap
import Verif.Spec.Seq
/-! # Specification: several sequences as plain lists

Only the names of the calls are taken from the model. -/
namespace SeqHeapSpec
open SeqHeap (Op)

/-- A sequence as a value: whether it has a destructor, and its items. -/
structure Val where
  owns : Bool
  items : List Nat

/-- What the destructor is called with, if there is one. -/
def Val.kill (v : Val) (l : List Nat) : List Nat := if v.owns then l else []

/-- `Step cmp vs op vs' d`: with the sequences `vs`, the call `op` is allowed, may leave the sequences `vs'`, and gives the items `d` to the
destructor, in this order. No sequence but the one named changes; new ones come last. -/
def Step (cmp : Nat → Nat → Int) (vs : List Val) : Op → List Val → List Nat → Prop
  | .new _ o, vs', d => vs' = vs ++ [⟨o, []⟩] ∧ d = []
  | .append i x, vs', d => ∃ v, vs[i]? = some v ∧ vs' = vs.set i ⟨v.owns, v.items ++ [x]⟩ ∧ d = []
  | .appendOnce i x, vs', d => ∃ v, vs[i]? = some v ∧
      (match v.items.find? fun y => cmp x y = 0 with
      | none | some 0 => vs' = vs.set i ⟨v.owns, v.items ++ [x]⟩ ∧ d = []
      | some (_ + 1) => vs' = vs ∧ d = v.kill [x])
  | .appendSeq i j, vs', d => i ≠ j ∧ ∃ v u, vs[i]? = some v ∧ vs[j]? = some u ∧ vs' = vs.set i ⟨v.owns, v.items ++ u.items⟩ ∧ d = []
  | .set i k x, vs', d => ∃ v, vs[i]? = some v ∧ ∃ y, v.items[k]? = some y ∧ vs' = vs.set i ⟨v.owns, v.items.set k x⟩ ∧ d = v.kill [y]
  | .removeRange i a b, vs', d => ∃ v, vs[i]? = some v ∧ a ≤ b ∧ b < v.items.length ∧
      vs' = vs.set i ⟨v.owns, v.items.take a ++ v.items.drop (b + 1)⟩ ∧ d = v.kill ((v.items.drop a).take (b + 1 - a))
  | .softRemoveRange i a b, vs', d => ∃ v, vs[i]? = some v ∧ a ≤ b ∧ b < v.items.length ∧
      vs' = vs.set i ⟨v.owns, v.items.take a ++ v.items.drop (b + 1)⟩ ∧ d = []
  | .clear i, vs', d => ∃ v, vs[i]? = some v ∧ vs' = vs.set i ⟨v.owns, []⟩ ∧ d = v.kill v.items
  | .sort i, vs', d => ∃ v l, vs[i]? = some v ∧ l.Perm v.items ∧ SeqSpec.Sorted cmp l ∧ vs' = vs.set i ⟨v.owns, l⟩ ∧ d = []
  | .reverse i, vs', d => ∃ v, vs[i]? = some v ∧ vs' = vs.set i ⟨v.owns, v.items.reverse⟩ ∧ d = []
  | .removeNulls i, vs', d => ∃ v, vs[i]? = some v ∧ vs' = vs.set i ⟨v.owns, v.items.filter (· ≠ 0)⟩ ∧ d = []
  | .split i k, vs', d => ∃ v, vs[i]? = some v ∧ k ≤ v.items.length ∧
      vs' = vs.set i ⟨v.owns, v.items.take k⟩ ++ [⟨v.owns, v.items.drop k⟩] ∧ d = []
  | .getRange i a b, vs', d => ∃ v, vs[i]? = some v ∧ d = [] ∧
      vs' = if a ≤ b ∧ b < v.items.length then vs ++ [⟨v.owns, (v.items.drop a).take (b + 1 - a)⟩] else vs
  | .softSort i, vs', d => ∃ v l, vs[i]? = some v ∧ l.Perm v.items ∧ SeqSpec.Sorted cmp l ∧
      vs' = vs ++ [⟨v.owns && !v.items.isEmpty, l⟩] ∧ d = []
  | .destroy i, vs', d => ∃ v, vs[i]? = some v ∧ vs' = vs.eraseIdx i ∧ d = v.kill v.items
  | .softDestroy i, vs', d => ∃ v, vs[i]? = some v ∧ vs' = vs.eraseIdx i ∧ d = []

/-- A history. -/
inductive Steps (cmp : Nat → Nat → Int) : List Val → List Op → List Val → List Nat → Prop
  | nil (vs : List Val) : Steps cmp vs [] vs []
  | cons {vs vs1 vs2 : List Val} {o : Op} {os : List Op} {d e : List Nat} :
      Step cmp vs o vs1 d → Steps cmp vs1 os vs2 e → Steps cmp vs (o :: os) vs2 (d ++ e)

/-- The program never makes a call that is not allowed, whatever the calls before did. -/
def Allowed (cmp : Nat → Nat → Int) : List Val → List Op → Prop
  | _, [] => True
  | vs, o :: os => (∃ vs' d, Step cmp vs o vs' d) ∧ ∀ vs' d, Step cmp vs o vs' d → Allowed cmp vs' os

/-- The items a program hands to sequences, in order. -/
def given : List Op → List Nat
  | [] => []
  | .append _ x :: os => x :: given os
  | .appendOnce _ x :: os => x :: given os
  | .set _ _ x :: os => x :: given os
  | _ :: os => given os

/-- Calls that put the same item into two sequences. -/
def Op.shares : Op → Bool
  | .appendSeq .. => true
  | .getRange .. => true
  | .softSort .. => true
  | _ => false

/-- Calls that take items out of a sequence without destroying them, or make a sequence without a destructor. -/
def Op.drops : Op → Bool
  | .new _ o => !o
  | .softRemoveRange .. => true
  | .removeNulls .. => true
  | .softDestroy .. => true
  | _ => false

end SeqHeapSpec
