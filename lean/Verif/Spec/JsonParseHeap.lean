import Verif.Spec.JsonHeap
/-! # What a caller of the JSON parser expects of memory -/
namespace JsonHeapSpec
open Json JsonHeap

/-- A heap whose blocks all come from the allocator. -/
def Tidy (h : Heap) : Prop := ∀ a, h.next ≤ a → h.cell a = none

/-- The same blocks with the same contents. -/
def SameBlocks (h h' : Heap) : Prop := ∀ a, h'.cell a = h.cell a

/-- `a` is a new element of the value `e` beside the blocks of `h`, which are as they were, and destroying it leaves exactly those. -/
def NewElement (h h' : Heap) (a : Nat) (e : Elem) : Prop :=
  h.cell a = none ∧ view h' a = some e ∧ (∀ b c, h.cell b = some c → h'.cell b = some c) ∧ ∃ h'', destroy h' a = some h'' ∧ SameBlocks h h''

end JsonHeapSpec
