import Verif.Model.Seq
/-! # Specification vocabulary for sequences and comparators -/
namespace SeqSpec

/-- A comparator whose sign describes a total preorder (what `SeqSort` documents as a comparator). -/
structure TotalPreorder {P : Type} (cmp : P → P → Int) : Prop where
  refl : ∀ a, cmp a a = 0
  swap : ∀ a b, 0 < cmp a b ↔ cmp b a < 0
  trans : ∀ a b c, cmp a b ≤ 0 → cmp b c ≤ 0 → cmp a c ≤ 0

/-- Non-decreasing order. -/
def Sorted {P : Type} (cmp : P → P → Int) (l : List P) : Prop := l.Pairwise fun a b => cmp a b ≤ 0

/-- The observable contents of a sequence: `length` elements, all initialised, readable with `SeqAt`. -/
def Contents {P : Type} (s : Seqn.Seq P) (xs : List P) : Prop :=
  s.length = xs.length ∧ ∀ i, i < s.length → Seqn.at_ s i = xs[i]?

/-- A well-formed sequence object: `capacity` cells are allocated, at least one, and `length` fits. -/
def WellFormed {P : Type} (s : Seqn.Seq P) : Prop :=
  0 < s.capacity ∧ s.data.length = s.capacity ∧ s.length ≤ s.capacity

end SeqSpec
