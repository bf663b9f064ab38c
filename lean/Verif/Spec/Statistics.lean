import Mathlib.Algebra.Order.Field.Basic
/-! # Specification: weighted moving averages -/
namespace StatisticsSpec

variable {K : Type} [Field K] [LinearOrder K] [IsStrictOrderedRing K]

/-- The weighted mean after a first value and then samples with their weights, oldest first: each sample takes its weight, what was there keeps the rest. -/
def mean (first : K) : List (K × K) → K
  | [] => first
  | (x, p) :: rest => mean (first + p * (x - first)) rest

/-- Weights are between 0 and 1. -/
def Weights (samples : List (K × K)) : Prop := ∀ s ∈ samples, 0 ≤ s.2 ∧ s.2 ≤ 1

/-- `r` is an integer (of the field) nearest to `x`; when two are equally near, the one further from zero. -/
def NearestAway (x r : K) : Prop :=
  (∃ n : ℤ, r = n) ∧ (∀ m : ℤ, |x - r| ≤ |x - m|) ∧ (∀ m : ℤ, |x - r| = |x - m| → |(m : K)| ≤ |r|)

end StatisticsSpec
