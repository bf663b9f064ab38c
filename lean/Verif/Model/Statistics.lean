import Mathlib.Algebra.Order.Floor.Defs
import Mathlib.Algebra.Order.Field.Basic
/-! # Model of libutils/statistics.c and libcompat/round.c over exact numbers

Simplification: `double` is replaced by an arbitrary ordered field: rounding, overflow, infinities and NaN are not modelled. -/
namespace Statistics

variable {K : Type} [Field K] [LinearOrder K] [IsStrictOrderedRing K]

/-- `QPoint` (statistics.h:28-34). -/
structure QPoint (K : Type) where
  q : K
  expect : K
  var : K
  dq : K

/-- `GAverage` (statistics.c:31-35). -/
def gAverage (anew aold p : K) : K := p * anew + (1 - p) * aold

/-- `devsquare` (statistics.c:50). -/
def devsquare (old : QPoint K) (newQ : K) : K := (newQ - old.expect) * (newQ - old.expect)

/-- `QAverage` (statistics.c:44-57). -/
def qAverage (old : QPoint K) (newQ p : K) : QPoint K :=
  { q := newQ,
    dq := newQ - old.q,
    expect := gAverage newQ old.expect p,
    var := gAverage (devsquare old newQ) old.var p }

/-- `QDefinite` (statistics.c:61-64). -/
def qDefinite (q : K) : QPoint K := ⟨q, q, 0, 0⟩

variable [FloorRing K]

/-- `round` (round.c:35-63). -/
def round (x : K) : K :=
  if x ≥ 0 then
    if x - (⌊x⌋ : K) ≥ 1 / 2 then (⌊x⌋ : K) + 1 else (⌊x⌋ : K)
  else
    if (⌈x⌉ : K) - x ≥ 1 / 2 then (⌈x⌉ : K) - 1 else (⌈x⌉ : K)

end Statistics
