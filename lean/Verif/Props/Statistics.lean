import Verif.Model.Statistics
import Verif.Spec.Statistics
import Mathlib.Tactic.Linarith
import Mathlib.Tactic.Ring
import Mathlib.Tactic.Positivity
import Mathlib.Tactic.NormNum
import Mathlib.Algebra.Order.Floor.Ring
import Mathlib.Algebra.Order.Archimedean.Basic
import Mathlib.Data.Rat.Floor
/-! # Property C143: averages and rounding -/
open StatisticsSpec

namespace Statistics

variable {K : Type} [Field K] [LinearOrder K] [IsStrictOrderedRing K]

/-- A point that has seen a first value and then the samples, each with its weight. -/
def seen (first : K) (samples : List (K × K)) : QPoint K :=
  samples.foldl (fun pt s => qAverage pt s.1 s.2) (qDefinite first)

/-- C143. The mixture lies between the two values, and the weights 0 and 1 give one of them. -/
theorem C143_mixture (a b p : K) (h0 : 0 ≤ p) (h1 : p ≤ 1) :
    min a b ≤ gAverage a b p ∧ gAverage a b p ≤ max a b ∧ gAverage a b 0 = b ∧ gAverage a b 1 = a := by
  unfold gAverage
  refine ⟨?_, ?_, by ring, by ring⟩
  · have h2 := mul_le_mul_of_nonneg_left (min_le_left a b) h0
    have h3 := mul_le_mul_of_nonneg_left (min_le_right a b) (show (0:K) ≤ 1 - p by linarith)
    linarith
  · have h2 := mul_le_mul_of_nonneg_left (le_max_left a b) h0
    have h3 := mul_le_mul_of_nonneg_left (le_max_right a b) (show (0:K) ≤ 1 - p by linarith)
    linarith

example : gAverage (10 : ℚ) 0 (3/5) = 6 := by norm_num [gAverage]

theorem expect_foldl (samples : List (K × K)) : ∀ pt : QPoint K,
    (samples.foldl (fun pt s => qAverage pt s.1 s.2) pt).expect = mean pt.expect samples := by
  induction samples with
  | nil => intro pt; rfl
  | cons s samples ih =>
    intro pt
    rw [List.foldl_cons, ih, mean]
    congr 1
    simp only [qAverage, gAverage]; ring

/-- C143. After any history of samples the expectation is the weighted mean of everything seen. -/
theorem C143_expectation (first : K) (samples : List (K × K)) : (seen first samples).expect = mean first samples :=
  expect_foldl samples _

example : mean (0 : ℚ) [(10, 1/2), (10, 1/2)] = 15/2 := by norm_num [mean]

theorem bounds_foldl (lo hi : K) (samples : List (K × K)) : ∀ pt : QPoint K,
    Weights samples → (∀ s ∈ samples, lo ≤ s.1 ∧ s.1 ≤ hi) → lo ≤ pt.expect → pt.expect ≤ hi → 0 ≤ pt.var → pt.var ≤ (hi - lo) * (hi - lo) →
    let r := samples.foldl (fun pt s => qAverage pt s.1 s.2) pt
    lo ≤ r.expect ∧ r.expect ≤ hi ∧ 0 ≤ r.var ∧ r.var ≤ (hi - lo) * (hi - lo) := by
  induction samples with
  | nil => intro pt _ _ h1 h2 h3 h4; exact ⟨h1, h2, h3, h4⟩
  | cons s samples ih =>
    intro pt hw hs h1 h2 h3 h4
    rw [List.foldl_cons]
    obtain ⟨p0, p1⟩ := hw s (by simp)
    obtain ⟨l, u⟩ := hs s (by simp)
    have hd0 : 0 ≤ devsquare pt s.1 := mul_self_nonneg _
    have hd1 : devsquare pt s.1 ≤ (hi - lo) * (hi - lo) := by
      unfold devsquare
      have a : 0 ≤ (hi - lo - (s.1 - pt.expect)) * (hi - lo + (s.1 - pt.expect)) := mul_nonneg (by linarith) (by linarith)
      linarith [show (hi - lo - (s.1 - pt.expect)) * (hi - lo + (s.1 - pt.expect)) = (hi - lo) * (hi - lo) - (s.1 - pt.expect) * (s.1 - pt.expect) by ring]
    obtain ⟨m1, m2, -⟩ := C143_mixture s.1 pt.expect s.2 p0 p1
    obtain ⟨v1, v2, -⟩ := C143_mixture (devsquare pt s.1) pt.var s.2 p0 p1
    exact ih _ (fun x hx => hw x (by simp [hx])) (fun x hx => hs x (by simp [hx]))
      (le_trans (le_min l h1) m1) (le_trans m2 (max_le u h2)) (le_trans (le_min hd0 h3) v1) (le_trans v2 (max_le hd1 h4))

/-- C143. After any history of samples between two bounds, with weights between 0 and 1, the expectation is between the same bounds,
the variance is not negative, and it is at most the square of the distance of the bounds. -/
theorem C143_bounds (first lo hi : K) (samples : List (K × K)) (hw : Weights samples)
    (hf : lo ≤ first ∧ first ≤ hi) (hs : ∀ s ∈ samples, lo ≤ s.1 ∧ s.1 ≤ hi) :
    lo ≤ (seen first samples).expect ∧ (seen first samples).expect ≤ hi ∧
    0 ≤ (seen first samples).var ∧ (seen first samples).var ≤ (hi - lo) * (hi - lo) :=
  bounds_foldl lo hi samples _ hw hs hf.1 hf.2 (le_refl _) (mul_self_nonneg _)

example : Weights [((10 : ℚ), 1/2), (4, 1)] ∧ ∀ s ∈ [((10 : ℚ), (1/2 : ℚ)), (4, 1)], (0:ℚ) ≤ s.1 ∧ s.1 ≤ 10 := by
  constructor <;> intro s hs <;> simp at hs <;> rcases hs with rfl | rfl <;> norm_num

/-- C143. A value that never changes is expected, with no variance and no difference. -/
theorem C143_constant (x : K) (ps : List K) : seen x (ps.map fun p => (x, p)) = qDefinite x := by
  unfold seen
  induction ps with
  | nil => rfl
  | cons p ps ih =>
    rw [List.map_cons, List.foldl_cons]
    have : qAverage (qDefinite x) x p = qDefinite x := by
      simp only [qAverage, qDefinite, gAverage, devsquare]
      congr 1 <;> ring
    rw [this, ih]

/-- C143. The current value is the last sample; the difference is that to the one before. -/
theorem C143_difference (first : K) (samples : List (K × K)) (x p : K) :
    (seen first (samples ++ [(x, p)])).q = x ∧
    (seen first (samples ++ [(x, p)])).dq = x - (samples.getLast?.map (fun s : K × K => s.1)).getD first := by
  have hq : ∀ samples : List (K × K), (seen first samples).q = (samples.getLast?.map (fun s : K × K => s.1)).getD first := by
    intro samples
    rcases List.eq_nil_or_concat samples with rfl | ⟨l, a, rfl⟩
    · rfl
    · simp [seen, qAverage]
  constructor
  · simp [seen, qAverage]
  · rw [← hq]; simp [seen, qAverage]

/-- C143. One step of the variance: the squared deviation from what was expected takes the weight. -/
theorem C143_variance_step (first : K) (samples : List (K × K)) (x p : K) :
    (seen first (samples ++ [(x, p)])).var = p * (x - mean first samples) ^ 2 + (1 - p) * (seen first samples).var := by
  rw [← C143_expectation]
  simp only [seen, qAverage, gAverage, devsquare, List.foldl_append, List.foldl_cons, List.foldl_nil]
  ring

/-- Outside those weights the variance can be negative. -/
theorem C143_bad_weight_negated : (seen (0 : ℚ) [(1, -1)]).var < 0 := by
  norm_num [seen, qAverage, qDefinite, gAverage, devsquare]

variable [FloorRing K]

theorem round_cases (x : K) : ∃ n : ℤ, round x = n ∧ ((0 ≤ x ∧ 0 ≤ n ∧ (n : K) - 1/2 ≤ x ∧ x < n + 1/2) ∨ (x < 0 ∧ n ≤ 0 ∧ (n : K) - 1/2 < x ∧ x ≤ n + 1/2)) := by
  unfold round
  by_cases h : x ≥ 0
  · rw [if_pos h]
    have hf := Int.floor_le x
    have hl := Int.lt_floor_add_one x
    have h0 : 0 ≤ ⌊x⌋ := Int.floor_nonneg.mpr h
    split
    · rename_i h2
      exact ⟨⌊x⌋ + 1, by push_cast; ring, Or.inl ⟨h, by omega, by push_cast; linarith, by push_cast; linarith⟩⟩
    · rename_i h2
      exact ⟨⌊x⌋, rfl, Or.inl ⟨h, h0, by linarith, by linarith⟩⟩
  · rw [if_neg h]
    have h := not_le.mp h
    have hf := Int.le_ceil x
    have hl := Int.ceil_lt_add_one x
    have h0 : ⌈x⌉ ≤ 0 := by rw [Int.ceil_le]; push_cast; exact le_of_lt h
    split
    · rename_i h2
      exact ⟨⌈x⌉ - 1, by push_cast; ring, Or.inr ⟨h, by omega, by push_cast; linarith, by push_cast; linarith⟩⟩
    · rename_i h2
      exact ⟨⌈x⌉, rfl, Or.inr ⟨h, h0, by linarith, by linarith⟩⟩

/-- C143. `round` gives the nearest integer, and of two equally near the one further from zero. -/
theorem C143_round (x : K) : NearestAway x (round x) := by
  obtain ⟨n, hr, hn⟩ := round_cases x
  rw [hr]
  have key : ∀ m : ℤ, m ≠ n → (m : K) ≤ n - 1 ∨ (n : K) + 1 ≤ m := by
    intro m hm
    rcases lt_or_gt_of_ne hm with h | h
    · left; have : m ≤ n - 1 := by omega
      exact_mod_cast this
    · right; have : n + 1 ≤ m := by omega
      exact_mod_cast this
  have hd : |x - n| ≤ 1/2 := by
    rcases hn with ⟨-, -, h1, h2⟩ | ⟨-, -, h1, h2⟩ <;> exact abs_le.mpr ⟨by linarith, by linarith⟩
  refine ⟨⟨n, rfl⟩, ?_, ?_⟩
  · intro m
    by_cases hm : m = n
    · rw [hm]
    · have : (1:K)/2 ≤ |x - m| := by
        have := abs_le.mp hd
        rcases key m hm with h | h
        · exact le_trans (by linarith) (le_abs_self _)
        · exact le_trans (by linarith) (neg_le_abs _)
      linarith
  · intro m he
    by_cases hm : m = n
    · rw [hm]
    · rcases hn with ⟨h0, hn0, h1, h2⟩ | ⟨h0, hn0, h1, h2⟩
      · have hn0' : (0:K) ≤ n := by exact_mod_cast hn0
        rcases key m hm with h | h
        · -- m below n : equally near means x = n - 1/2, so n ≥ 1 and 0 ≤ m
          have e1 : |x - m| = x - m := abs_of_nonneg (by linarith)
          rw [e1] at he
          have h3 := le_of_eq he.symm
          have h4 : x - m ≤ 1/2 := le_trans h3 hd
          have hm' : (m : K) > -1 := by linarith
          have hm0 : 0 ≤ m := by
            have : (-1 : ℤ) < m := by exact_mod_cast hm'
            omega
          have hm0' : (0:K) ≤ m := by exact_mod_cast hm0
          rw [abs_of_nonneg hm0', abs_of_nonneg hn0']; linarith
        · exfalso
          have e1 : |x - m| = m - x := by rw [abs_of_nonpos (by linarith)]; ring
          have e2 : m - x > 1/2 := by linarith
          linarith
      · have hn0' : (n:K) ≤ 0 := by exact_mod_cast hn0
        rcases key m hm with h | h
        · exfalso
          have e1 : |x - m| = x - m := abs_of_nonneg (by linarith)
          linarith
        · have e1 : |x - m| = m - x := by rw [abs_of_nonpos (by linarith)]; ring
          rw [e1] at he
          have h3 := le_of_eq he.symm
          have h4 : m - x ≤ 1/2 := le_trans h3 hd
          have hm' : (m : K) < 1 := by linarith
          have hm0 : m ≤ 0 := by
            have : m < (1 : ℤ) := by exact_mod_cast hm'
            omega
          have hm0' : (m:K) ≤ 0 := by exact_mod_cast hm0
          rw [abs_of_nonpos hm0', abs_of_nonpos hn0']; linarith

example : round (5/2 : ℚ) = 3 ∧ round (-5/2 : ℚ) = -3 ∧ round (7/5 : ℚ) = 1 ∧ round (-1/5 : ℚ) = 0 := by
  refine ⟨?_, ?_, ?_, ?_⟩ <;> norm_num [round]

end Statistics
