import Verif.Model.Flt
import Mathlib.Tactic.Linarith
import Mathlib.Tactic.Positivity
import Mathlib.Tactic.FieldSimp
import Mathlib.Tactic.Ring
import Mathlib.Data.Rat.Floor
import Mathlib.Data.Int.Log
import Mathlib.Algebra.Order.Field.Power
/-! # Lemmas: the arithmetic of `Verif.Model.Flt` as rounding of rational numbers -/
namespace Flt

/-- The value of a number. -/
def val (a : Num) : ℚ := a.m * (2 : ℚ) ^ a.e

theorem val_nonneg (a : Num) : 0 ≤ val a := by unfold val; positivity

/-- To the nearest integer, ties to even. -/
def nq (x : ℚ) : ℤ := if 2 * (x - ⌊x⌋) < 1 then ⌊x⌋ else if 1 < 2 * (x - ⌊x⌋) then ⌊x⌋ + 1 else if ⌊x⌋ % 2 = 0 then ⌊x⌋ else ⌊x⌋ + 1

theorem nq_err (x : ℚ) : |(nq x : ℚ) - x| ≤ 1 / 2 := by
  have h1 := Int.floor_le x
  have h2 := Int.lt_floor_add_one x
  rw [abs_le]
  unfold nq
  split
  · constructor <;> linarith
  · split
    · push_cast; constructor <;> linarith
    · split <;> push_cast <;> constructor <;> linarith

theorem nq_int (z : ℤ) : nq z = z := by unfold nq; simp

theorem nq_mono {x y : ℚ} (h : x ≤ y) : nq x ≤ nq y := by
  by_contra hc
  have hc : (nq y : ℚ) + 1 ≤ nq x := by exact_mod_cast not_le.1 hc
  have hx := abs_le.1 (nq_err x)
  have hy := abs_le.1 (nq_err y)
  have e : x = y := le_antisymm h (by linarith)
  rw [e] at hc
  linarith

/-- To 64 bits, to nearest, ties to even. -/
noncomputable def rnd (x : ℚ) : ℚ := if x ≤ 0 then 0 else nq (x * (2 : ℚ) ^ (63 - Int.log 2 x)) * (2 : ℚ) ^ (Int.log 2 x - 63)

theorem two_zpow_pos (k : ℤ) : (0 : ℚ) < 2 ^ k := by positivity

theorem two_zpow_mul (a b : ℤ) : (2 : ℚ) ^ a * 2 ^ b = 2 ^ (a + b) := (zpow_add₀ (by norm_num) a b).symm

theorem scaled_bounds {x : ℚ} (hx : 0 < x) : (2 : ℚ) ^ 63 ≤ x * 2 ^ (63 - Int.log 2 x) ∧ x * 2 ^ (63 - Int.log 2 x) < 2 ^ 64 := by
  have h1 : (2 : ℚ) ^ Int.log 2 x ≤ x := by exact_mod_cast Int.zpow_log_le_self (b := 2) (by norm_num) hx
  have h2 : x < (2 : ℚ) ^ (Int.log 2 x + 1) := by exact_mod_cast Int.lt_zpow_succ_log_self (b := 2) (by norm_num) x
  have hp := two_zpow_pos (63 - Int.log 2 x)
  constructor
  · calc (2 : ℚ) ^ 63 = 2 ^ Int.log 2 x * 2 ^ (63 - Int.log 2 x) := by rw [two_zpow_mul]; norm_num
      _ ≤ _ := by exact mul_le_mul_of_nonneg_right h1 hp.le
  · calc _ < (2 : ℚ) ^ (Int.log 2 x + 1) * 2 ^ (63 - Int.log 2 x) := mul_lt_mul_of_pos_right h2 hp
      _ = 2 ^ 64 := by rw [two_zpow_mul, show Int.log 2 x + 1 + (63 - Int.log 2 x) = ((64 : ℕ) : ℤ) by push_cast; ring, zpow_natCast]

theorem nq_scaled_bounds {x : ℚ} (hx : 0 < x) : 2 ^ 63 ≤ nq (x * 2 ^ (63 - Int.log 2 x)) ∧ nq (x * 2 ^ (63 - Int.log 2 x)) ≤ 2 ^ 64 := by
  obtain ⟨h1, h2⟩ := scaled_bounds hx
  have e1 : nq ((2 ^ 63 : ℤ) : ℚ) = 2 ^ 63 := nq_int _
  have e2 : nq ((2 ^ 64 : ℤ) : ℚ) = 2 ^ 64 := nq_int _
  constructor
  · rw [← e1]; exact nq_mono (by push_cast; exact h1)
  · rw [← e2]; exact nq_mono (by push_cast; exact h2.le)

theorem rnd_zero : rnd 0 = 0 := by simp [rnd]
theorem rnd_pos_eq {x : ℚ} (hx : 0 < x) : rnd x = nq (x * (2 : ℚ) ^ (63 - Int.log 2 x)) * (2 : ℚ) ^ (Int.log 2 x - 63) := if_neg (not_le.2 hx)

theorem rnd_bounds {x : ℚ} (hx : 0 < x) : (2 : ℚ) ^ Int.log 2 x ≤ rnd x ∧ rnd x ≤ 2 ^ (Int.log 2 x + 1) := by
  obtain ⟨h1, h2⟩ := nq_scaled_bounds hx
  have hp := two_zpow_pos (Int.log 2 x - 63)
  rw [rnd_pos_eq hx]
  constructor
  · calc (2 : ℚ) ^ Int.log 2 x = ((2 ^ 63 : ℤ) : ℚ) * 2 ^ (Int.log 2 x - 63) := by
          rw [show ((2 ^ 63 : ℤ) : ℚ) = (2 : ℚ) ^ (63 : ℤ) by norm_num, two_zpow_mul]; congr 1; ring
      _ ≤ _ := mul_le_mul_of_nonneg_right (by exact_mod_cast h1) hp.le
  · calc _ ≤ ((2 ^ 64 : ℤ) : ℚ) * 2 ^ (Int.log 2 x - 63) := mul_le_mul_of_nonneg_right (by exact_mod_cast h2) hp.le
      _ = 2 ^ (Int.log 2 x + 1) := by rw [show ((2 ^ 64 : ℤ) : ℚ) = (2 : ℚ) ^ (64 : ℤ) by norm_num, two_zpow_mul]; congr 1; ring

theorem rnd_nonneg (x : ℚ) : 0 ≤ rnd x := by
  by_cases hx : 0 < x
  · exact (two_zpow_pos _).le.trans (rnd_bounds hx).1
  · simp [rnd, not_lt.1 hx]

theorem rnd_pos {x : ℚ} (hx : 0 < x) : 0 < rnd x := (two_zpow_pos _).trans_le (rnd_bounds hx).1

theorem rnd_mono {x y : ℚ} (h : x ≤ y) : rnd x ≤ rnd y := by
  by_cases hx : 0 < x
  · have hy := hx.trans_le h
    have hl : Int.log 2 x ≤ Int.log 2 y := Int.log_mono_right hx h
    rcases lt_or_eq_of_le hl with hl | hl
    · calc rnd x ≤ 2 ^ (Int.log 2 x + 1) := (rnd_bounds hx).2
        _ ≤ 2 ^ Int.log 2 y := zpow_le_zpow_right₀ (by norm_num) (by omega)
        _ ≤ rnd y := (rnd_bounds hy).1
    · rw [rnd_pos_eq hx, rnd_pos_eq hy, hl]
      refine mul_le_mul_of_nonneg_right ?_ (two_zpow_pos _).le
      exact_mod_cast nq_mono (mul_le_mul_of_nonneg_right h (two_zpow_pos _).le)
  · rw [show rnd x = 0 by simp [rnd, not_lt.1 hx]]; exact rnd_nonneg y

theorem rnd_err (x : ℚ) (hx : 0 ≤ x) : |rnd x - x| ≤ x / 2 ^ 64 := by
  rcases eq_or_lt_of_le hx with rfl | hx
  · simp [rnd]
  · obtain ⟨h1, _⟩ := scaled_bounds hx
    have hp := two_zpow_pos (Int.log 2 x - 63)
    have e : x = x * 2 ^ (63 - Int.log 2 x) * 2 ^ (Int.log 2 x - 63) := by rw [mul_assoc, two_zpow_mul]; norm_num
    rw [rnd_pos_eq hx]
    have h2 := nq_err (x * 2 ^ (63 - Int.log 2 x))
    generalize hq : nq (x * 2 ^ (63 - Int.log 2 x)) = q at h2 ⊢
    generalize hs : x * (2 : ℚ) ^ (63 - Int.log 2 x) = s at e h1 h2
    generalize Int.log 2 x = l at hp e hs hq ⊢
    rw [e, ← sub_mul, abs_mul, abs_of_pos hp]
    have : |(q : ℚ) - s| ≤ s / 2 ^ 64 := h2.trans (by rw [le_div_iff₀ (by norm_num)]; linarith)
    calc _ ≤ s / 2 ^ 64 * 2 ^ (l - 63) := mul_le_mul_of_nonneg_right this hp.le
      _ = _ := by ring

/-- A number with at most 64 bits. -/
def Rep (x : ℚ) : Prop := ∃ (m : ℕ) (e : ℤ), m < 2 ^ 64 ∧ x = m * 2 ^ e

theorem rnd_rep {x : ℚ} (h : Rep x) : rnd x = x := by
  obtain ⟨m, e, hm, rfl⟩ := h
  rcases Nat.eq_zero_or_pos m with rfl | hm0
  · simp [rnd]
  have hx : (0 : ℚ) < m * 2 ^ e := by have : (0 : ℚ) < m := by exact_mod_cast hm0
                                      positivity
  obtain ⟨h1, _⟩ := scaled_bounds hx
  rw [rnd_pos_eq hx]
  generalize Int.log 2 ((m : ℚ) * 2 ^ e) = l at h1 ⊢
  rw [mul_assoc, two_zpow_mul] at h1 ⊢
  have hk : 0 ≤ e + (63 - l) := by
    by_contra hc
    have h3 : (2 : ℚ) ^ (e + (63 - l)) ≤ 2 ^ (-1 : ℤ) := zpow_le_zpow_right₀ (by norm_num) (by omega)
    have h4 : (m : ℚ) < 2 ^ 64 := by exact_mod_cast hm
    have h5 : (m : ℚ) * 2 ^ (e + (63 - l)) ≤ m * 2 ^ (-1 : ℤ) := mul_le_mul_of_nonneg_left h3 (by positivity)
    have h6 : (2 : ℚ) ^ (-1 : ℤ) = 1 / 2 := by norm_num
    rw [h6] at h5
    linarith
  obtain ⟨k, hk⟩ := Int.eq_ofNat_of_zero_le hk
  rw [hk, zpow_natCast, show (m : ℚ) * 2 ^ k = ((m * 2 ^ k : ℤ) : ℚ) by push_cast; ring, nq_int]
  push_cast
  rw [← zpow_natCast (2 : ℚ) k, ← hk, mul_assoc, two_zpow_mul]
  congr 2
  ring

theorem rep_rnd (x : ℚ) : Rep (rnd x) := by
  by_cases hx : 0 < x
  · obtain ⟨h1, h2⟩ := nq_scaled_bounds hx
    rw [rnd_pos_eq hx]
    generalize nq (x * 2 ^ (63 - Int.log 2 x)) = q at h1 h2
    obtain ⟨n, rfl⟩ := Int.eq_ofNat_of_zero_le (show (0 : ℤ) ≤ q by linarith)
    rcases lt_or_eq_of_le h2 with h2 | h2
    · exact ⟨n, _, by exact_mod_cast h2, by push_cast; ring⟩
    · refine ⟨1, Int.log 2 x - 63 + 64, by norm_num, ?_⟩
      rw [h2]; push_cast
      rw [← two_zpow_mul]; norm_num; ring
  · exact ⟨0, 0, by norm_num, by simp [rnd, not_lt.1 hx]⟩

theorem rep_nat {n : ℕ} (h : n < 2 ^ 64) : Rep n := ⟨n, 0, h, by simp⟩

theorem rep_sub_floor {x : ℚ} (h : Rep x) : Rep (x - ⌊x⌋) := by
  obtain ⟨m, e, hm, rfl⟩ := h
  by_cases he : 0 ≤ e
  · obtain ⟨k, rfl⟩ := Int.eq_ofNat_of_zero_le he
    refine ⟨0, 0, by norm_num, ?_⟩
    rw [zpow_natCast, show (m : ℚ) * 2 ^ k = ((m * 2 ^ k : ℤ) : ℚ) by push_cast; ring, Int.floor_intCast, sub_self]
    simp
  · obtain ⟨k, hk⟩ := Int.eq_ofNat_of_zero_le (show 0 ≤ -e by omega)
    have he : e = -(k : ℤ) := by omega
    subst he
    refine ⟨m % 2 ^ k, -k, lt_of_le_of_lt (Nat.mod_le _ _) hm, ?_⟩
    have hp : (0 : ℚ) < 2 ^ k := by positivity
    have e1 : (m : ℚ) * 2 ^ (-(k : ℤ)) = m / (2 ^ k : ℕ) := by rw [zpow_neg, zpow_natCast]; push_cast; rw [div_eq_mul_inv]
    rw [e1, Rat.floor_natCast_div_natCast]
    have := Nat.div_add_mod m (2 ^ k)
    have h2 : (m : ℚ) = 2 ^ k * (m / 2 ^ k : ℕ) + (m % 2 ^ k : ℕ) := by exact_mod_cast this.symm
    rw [zpow_neg, zpow_natCast, ← Int.natCast_div, Int.cast_natCast, Nat.cast_pow, Nat.cast_ofNat]
    field_simp
    linarith

/-! ## The operations -/

theorem shifted_pos (n d : ℕ) (hd : 0 < d) (t : ℤ) : 0 < (shifted n d t).2 := by
  unfold shifted; split
  · exact hd
  · show 0 < d * 2 ^ (-t).toNat; positivity

theorem shifted_val (n d : ℕ) (hd : 0 < d) (t : ℤ) : ((shifted n d t).1 : ℚ) / (shifted n d t).2 = n / d * 2 ^ t := by
  unfold shifted
  have : (0 : ℚ) < d := by exact_mod_cast hd
  split
  · rename_i h
    obtain ⟨k, rfl⟩ := Int.eq_ofNat_of_zero_le h
    simp only [Int.toNat_natCast, zpow_natCast]
    push_cast; ring
  · rename_i h
    obtain ⟨k, hk⟩ := Int.eq_ofNat_of_zero_le (show 0 ≤ -t by omega)
    rw [show t = -(k : ℤ) by omega, neg_neg, Int.toNat_natCast, zpow_neg, zpow_natCast]
    push_cast
    field_simp

theorem nearest_eq (n d : ℕ) (hd : 0 < d) : ((nearest n d : ℕ) : ℤ) = nq ((n : ℚ) / d) := by
  have hd' : (0 : ℚ) < d := by exact_mod_cast hd
  have hf : ⌊(n : ℚ) / d⌋ = ((n / d : ℕ) : ℤ) := Rat.floor_natCast_div_natCast n d
  have hr : (n : ℚ) / d - ((n / d : ℕ) : ℤ) = (n % d : ℕ) / d := by
    have := Nat.div_add_mod n d
    have h2 : (n : ℚ) = d * (n / d : ℕ) + (n % d : ℕ) := by exact_mod_cast this.symm
    rw [Int.cast_natCast]
    field_simp
    rw [show (n : ℚ) - d * ((n / d : ℕ) : ℚ) = (n % d : ℕ) by linarith]
  unfold nearest nq
  rw [hf, hr]
  have c1 : 2 * (((n % d : ℕ) : ℚ) / d) < 1 ↔ 2 * (n % d) < d := by
    rw [← mul_div_assoc, div_lt_one hd']; exact_mod_cast Iff.rfl
  have c2 : 1 < 2 * (((n % d : ℕ) : ℚ) / d) ↔ 2 * (n % d) > d := by
    rw [← mul_div_assoc, one_lt_div hd']; exact_mod_cast Iff.rfl
  simp only [c1, c2]
  have c3 : ((n / d : ℕ) : ℤ) % 2 = 0 ↔ n / d % 2 = 0 := by omega
  simp only [c3]
  split
  · rfl
  · split
    · push_cast; rfl
    · split
      · rfl
      · push_cast; rfl

theorem log_shift {x : ℚ} (hx : 0 < x) (t : ℤ) (h1 : (2 : ℚ) ^ 63 ≤ x * 2 ^ t) (h2 : x * 2 ^ t < 2 ^ 64) : Int.log 2 x = 63 - t := by
  have hp := two_zpow_pos t
  have e : ∀ k : ℤ, (2 : ℚ) ^ k = 2 ^ (k - t) * 2 ^ t := fun k => by rw [two_zpow_mul]; congr 1; ring
  apply le_antisymm
  · have : (2 : ℚ) ^ Int.log 2 x ≤ x := by exact_mod_cast Int.zpow_log_le_self (b := 2) (by norm_num) hx
    have h3 : (2 : ℚ) ^ (Int.log 2 x + t) < 2 ^ (64 : ℤ) := by
      rw [← two_zpow_mul]
      exact lt_of_le_of_lt (mul_le_mul_of_nonneg_right this hp.le) (by exact_mod_cast h2)
    have := (zpow_lt_zpow_iff_right₀ (by norm_num : (1 : ℚ) < 2)).1 h3
    omega
  · have : x < (2 : ℚ) ^ (Int.log 2 x + 1) := by exact_mod_cast Int.lt_zpow_succ_log_self (b := 2) (by norm_num) x
    have h3 : (2 : ℚ) ^ (63 : ℤ) < 2 ^ (Int.log 2 x + 1 + t) := by
      rw [← two_zpow_mul]
      exact lt_of_le_of_lt (by exact_mod_cast h1) (mul_lt_mul_of_pos_right this hp)
    have := (zpow_lt_zpow_iff_right₀ (by norm_num : (1 : ℚ) < 2)).1 h3
    omega

theorem scale_spec (n d : ℕ) (hn : 0 < n) (hd : 0 < d) : (2 : ℚ) ^ 63 ≤ n / d * 2 ^ scale n d ∧ (n : ℚ) / d * 2 ^ scale n d < 2 ^ 64 := by
  have hd' : (0 : ℚ) < d := by exact_mod_cast hd
  have hn' : (0 : ℚ) < n := by exact_mod_cast hn
  have n1 : (2 : ℚ) ^ (Nat.log2 n : ℤ) ≤ n := by rw [zpow_natCast]; exact_mod_cast Nat.log2_self_le (by omega)
  have n2 : (n : ℚ) < 2 ^ ((Nat.log2 n : ℤ) + 1) := by
    rw [show (Nat.log2 n : ℤ) + 1 = ((Nat.log2 n + 1 : ℕ) : ℤ) by push_cast; ring, zpow_natCast]; exact_mod_cast Nat.lt_log2_self
  have d1 : (2 : ℚ) ^ (Nat.log2 d : ℤ) ≤ d := by rw [zpow_natCast]; exact_mod_cast Nat.log2_self_le (by omega)
  have d2 : (d : ℚ) < 2 ^ ((Nat.log2 d : ℤ) + 1) := by
    rw [show (Nat.log2 d : ℤ) + 1 = ((Nat.log2 d + 1 : ℕ) : ℤ) by push_cast; ring, zpow_natCast]; exact_mod_cast Nat.lt_log2_self
  unfold scale
  generalize (Nat.log2 n : ℤ) = L at n1 n2 ⊢
  generalize (Nat.log2 d : ℤ) = D at d1 d2 ⊢
  set t : ℤ := 63 + D - L with ht
  have hp := two_zpow_pos t
  have lo : (2 : ℚ) ^ 62 ≤ n / d * 2 ^ t := by
    rw [div_mul_eq_mul_div, le_div_iff₀ hd']
    calc (2 : ℚ) ^ 62 * d ≤ 2 ^ (62 : ℤ) * 2 ^ (D + 1) := by
          have : (2 : ℚ) ^ (62 : ℤ) = 2 ^ 62 := by norm_num
          rw [this]; exact mul_le_mul_of_nonneg_left d2.le (by positivity)
      _ = 2 ^ L * 2 ^ t := by rw [two_zpow_mul, two_zpow_mul]; congr 1; omega
      _ ≤ n * 2 ^ t := mul_le_mul_of_nonneg_right n1 hp.le
  have hi : (n : ℚ) / d * 2 ^ t < 2 ^ 64 := by
    rw [div_mul_eq_mul_div, div_lt_iff₀ hd']
    calc (n : ℚ) * 2 ^ t < 2 ^ (L + 1) * 2 ^ t := mul_lt_mul_of_pos_right n2 hp
      _ = 2 ^ (64 : ℤ) * 2 ^ D := by rw [two_zpow_mul, two_zpow_mul]; congr 1; omega
      _ ≤ 2 ^ 64 * d := by
          have : (2 : ℚ) ^ (64 : ℤ) = 2 ^ 64 := by norm_num
          rw [this]; exact mul_le_mul_of_nonneg_left d1 (by positivity)
  have hs := shifted_val n d hd t
  have hsp : (0 : ℚ) < (shifted n d t).2 := by exact_mod_cast shifted_pos n d hd t
  dsimp only
  have hc : (shifted n d t).1 < 2 ^ 63 * (shifted n d t).2 ↔ (n : ℚ) / d * 2 ^ t < 2 ^ 63 := by
    rw [← hs, div_lt_iff₀ hsp]; exact_mod_cast Iff.rfl
  simp only [hc]
  split
  · rename_i h
    rw [zpow_add_one₀ (by norm_num), ← mul_assoc]
    constructor <;> linarith
  · rename_i h
    exact ⟨not_lt.1 h, hi⟩

theorem val_round (n d : ℕ) (hd : 0 < d) (e : ℤ) : val (round n d e) = rnd (n / d * 2 ^ e) := by
  unfold round
  split
  · rename_i h; subst h; simp [val, rnd]
  · rename_i h
    have hn : 0 < n := Nat.pos_of_ne_zero h
    have hd' : (0 : ℚ) < d := by exact_mod_cast hd
    have hn' : (0 : ℚ) < n := by exact_mod_cast hn
    obtain ⟨h1, h2⟩ := scale_spec n d hn hd
    have hx : (0 : ℚ) < n / d * 2 ^ e := by positivity
    have hl : Int.log 2 ((n : ℚ) / d * 2 ^ e) = 63 - (scale n d - e) := by
      refine log_shift hx _ ?_ ?_ <;> rw [mul_assoc, two_zpow_mul, show e + (scale n d - e) = scale n d by ring] <;> assumption
    rw [rnd_pos_eq hx, hl]
    have hn := nearest_eq (shifted n d (scale n d)).1 (shifted n d (scale n d)).2 (shifted_pos n d hd (scale n d))
    rw [shifted_val n d hd] at hn
    unfold val
    dsimp only
    rw [mul_assoc, two_zpow_mul, show e + (63 - (63 - (scale n d - e))) = scale n d by ring, show 63 - (scale n d - e) - 63 = e - scale n d by ring, ← hn]
    push_cast; rfl

theorem val_ofNat (n : ℕ) : val (ofNat n) = n := by simp [val, ofNat]
theorem val_half : val half = 1 / 2 := by norm_num [val, half]

theorem val_mul (a b : Num) : val (mul a b) = rnd (val a * val b) := by
  unfold mul
  rw [val_round _ _ (by norm_num), ← two_zpow_mul]
  unfold val
  congr 1
  push_cast
  ring

theorem val_div (a b : Num) (hb : b.m ≠ 0) : val (div a b) = rnd (val a / val b) := by
  unfold div
  have : (b.m : ℚ) ≠ 0 := by exact_mod_cast hb
  rw [val_round _ _ (by omega), zpow_sub₀ (by norm_num)]
  unfold val
  congr 1
  have := two_zpow_pos b.e
  field_simp

theorem align_val (a b : Num) : val a = (align a b).1 * 2 ^ (align a b).2.2 ∧ val b = (align a b).2.1 * 2 ^ (align a b).2.2 := by
  unfold align val
  dsimp only
  generalize hk : min a.e b.e = k
  have h1 : k ≤ a.e := by omega
  have h2 : k ≤ b.e := by omega
  constructor
  · push_cast
    rw [mul_assoc, ← zpow_natCast, two_zpow_mul]
    congr 2; omega
  · push_cast
    rw [mul_assoc, ← zpow_natCast, two_zpow_mul]
    congr 2; omega

theorem lt_iff (a b : Num) : lt a b = true ↔ val a < val b := by
  obtain ⟨h1, h2⟩ := align_val a b
  unfold lt
  rw [decide_eq_true_iff, h1, h2, mul_lt_mul_iff_of_pos_right (two_zpow_pos _)]
  exact_mod_cast Iff.rfl

theorem val_sub (a b : Num) (h : val b ≤ val a) : val (sub a b) = rnd (val a - val b) := by
  obtain ⟨h1, h2⟩ := align_val a b
  unfold sub
  rw [val_round _ _ (by norm_num)]
  have hle : (align a b).2.1 ≤ (align a b).1 := by
    rw [h1, h2, mul_le_mul_iff_of_pos_right (two_zpow_pos _)] at h
    exact_mod_cast h
  congr 1
  rw [h1, h2]
  push_cast [hle]
  ring

theorem trunc_eq (a : Num) : ((trunc a : ℕ) : ℤ) = ⌊val a⌋ := by
  unfold trunc val
  split
  · rename_i h
    obtain ⟨k, hk⟩ := Int.eq_ofNat_of_zero_le h
    rw [hk, Int.toNat_natCast, zpow_natCast, show (a.m : ℚ) * 2 ^ k = ((a.m * 2 ^ k : ℤ) : ℚ) by push_cast; ring, Int.floor_intCast]
    push_cast; rfl
  · rename_i h
    obtain ⟨k, hk⟩ := Int.eq_ofNat_of_zero_le (show 0 ≤ -a.e by omega)
    rw [hk, Int.toNat_natCast, show a.e = -(k : ℤ) by omega, zpow_neg, zpow_natCast, ← div_eq_mul_inv,
      show (a.m : ℚ) / 2 ^ k = (a.m : ℚ) / ((2 ^ k : ℕ) : ℚ) by push_cast; rfl, Rat.floor_natCast_div_natCast, Int.natCast_div]

theorem cast_eq {a : Num} (h : val a < uintmax) : ((cast a : ℕ) : ℤ) = ⌊val a⌋ := by
  unfold cast
  rw [if_pos ((lt_iff _ _).2 (by rw [val_ofNat]; exact h)), trunc_eq]
theorem cast_big {a : Num} (h : ¬ val a < uintmax) : cast a = uintmax := by
  unfold cast
  rw [if_neg (fun hh => h (by have := (lt_iff _ _).1 hh; rwa [val_ofNat] at this))]

/-- Rounding to nearest, ties upward, of a number of 64 bits. -/
theorem myround_eq {a : Num} (h : val a < uintmax) (hr : Rep (val a)) : ((myround a : ℕ) : ℤ) = ⌊val a + 1 / 2⌋ := by
  have hc := cast_eq h
  have hf := Int.floor_le (val a)
  have hg := Int.lt_floor_add_one (val a)
  have hcv : val (ofNat (cast a)) = ((⌊val a⌋ : ℤ) : ℚ) := by rw [val_ofNat, ← hc]; push_cast; rfl
  have hs : val (sub a (ofNat (cast a))) = val a - ⌊val a⌋ := by
    rw [val_sub _ _ (by rw [hcv]; exact hf), hcv, rnd_rep (rep_sub_floor hr)]
  unfold myround
  by_cases hh : val a - ⌊val a⌋ < 1 / 2
  · rw [if_pos ((lt_iff _ _).2 (by rw [hs, val_half]; exact hh)), hc]
    symm; rw [Int.floor_eq_iff]; constructor <;> linarith
  · rw [if_neg (fun h => hh (by have := (lt_iff _ _).1 h; rwa [hs, val_half] at this))]
    push_cast
    rw [hc]
    symm; rw [Int.floor_eq_iff]; push_cast; constructor <;> linarith

end Flt
