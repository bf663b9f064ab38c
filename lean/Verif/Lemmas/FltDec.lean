import Verif.Lemmas.FltPow
/-! # Lemmas: the decimal exponent and the scaled value are right for numbers of 53 bits -/
namespace Flt

/-- A number with at most 53 bits. -/
def Rep53 (x : ℚ) : Prop := ∃ (m : ℕ) (e : ℤ), m < 2 ^ 53 ∧ x = m * 2 ^ e

theorem Rep53.rep {x : ℚ} (h : Rep53 x) : Rep x := by
  obtain ⟨m, e, hm, rfl⟩ := h
  exact ⟨m, e, hm.trans (by norm_num), rfl⟩

/-- Between neighbours there is no other number of 53 bits. -/
theorem rep53_gap {x : ℚ} (h : Rep53 x) {M : ℕ} {e : ℤ} (hM : 2 ^ 52 < M) (hx : x < M * 2 ^ e) : x ≤ ((M - 1 : ℕ) : ℚ) * 2 ^ e := by
  obtain ⟨m, f, hm, rfl⟩ := h
  have hM1 : ((M - 1 : ℕ) : ℚ) = M - 1 := by rw [Nat.cast_sub (by omega)]; simp
  by_cases hf : e ≤ f
  · obtain ⟨k, hk⟩ := Int.eq_ofNat_of_zero_le (show 0 ≤ f - e by omega)
    have e1 : (m : ℚ) * 2 ^ f = ((m * 2 ^ k : ℕ) : ℚ) * 2 ^ e := by
      rw [show f = (k : ℤ) + e by omega, ← two_zpow_mul, zpow_natCast]; push_cast; ring
    rw [e1] at hx ⊢
    rw [mul_lt_mul_iff_of_pos_right (two_zpow_pos _)] at hx
    refine mul_le_mul_of_nonneg_right ?_ (two_zpow_pos _).le
    have : m * 2 ^ k < M := by exact_mod_cast hx
    exact_mod_cast (by omega : m * 2 ^ k ≤ M - 1)
  · have h1 : (2 : ℚ) ^ f ≤ 2 ^ (e - 1) := zpow_le_zpow_right₀ (by norm_num) (by omega)
    have h2 : (m : ℚ) ≤ 2 ^ 53 := by exact_mod_cast hm.le
    have h3 : ((2 ^ 52 : ℕ) : ℚ) ≤ ((M - 1 : ℕ) : ℚ) := by exact_mod_cast (by omega : 2 ^ 52 ≤ M - 1)
    have h4 : (2 : ℚ) ^ (e - 1) = 2 ^ e / 2 := by rw [zpow_sub₀ (by norm_num)]; simp
    calc (m : ℚ) * 2 ^ f ≤ 2 ^ 53 * (2 ^ e / 2) := by rw [← h4]; exact mul_le_mul h2 h1 (by positivity) (by positivity)
      _ = ((2 ^ 52 : ℕ) : ℚ) * 2 ^ e := by push_cast; ring
      _ ≤ _ := mul_le_mul_of_nonneg_right h3 (two_zpow_pos _).le

theorem neighbours_spec {j : ℤ} (h : neighbours j = true) :
    (10 : ℚ) ^ j ≤ val (tenAbove j) ∧ (∀ x, Rep53 x → x < 10 ^ j → x ≤ val (tenBelow j)) ∧ (∀ x, Rep53 x → (10 : ℚ) ^ j ≤ x → val (tenAbove j) ≤ x) ∧ Rep (val (tenAbove j)) ∧ 0 < val (tenAbove j) := by
  unfold neighbours at h
  simp only [Bool.and_eq_true, decide_eq_true_eq] at h
  obtain ⟨⟨⟨h1, h2⟩, h3⟩, h4⟩ := h
  have hs : ((tenScaled j).1 : ℚ) / (tenScaled j).2 = 10 ^ j * 2 ^ tenShift j := by
    rw [tenScaled, shifted_val _ _ (tenFrac_pos j).2, tenFrac_val]
  have hp : (0 : ℚ) < (tenScaled j).2 := by exact_mod_cast shifted_pos _ _ (tenFrac_pos j).2 _
  have he : (tenAbove j).e = -tenShift j := rfl
  have hcancel : (10 : ℚ) ^ j = (tenScaled j).1 / (tenScaled j).2 * 2 ^ (-tenShift j) := by
    rw [hs, mul_assoc, two_zpow_mul]; simp
  have up : (10 : ℚ) ^ j ≤ val (tenAbove j) := by
    rw [hcancel, val, he]
    refine mul_le_mul_of_nonneg_right ?_ (two_zpow_pos _).le
    rw [div_le_iff₀ hp]; exact_mod_cast h4
  have dn : (((tenAbove j).m - 1 : ℕ) : ℚ) * 2 ^ (tenAbove j).e < 10 ^ j := by
    rw [hcancel, he]
    refine mul_lt_mul_of_pos_right ?_ (two_zpow_pos _)
    rw [lt_div_iff₀ hp]; exact_mod_cast h3
  refine ⟨up, fun x hx hl => ?_, fun x hx hl => ?_, rep_num h2, val_pos (by omega)⟩
  · exact rep53_gap hx h1 (lt_of_lt_of_le hl up)
  · by_contra hc
    have := rep53_gap hx h1 (not_le.1 hc)
    linarith

theorem exponent_spec {v : Num} (hv : v.m < 2 ^ 53) {j : ℤ} (hj1 : -99 ≤ j) (hj2 : j ≤ 99) (h1 : (10 : ℚ) ^ j ≤ val v) (h2 : val v < 10 ^ (j + 1)) :
    getexponent v = j ∧ 1 ≤ val (div v (mypow10 j)) ∧ val (div v (mypow10 j)) < 10 ∧ (mypow10 j).m ≠ 0 := by
  have hx : Rep53 (val v) := ⟨v.m, v.e, hv, rfl⟩
  have hl := lower_table (j + 99).toNat (by omega)
  have hu := upper_table (j + 99).toNat (by omega)
  rw [show ((j + 99).toNat : ℤ) - 99 = j by omega] at hl
  rw [show ((j + 99).toNat : ℤ) - 98 = j + 1 by omega] at hu
  simp only [lowerOk, upperOk, Bool.and_eq_true, Bool.not_eq_true', decide_eq_true_eq] at hl hu
  obtain ⟨⟨n1, l1⟩, l2⟩ := hl
  obtain ⟨⟨n2, u1⟩, u2⟩ := hu
  rw [show j + 1 - 1 = j by ring] at u1 u2
  obtain ⟨-, -, a3, a4, a5⟩ := neighbours_spec n1
  obtain ⟨-, b2, -, -, -⟩ := neighbours_spec n2
  have lo := a3 _ hx h1
  have hi := b2 _ hx h2
  have hp := pow_table (j + 99).toNat (by omega)
  rw [show ((j + 99).toNat : ℤ) - 99 = j by omega] at hp
  have hm : (mypow10 j).m ≠ 0 := by
    intro h0
    unfold powOk at hp
    simp only [Bool.and_eq_true, decide_eq_true_eq, h0] at hp
    have h3 := hp.2
    have : (shifted 0 1 (mypow10 j).e).1 = 0 := by unfold shifted; split <;> simp
    rw [this] at h3
    have t1 := (tenFrac_pos j).1
    have t2 := shifted_pos 0 1 (by norm_num) (mypow10 j).e
    have t3 : 0 < 2 ^ 64 - j.natAbs := by omega
    have : 0 < (2 ^ 64 - j.natAbs) * ((tenFrac j).1 * (shifted 0 1 (mypow10 j).e).2) := by positivity
    simp only [Nat.zero_mul, Nat.mul_zero] at h3
    omega
  refine ⟨le_antisymm ?_ ?_, ?_, ?_, hm⟩
  · exact u1 ▸ getexponent_mono (a5.trans_le lo) hx.rep hi
  · exact l1 ▸ getexponent_mono a5 a4 lo
  · have : ¬ val (div (tenAbove j) (mypow10 j)) < 1 := fun hh => by
      have := (lt_iff (div (tenAbove j) (mypow10 j)) (ofNat 1)).2 (by rw [val_ofNat]; exact_mod_cast hh)
      rw [l2] at this; exact absurd this (by decide)
    refine (not_lt.1 this).trans ?_
    rw [val_div _ _ hm, val_div _ _ hm]
    exact rnd_mono (div_le_div_of_nonneg_right lo (val_nonneg _))
  · have := (lt_iff _ _).1 u2
    rw [val_ofNat] at this
    refine lt_of_le_of_lt ?_ (by exact_mod_cast this)
    rw [val_div _ _ hm, val_div _ _ hm]
    exact rnd_mono (div_le_div_of_nonneg_right hi (val_nonneg _))

theorem pow_close {j : ℤ} (hj1 : -99 ≤ j) (hj2 : j ≤ 99) : |val (mypow10 j) - 10 ^ j| ≤ j.natAbs * 10 ^ j / 2 ^ 64 := by
  have hp := pow_table (j + 99).toNat (by omega)
  rw [show ((j + 99).toNat : ℤ) - 99 = j by omega] at hp
  unfold powOk at hp
  simp only [Bool.and_eq_true, decide_eq_true_eq] at hp
  obtain ⟨h1, h2⟩ := hp
  have hv := shifted_val (mypow10 j).m 1 (by norm_num) (mypow10 j).e
  have hv' : ((shifted (mypow10 j).m 1 (mypow10 j).e).1 : ℚ) / (shifted (mypow10 j).m 1 (mypow10 j).e).2 = val (mypow10 j) := by rw [hv, val]; simp
  have hsp : (0 : ℚ) < (shifted (mypow10 j).m 1 (mypow10 j).e).2 := by exact_mod_cast shifted_pos _ _ (by norm_num) _
  have htp : (0 : ℚ) < (tenFrac j).2 := by exact_mod_cast (tenFrac_pos j).2
  have ht := tenFrac_val j
  generalize hA : (shifted (mypow10 j).m 1 (mypow10 j).e).1 = A at h1 h2 hv'
  generalize hB : (shifted (mypow10 j).m 1 (mypow10 j).e).2 = B at h1 h2 hv' hsp
  generalize (tenFrac j).1 = C at h1 h2 ht
  generalize (tenFrac j).2 = D at h1 h2 ht htp
  have hN : j.natAbs ≤ 2 ^ 64 := by omega
  generalize j.natAbs = n at h1 h2 hN ⊢
  have h1' : (2 : ℚ) ^ 64 * (A * D) ≤ (2 ^ 64 + n) * (C * B) := by exact_mod_cast h1
  have h2' : ((2 : ℚ) ^ 64 - n) * (C * B) ≤ 2 ^ 64 * (A * D) := by
    have : (((2 ^ 64 - n) * (C * B) : ℕ) : ℚ) ≤ ((2 ^ 64 * (A * D) : ℕ) : ℚ) := by exact_mod_cast h2
    rw [Nat.cast_mul, Nat.cast_sub hN] at this
    push_cast at this ⊢
    exact this
  rw [← hv', ← ht, abs_le]
  constructor
  · have : (A : ℚ) / B - C / D + n * (C / D) / 2 ^ 64 = (2 ^ 64 * (A * D) - (2 ^ 64 - n) * (C * B)) / (2 ^ 64 * B * D) := by field_simp; ring
    have h3 : 0 ≤ (2 ^ 64 * (A * D) - (2 ^ 64 - n) * (C * B)) / (2 ^ 64 * B * D : ℚ) := div_nonneg (by linarith) (by positivity)
    linarith
  · have : n * (C / D) / 2 ^ 64 - ((A : ℚ) / B - C / D) = ((2 ^ 64 + n) * (C * B) - 2 ^ 64 * (A * D)) / (2 ^ 64 * B * D) := by field_simp; ring
    have h3 : 0 ≤ ((2 ^ 64 + n) * (C * B) - 2 ^ 64 * (A * D)) / (2 ^ 64 * B * D : ℚ) := div_nonneg (by linarith) (by positivity)
    linarith

/-- The scaled value is close to the true one. -/
theorem scaled_close {v : Num} {j : ℤ} (hj1 : -99 ≤ j) (hj2 : j ≤ 99) (h0 : 0 < val v) (h2 : val v < 10 ^ (j + 1)) (hm : (mypow10 j).m ≠ 0) :
    |val (div v (mypow10 j)) - val v * 10 ^ (-j)| ≤ 10 * (j.natAbs + 3) / 2 ^ 64 := by
  have hT := pow_close hj1 hj2
  rw [val_div _ _ hm]
  have hn : (j.natAbs : ℚ) ≤ 99 := by exact_mod_cast (by omega : j.natAbs ≤ 99)
  have hn0 : (0 : ℚ) ≤ j.natAbs := by positivity
  have hTp := val_pos hm
  have h10 : (0 : ℚ) < 10 ^ j := by positivity
  rw [zpow_add₀ (by norm_num), zpow_one] at h2
  rw [zpow_neg]
  generalize val (mypow10 j) = T at *
  generalize (10 : ℚ) ^ j = Z at *
  generalize val v = X at *
  generalize (j.natAbs : ℚ) = n at *
  have he := rnd_err (X / T) (by positivity)
  rw [abs_le] at hT
  set q := X / T with hq
  set y := X * Z⁻¹ with hy
  have hXq : X = q * T := by rw [hq]; field_simp
  have hXy : X = y * Z := by rw [hy]; field_simp
  have hq0 : 0 < q := by rw [hq]; positivity
  have hy0 : 0 < y := by rw [hy]; positivity
  have hy10 : y < 10 := by rw [hXy] at h2; nlinarith
  -- |q - y| ≤ y * (n + 1) / 2^64
  have hqT : q * T = y * Z := by rw [← hXq, ← hXy]
  have hd : |q - y| ≤ q * n / 2 ^ 64 := by
    have e1 : q - y = q * (Z - T) / Z := by rw [eq_div_iff h10.ne']; linarith
    rw [e1, abs_div, abs_mul, abs_of_pos hq0, abs_of_pos h10, div_le_div_iff₀ h10 (by positivity)]
    have : |Z - T| ≤ n * Z / 2 ^ 64 := by rw [abs_sub_comm, abs_le]; exact hT
    have := mul_le_mul_of_nonneg_left this hq0.le
    calc q * |Z - T| * 2 ^ 64 ≤ q * (n * Z / 2 ^ 64) * 2 ^ 64 := mul_le_mul_of_nonneg_right this (by positivity)
      _ = q * n * Z := by field_simp
  have hq10 : q ≤ 101 / 10 := by
    by_contra hc
    have h3 := (abs_le.1 hd).2
    have h4 : q * n / 2 ^ 64 ≤ q * 99 / 2 ^ 64 := by
      rw [div_le_div_iff_of_pos_right (by positivity)]; exact mul_le_mul_of_nonneg_left hn hq0.le
    linarith
  rw [abs_le] at he hd ⊢
  have h5 : q / 2 ^ 64 + q * n / 2 ^ 64 ≤ 10 * (n + 3) / 2 ^ 64 := by
    rw [← add_div, div_le_div_iff_of_pos_right (by positivity)]
    have : q * n ≤ 101 / 10 * n := mul_le_mul_of_nonneg_right hq10 hn0
    linarith
  constructor <;> linarith [he.1, he.2, hd.1, hd.2]

/-! ## Splitting into integer part and fraction -/

theorem rep_sub_nat {x : ℚ} (h : Rep x) (k : ℕ) (hk : (k : ℚ) ≤ x) (hb : x - k < 2 ^ 64) : Rep (x - k) := by
  obtain ⟨m, e, hm, rfl⟩ := h
  by_cases he : 0 ≤ e
  · obtain ⟨t, rfl⟩ := Int.eq_ofNat_of_zero_le he
    rw [zpow_natCast] at *
    have h1 : k ≤ m * 2 ^ t := by exact_mod_cast hk
    have h2 : (m : ℚ) * 2 ^ t - k = ((m * 2 ^ t - k : ℕ) : ℚ) := by rw [Nat.cast_sub h1]; push_cast; rfl
    rw [h2] at hb ⊢
    exact rep_nat (by exact_mod_cast hb)
  · obtain ⟨t, ht⟩ := Int.eq_ofNat_of_zero_le (show 0 ≤ -e by omega)
    have he : e = -(t : ℤ) := by omega
    subst he
    have hp : (0 : ℚ) < 2 ^ t := by positivity
    rw [zpow_neg, zpow_natCast, ← div_eq_mul_inv] at *
    rw [le_div_iff₀ hp] at hk
    have h1 : k * 2 ^ t ≤ m := by exact_mod_cast hk
    refine ⟨m - k * 2 ^ t, -t, by omega, ?_⟩
    rw [Nat.cast_sub h1, zpow_neg, zpow_natCast]
    push_cast
    field_simp

/-- `cast` and `myround` together give the rounded multiple. -/
theorem split_spec {a : Num} (hr : Rep (val a)) (h : val a < uintmax) {p : ℕ} (hp : p < 20) :
    cast a ≠ uintmax ∧ ((cast a : ℕ) : ℤ) = ⌊val a⌋ ∧
      let f := myround (mul (ofNat (trunc (mypow10 p))) (sub a (ofNat (cast a))))
      f ≤ 10 ^ p ∧ trunc (mypow10 p) = 10 ^ p ∧ |(cast a : ℚ) * 10 ^ p + f - val a * 10 ^ p| ≤ 1 / 2 + 10 ^ p / 2 ^ 64 ∧
        ((∃ (m : ℕ) (e : ℤ), m < 2 ^ 64 ∧ val a * 10 ^ p = m * 2 ^ e) → ((cast a * 10 ^ p + f : ℕ) : ℤ) = ⌊val a * 10 ^ p + 1 / 2⌋) := by
  have hc := cast_eq h
  have hf := Int.floor_le (val a)
  have hg := Int.lt_floor_add_one (val a)
  have hcv : val (ofNat (cast a)) = ((⌊val a⌋ : ℤ) : ℚ) := by rw [val_ofNat, ← hc]; push_cast; rfl
  have hs : val (sub a (ofNat (cast a))) = val a - ⌊val a⌋ := by
    rw [val_sub _ _ (by rw [hcv]; exact hf), hcv, rnd_rep (rep_sub_floor hr)]
  have hcq : (cast a : ℚ) = ⌊val a⌋ := by rw [← hc]; push_cast; rfl
  have ht := trunc_table p hp
  have hpp : (10 : ℕ) ^ p ≤ 10 ^ 19 := Nat.pow_le_pow_right (by norm_num) (by omega)
  have hM : ((10 ^ p : ℕ) : ℚ) = 10 ^ p := by push_cast; rfl
  have hMb : (10 : ℚ) ^ p ≤ 10 ^ 19 := by rw [← hM]; exact_mod_cast hpp
  have hM0 : (0 : ℚ) < 10 ^ p := by positivity
  have hφ0 : 0 ≤ val a - ⌊val a⌋ := by linarith
  have hφ1 : val a - ⌊val a⌋ ≤ 1 := by linarith
  have hb0 : 0 ≤ (10 : ℚ) ^ p * (val a - ⌊val a⌋) := mul_nonneg hM0.le hφ0
  have hb1 : (10 : ℚ) ^ p * (val a - ⌊val a⌋) ≤ 10 ^ p := by nlinarith
  have hprod : val (mul (ofNat (trunc (mypow10 p))) (sub a (ofNat (cast a)))) = rnd (10 ^ p * (val a - ⌊val a⌋)) := by
    rw [val_mul, hs, val_ofNat, ht, hM]
  have hle : rnd ((10 : ℚ) ^ p * (val a - ⌊val a⌋)) ≤ 10 ^ p := by
    have := rnd_mono hb1
    rwa [← hM, rnd_rep (rep_nat (lt_of_le_of_lt hpp (by norm_num))), hM] at this
  have hrd := myround_eq (a := mul (ofNat (trunc (mypow10 p))) (sub a (ofNat (cast a)))) (by
    rw [hprod]
    refine lt_of_le_of_lt (hle.trans hMb) ?_
    norm_num [uintmax]) (rep_mul _ _)
  rw [hprod] at hrd
  have herr := rnd_err _ hb0
  generalize hg' : myround (mul (ofNat (trunc (mypow10 p))) (sub a (ofNat (cast a)))) = f at hrd ⊢
  refine ⟨?_, hc, ?_, ht, ?_, ?_⟩
  · intro hh
    rw [hh] at hcq
    rw [← hcq] at hf
    linarith
  · have : (f : ℤ) ≤ ((10 ^ p : ℕ) : ℤ) := by
      rw [hrd, ← Int.lt_add_one_iff, Int.floor_lt]
      push_cast
      linarith
    exact_mod_cast this
  · have f1 := Int.floor_le (rnd ((10 : ℚ) ^ p * (val a - ⌊val a⌋)) + 1 / 2)
    have f2 := Int.lt_floor_add_one (rnd ((10 : ℚ) ^ p * (val a - ⌊val a⌋)) + 1 / 2)
    have hfq : (f : ℚ) = ⌊rnd ((10 : ℚ) ^ p * (val a - ⌊val a⌋)) + 1 / 2⌋ := by rw [← hrd]; push_cast; rfl
    rw [← hfq] at f1 f2
    have h6 : (10 : ℚ) ^ p * (val a - ⌊val a⌋) / 2 ^ 64 ≤ 10 ^ p / 2 ^ 64 := by
      rw [div_le_div_iff_of_pos_right (by positivity)]; exact hb1
    rw [hcq, abs_le]
    rw [abs_le] at herr
    have h7 : (⌊val a⌋ : ℚ) * 10 ^ p + f - val a * 10 ^ p = f - 10 ^ p * (val a - ⌊val a⌋) := by ring
    rw [h7]
    constructor <;> linarith [herr.1, herr.2]
  · intro hx
    have hxr : Rep (val a * 10 ^ p) := hx
    have h8 : (10 : ℚ) ^ p * (val a - ⌊val a⌋) = val a * 10 ^ p - ((cast a * 10 ^ p : ℕ) : ℚ) := by
      push_cast; rw [hcq]; ring
    have hrep : Rep ((10 : ℚ) ^ p * (val a - ⌊val a⌋)) := by
      rw [h8] at hb0 hb1 ⊢
      refine rep_sub_nat hxr _ (by linarith) (lt_of_le_of_lt (hb1.trans hMb) (by norm_num))
    rw [rnd_rep hrep] at hrd
    have h9 : val a * 10 ^ p + 1 / 2 = (10 ^ p * (val a - ⌊val a⌋) + 1 / 2) + ((⌊val a⌋ * 10 ^ p : ℤ) : ℚ) := by push_cast; ring
    rw [h9, Int.floor_add_intCast, ← hrd, ← hc]
    push_cast
    ring

end Flt
