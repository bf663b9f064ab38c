import Verif.Lemmas.Flt
/-! # Lemmas: powers of ten and the decimal exponent in the arithmetic of `Verif.Model.Flt` -/
namespace Flt

theorem rep_num {a : Num} (h : a.m < 2 ^ 64) : Rep (val a) := ⟨a.m, a.e, h, rfl⟩
theorem rep_mul (a b : Num) : Rep (val (mul a b)) := by rw [val_mul]; exact rep_rnd _
theorem rep_div (a b : Num) (hb : b.m ≠ 0) : Rep (val (div a b)) := by rw [val_div a b hb]; exact rep_rnd _

theorem val_pos {a : Num} (h : a.m ≠ 0) : 0 < val a := by
  have : (0 : ℚ) < a.m := by exact_mod_cast Nat.pos_of_ne_zero h
  unfold val; positivity

/-! ## The loops of `getexponent` are monotone -/

theorem expUp_ge : ∀ (k : Nat) (t : Num) (e : Int), e ≤ expUp k t e := by
  intro k
  induction k with
  | zero => intro t e; exact le_refl _
  | succ k ih =>
    intro t e
    unfold expUp
    split
    · split
      · have := ih (div t (ofNat 10)) (e + 1); omega
      · omega
    · exact le_refl _

theorem expUp_mono : ∀ (k : Nat) (t t' : Num) (e : Int), val t ≤ val t' → expUp k t e ≤ expUp k t' e := by
  intro k
  induction k with
  | zero => intro t t' e _; exact le_refl _
  | succ k ih =>
    intro t t' e h
    by_cases hc : lt t (ofNat 10) = true
    · rw [show expUp (k + 1) t e = e by simp [expUp, hc]]
      exact expUp_ge _ _ _
    · have hc' : ¬ lt t' (ofNat 10) = true := by
        rw [lt_iff] at hc ⊢
        exact fun hh => hc (lt_of_le_of_lt h hh)
      have hc := eq_false_of_ne_true hc
      have hc' := eq_false_of_ne_true hc'
      unfold expUp
      simp only [hc, hc', Bool.not_false, if_true]
      split
      · refine ih _ _ _ ?_
        rw [val_div _ _ (by decide), val_div _ _ (by decide)]
        refine rnd_mono (div_le_div_of_nonneg_right h (val_nonneg _))
      · exact le_refl _

theorem expUp_small (k : Nat) (t : Num) (e : Int) (h : val t < 10) : expUp k t e = e := by
  cases k with
  | zero => rfl
  | succ k =>
    have : lt t (ofNat 10) = true := (lt_iff _ _).2 (by rw [val_ofNat]; exact_mod_cast h)
    simp [expUp, this]

/-- Ten times a number of 64 bits below 1 stays below 10 when rounded. -/
theorem below_ten {x : ℚ} (h : Rep x) (h1 : x < 1) : rnd (x * 10) < 10 := by
  obtain ⟨m, e, hm, rfl⟩ := h
  have hle : (m : ℚ) * 2 ^ e ≤ (2 ^ 64 - 1) / 2 ^ 64 := by
    by_cases he : e ≤ -64
    · have h2 : (2 : ℚ) ^ e ≤ 2 ^ (-64 : ℤ) := zpow_le_zpow_right₀ (by norm_num) he
      have h3 : (m : ℚ) ≤ 2 ^ 64 - 1 := by
        have : m + 1 ≤ 2 ^ 64 := hm
        have : ((m + 1 : ℕ) : ℚ) ≤ (2 ^ 64 : ℕ) := by exact_mod_cast this
        push_cast at this; linarith
      calc (m : ℚ) * 2 ^ e ≤ (2 ^ 64 - 1) * 2 ^ (-64 : ℤ) := mul_le_mul h3 h2 (by positivity) (by norm_num)
        _ = _ := by norm_num
    · by_cases he0 : 0 ≤ e
      · obtain ⟨k, rfl⟩ := Int.eq_ofNat_of_zero_le he0
        rw [zpow_natCast] at h1 ⊢
        have : m * 2 ^ k < 1 := by exact_mod_cast h1
        have : m * 2 ^ k = 0 := by omega
        have : (m : ℚ) * 2 ^ k = 0 := by exact_mod_cast this
        rw [this]; norm_num
      · obtain ⟨k, hk⟩ := Int.eq_ofNat_of_zero_le (show 0 ≤ -e by omega)
        have he : e = -(k : ℤ) := by omega
        subst he
        have hp : (0 : ℚ) < 2 ^ k := by positivity
        rw [zpow_neg, zpow_natCast, ← div_eq_mul_inv] at h1 ⊢
        rw [div_lt_one hp] at h1
        have h4 : m + 1 ≤ 2 ^ k := by exact_mod_cast h1
        have h4 : (m : ℚ) + 1 ≤ 2 ^ k := by exact_mod_cast h4
        have h5 : (2 : ℚ) ^ k ≤ 2 ^ 64 := pow_le_pow_right₀ (by norm_num) (by omega)
        rw [div_le_div_iff₀ hp (by positivity)]
        nlinarith
  have h2 : rnd ((m : ℚ) * 2 ^ e * 10) ≤ rnd (((10 * (2 ^ 64 - 1) : ℕ) : ℚ) / (1 : ℕ) * 2 ^ (-64 : ℤ)) := by
    refine rnd_mono ?_
    have : (((10 * (2 ^ 64 - 1) : ℕ) : ℚ) / (1 : ℕ) * 2 ^ (-64 : ℤ)) = (2 ^ 64 - 1) / 2 ^ 64 * 10 := by norm_num
    rw [this]
    linarith
  refine lt_of_le_of_lt h2 ?_
  rw [← val_round _ _ (by norm_num)]
  have : lt (round (10 * (2 ^ 64 - 1)) 1 (-64)) (ofNat 10) = true := by decide +kernel
  have := (lt_iff _ _).1 this
  rw [val_ofNat] at this
  exact_mod_cast this

theorem expDown_le : ∀ (k : Nat) (t : Num) (e : Int), (expDown k t e).2 ≤ e := by
  intro k
  induction k with
  | zero => intro t e; exact le_refl _
  | succ k ih =>
    intro t e
    rw [expDown]
    split
    · split
      · have := ih (mul t (ofNat 10)) (e - 1); omega
      · show e - 1 ≤ e; omega
    · exact le_refl _

theorem expDown_mono : ∀ (k : Nat) (t t' : Num) (e : Int), 0 < val t → val t ≤ val t' → Rep (val t) →
    (expDown k t e).2 ≤ (expDown k t' e).2 ∧ ((expDown k t e).2 = (expDown k t' e).2 → val (expDown k t e).1 ≤ val (expDown k t' e).1) ∧
    ((expDown k t e).2 < e → val (expDown k t e).1 < 10) ∧ (expDown k t e).2 ≤ e := by
  intro k
  induction k with
  | zero => intro t t' e _ h _; exact ⟨le_refl _, fun _ => h, fun h => absurd h (lt_irrefl _), le_refl _⟩
  | succ k ih =>
    intro t t' e h0 h hr
    have z : val (ofNat 0) = 0 := val_ofNat 0
    have p1 : lt (ofNat 0) t = true := (lt_iff _ _).2 (by rw [z]; exact h0)
    have p2 : lt (ofNat 0) t' = true := (lt_iff _ _).2 (by rw [z]; exact h0.trans_le h)
    have hmul : val (mul t (ofNat 10)) ≤ val (mul t' (ofNat 10)) := by
      rw [val_mul, val_mul]; exact rnd_mono (mul_le_mul_of_nonneg_right h (val_nonneg _))
    have hpos : 0 < val (mul t (ofNat 10)) := by rw [val_mul]; exact rnd_pos (mul_pos h0 (val_pos (by decide)))
    have hrep := rep_mul t (ofNat 10)
    by_cases h1 : val t < 1
    · have q1 : lt t (ofNat 1) = true := (lt_iff _ _).2 (by rw [val_ofNat]; exact_mod_cast h1)
      have h10 : val (mul t (ofNat 10)) < 10 := by
        rw [val_mul, val_ofNat]; exact_mod_cast below_ten hr h1
      have hd : expDown (k + 1) t e = if e - 1 > -99 then expDown k (mul t (ofNat 10)) (e - 1) else (t, e - 1) := by
        rw [expDown, if_pos ⟨q1, p1⟩]
      have key : ∀ u, val (mul t (ofNat 10)) ≤ val u → (expDown (k + 1) t e).2 < e ∧ val (expDown (k + 1) t e).1 < 10 := by
        intro u hu
        rw [hd]
        split
        · obtain ⟨_, _, a3, a4⟩ := ih _ u (e - 1) hpos hu hrep
          refine ⟨by omega, ?_⟩
          rcases lt_or_eq_of_le a4 with h' | h'
          · exact a3 h'
          · cases k with
            | zero => exact h10
            | succ k =>
              by_cases hc : lt (mul t (ofNat 10)) (ofNat 1) = true ∧ lt (ofNat 0) (mul t (ofNat 10)) = true
              · exact absurd h' (by
                  have : (expDown (k + 1) (mul t (ofNat 10)) (e - 1)).2 < e - 1 := by
                    rw [expDown, if_pos hc]
                    split
                    · have := expDown_le k (mul (mul t (ofNat 10)) (ofNat 10)) (e - 1 - 1); omega
                    · show e - 1 - 1 < e - 1; omega
                  omega)
              · rw [expDown, if_neg hc]; exact h10
        · exact ⟨by show e - 1 < e; omega, by show val t < 10; linarith⟩
      obtain ⟨k1, k2⟩ := key _ hmul
      by_cases h1' : val t' < 1
      · have q2 : lt t' (ofNat 1) = true := (lt_iff _ _).2 (by rw [val_ofNat]; exact_mod_cast h1')
        have hd' : expDown (k + 1) t' e = if e - 1 > -99 then expDown k (mul t' (ofNat 10)) (e - 1) else (t', e - 1) := by
          rw [expDown, if_pos ⟨q2, p2⟩]
        refine ⟨?_, ?_, fun _ => k2, k1.le⟩
        · rw [hd, hd']; split
          · exact (ih _ _ (e - 1) hpos hmul hrep).1
          · exact le_refl _
        · rw [hd, hd']; split
          · exact (ih _ _ (e - 1) hpos hmul hrep).2.1
          · exact fun _ => h
      · have q2 : ¬(lt t' (ofNat 1) = true ∧ lt (ofNat 0) t' = true) := fun hh => h1' (by have := (lt_iff _ _).1 hh.1; rw [val_ofNat] at this; exact_mod_cast this)
        have hd' : expDown (k + 1) t' e = (t', e) := by rw [expDown, if_neg q2]
        rw [hd']
        exact ⟨k1.le, fun hh => absurd hh (by show _ ≠ e; omega), fun _ => k2, k1.le⟩
    · have q1 : ¬(lt t (ofNat 1) = true ∧ lt (ofNat 0) t = true) := fun hh => h1 (by have := (lt_iff _ _).1 hh.1; rw [val_ofNat] at this; exact_mod_cast this)
      have q2 : ¬(lt t' (ofNat 1) = true ∧ lt (ofNat 0) t' = true) := fun hh => h1 (by have := (lt_iff _ _).1 hh.1; rw [val_ofNat] at this; exact lt_of_le_of_lt h (by exact_mod_cast this))
      rw [expDown, if_neg q1, expDown, if_neg q2]
      exact ⟨le_refl _, fun _ => h, fun h => absurd h (lt_irrefl _), le_refl _⟩

theorem getexponent_mono {a b : Num} (h0 : 0 < val a) (hr : Rep (val a)) (h : val a ≤ val b) : getexponent a ≤ getexponent b := by
  unfold getexponent
  dsimp only
  obtain ⟨h1, h2, h3, h4⟩ := expDown_mono 99 a b 0 h0 h hr
  rcases lt_or_eq_of_le h1 with hl | he
  · have hb := expDown_le 99 b 0
    rw [expUp_small 198 _ _ (h3 (by omega))]
    exact hl.le.trans (expUp_ge _ _ _)
  · rw [he]
    exact expUp_mono _ _ _ _ (h2 he)

/-! ## The table of the powers of ten -/

/-- 10^j as a fraction. -/
def tenFrac (j : Int) : Nat × Nat := if 0 ≤ j then (10 ^ j.toNat, 1) else (1, 10 ^ (-j).toNat)

theorem tenFrac_pos (j : Int) : 0 < (tenFrac j).1 ∧ 0 < (tenFrac j).2 := by
  unfold tenFrac; split
  · exact ⟨by positivity, by norm_num⟩
  · exact ⟨by norm_num, by positivity⟩

theorem tenFrac_val (j : Int) : ((tenFrac j).1 : ℚ) / (tenFrac j).2 = 10 ^ j := by
  unfold tenFrac
  split
  · rename_i h
    obtain ⟨k, rfl⟩ := Int.eq_ofNat_of_zero_le h
    simp
  · rename_i h
    obtain ⟨k, hk⟩ := Int.eq_ofNat_of_zero_le (show 0 ≤ -j by omega)
    rw [show j = -(k : ℤ) by omega, neg_neg, Int.toNat_natCast, zpow_neg, zpow_natCast]
    push_cast
    rw [one_div]

/-- The shift that makes 10^j more than 2^52 and at most 2^53. -/
def tenShift (j : Int) : Int := scale (tenFrac j).1 (tenFrac j).2 - 11 + if j = 0 then 1 else 0
/-- 10^j so shifted. -/
def tenScaled (j : Int) : Nat × Nat := shifted (tenFrac j).1 (tenFrac j).2 (tenShift j)
/-- The least number of 53 bits that is not less than 10^j. -/
def tenAbove (j : Int) : Num := ⟨((tenScaled j).1 + (tenScaled j).2 - 1) / (tenScaled j).2, -tenShift j⟩
/-- The greatest below 10^j. -/
def tenBelow (j : Int) : Num := ⟨(tenAbove j).m - 1, (tenAbove j).e⟩

def neighbours (j : Int) : Bool :=
  decide (2 ^ 52 < (tenAbove j).m) && decide ((tenAbove j).m < 2 ^ 64) && decide (((tenAbove j).m - 1) * (tenScaled j).2 < (tenScaled j).1) && decide ((tenScaled j).1 ≤ (tenAbove j).m * (tenScaled j).2)

/-- What is to be known about 10^j as the lower end of a decade. -/
def lowerOk (j : Int) : Bool := neighbours j && decide (getexponent (tenAbove j) = j) && !lt (div (tenAbove j) (mypow10 j)) (ofNat 1)
/-- As the upper end. -/
def upperOk (j : Int) : Bool := neighbours j && decide (getexponent (tenBelow j) = j - 1) && lt (div (tenBelow j) (mypow10 (j - 1))) (ofNat 10)
/-- The computed power of ten is within `|j|` parts in 2^64. -/
def powOk (j : Int) : Bool :=
  let p := shifted (mypow10 j).m 1 (mypow10 j).e
  let t := tenFrac j
  decide (2 ^ 64 * (p.1 * t.2) ≤ (2 ^ 64 + j.natAbs) * (t.1 * p.2)) && decide ((2 ^ 64 - j.natAbs) * (t.1 * p.2) ≤ 2 ^ 64 * (p.1 * t.2))

theorem lower_table : ∀ k < 199, lowerOk ((k : Nat) - 99 : Int) = true := by decide +kernel
theorem upper_table : ∀ k < 199, upperOk ((k : Nat) - 98 : Int) = true := by decide +kernel
theorem pow_table : ∀ k < 199, powOk ((k : Nat) - 99 : Int) = true := by decide +kernel
theorem trunc_table : ∀ p < 20, trunc (mypow10 (p : Nat)) = 10 ^ p := by decide +kernel

end Flt
