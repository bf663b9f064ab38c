import Verif.Lemmas.FltDec
import Verif.Lemmas.Snprintf
import Verif.Spec.SnprintfFlt
/-! # Lemmas: the floating-point conversions -/
namespace Snprintf
open Spec (fixed scientific fltField decimals strip mag)

/-! ## Digits -/

/-- The last `p` digits, lowest first. -/
def lowDigits : Nat → Nat → Bytes
  | 0, _ => []
  | p + 1, n => UInt8.ofNat (48 + n % 10) :: lowDigits p (n / 10)

theorem decimals_succ (p n : Nat) : decimals (p + 1) n = decimals p (n / 10) ++ [UInt8.ofNat (48 + n % 10)] := by
  unfold decimals
  rw [List.range_succ, List.map_append]
  congr 1
  · refine List.map_congr_left fun i hi => ?_
    have hi : i < p := List.mem_range.1 hi
    rw [show p + 1 - 1 - i = (p - 1 - i) + 1 by omega, Nat.pow_succ', ← Nat.div_div_eq_div_mul]
  · simp

theorem decimals_reverse : ∀ p n, (decimals p n).reverse = lowDigits p n := by
  intro p
  induction p with
  | zero => intro n; rfl
  | succ p ih => intro n; rw [decimals_succ, List.reverse_append, ih]; rfl

theorem lowDigits_mod : ∀ p n k, lowDigits p (k * 10 ^ p + n) = lowDigits p n := by
  intro p
  induction p with
  | zero => intro n k; rfl
  | succ p ih =>
    intro n k
    simp only [lowDigits]
    have e : k * 10 ^ (p + 1) = 10 * (k * 10 ^ p) := by rw [Nat.pow_succ]; ring
    rw [e, Nat.mul_add_mod, show (10 * (k * 10 ^ p) + n) / 10 = k * 10 ^ p + n / 10 by omega, ih]

theorem lowDigits_zero : ∀ p, lowDigits p 0 = List.replicate p 48 := by
  intro p
  induction p with
  | zero => rfl
  | succ p ih => simp only [lowDigits, Nat.zero_div, ih, List.replicate_succ]; rfl

theorem digit_small (d : Nat) (h : d < 10) : digit false d = UInt8.ofNat (48 + d) := by unfold digit; rw [if_pos h]

theorem lowDigits_convert : ∀ p k v, v ≠ 0 → v < 10 ^ p → p ≤ k → lowDigits p v = convert 10 false k v ++ List.replicate (p - (convert 10 false k v).length) 48 := by
  intro p
  induction p with
  | zero => intro k v h0 h; simp at h; omega
  | succ p ih =>
    intro k v h0 h hk
    obtain ⟨k, rfl⟩ : ∃ k', k = k' + 1 := ⟨k - 1, by omega⟩
    rw [convert, lowDigits, digit_small _ (Nat.mod_lt _ (by norm_num))]
    by_cases hv : v / 10 = 0
    · rw [if_neg (by simp [hv]), hv, lowDigits_zero]; simp
    · rw [if_pos hv, ih k (v / 10) hv (by rw [Nat.pow_succ] at h; omega) (by omega)]
      simp

theorem convert_nonzero : ∀ k v, v ≠ 0 → v < 10 ^ k → ∃ c ∈ convert 10 false k v, c ≠ 48 := by
  intro k
  induction k with
  | zero => intro v h0 h; simp at h; omega
  | succ k ih =>
    intro v h0 h
    rw [convert]
    by_cases hv : v / 10 = 0
    · refine ⟨_, .head _, ?_⟩
      exact digit_ne_48 false _ (by omega) (by omega)
    · rw [if_pos hv]
      obtain ⟨c, h1, h2⟩ := ih (v / 10) hv (by rw [Nat.pow_succ] at h; omega)
      exact ⟨c, .tail _ h1, h2⟩

theorem dropWhile_append_of_exists {α : Type} (q : α → Bool) : ∀ (l r : List α), (∃ c ∈ l, q c = false) → (l ++ r).dropWhile q = l.dropWhile q ++ r := by
  intro l
  induction l with
  | nil => intro r h; obtain ⟨c, h, _⟩ := h; cases h
  | cons a l ih =>
    intro r h
    rw [List.cons_append, List.dropWhile_cons, List.dropWhile_cons]
    by_cases ha : q a = true
    · rw [if_pos ha, if_pos ha]
      refine ih r ?_
      obtain ⟨c, hc, hq⟩ := h
      rcases List.mem_cons.1 hc with rfl | hc
      · rw [ha] at hq; cases hq
      · exact ⟨c, hc, hq⟩
    · rw [if_neg ha, if_neg ha]; rfl

theorem drop_takeWhile {α : Type} (q : α → Bool) : ∀ l : List α, l.drop (l.takeWhile q).length = l.dropWhile q := by
  intro l
  induction l with
  | nil => rfl
  | cons a l ih =>
    rw [List.takeWhile_cons, List.dropWhile_cons]
    split
    · simpa using ih
    · rfl

theorem backLoop_eq {size : Nat} (cs : Bytes) (stop : Nat) : ∀ (pos : Nat) (o : Out), size ≤ o.buf.length → pos ≤ cs.length →
    backLoop size cs stop pos o = some (emit size o ((cs.take pos).drop stop).reverse) := by
  intro pos
  induction pos with
  | zero => intro o _ _; simp [backLoop]
  | succ pos ih =>
    intro o ho hp
    rw [backLoop]
    by_cases h : pos + 1 > stop
    · rw [if_pos h, CMem.read, List.getElem?_eq_getElem (by omega), Option.bind_some, outchar_eq ho, Option.bind_some, ih _ (by simpa using ho) (by omega), ← emit_append]
      have ht : cs.take (pos + 1) = cs.take pos ++ [cs[pos]] := by rw [List.take_append_getElem]
      rw [ht, List.drop_append_of_le_length (by rw [List.length_take]; omega), List.reverse_append]
      rfl
    · rw [if_neg h, List.drop_eq_nil_of_le (by rw [List.length_take]; omega)]
      simp

theorem econvert_table : ∀ n < 100, ((if (convert 10 false 2 n).length = 1 then convert 10 false 2 n ++ [48] else convert 10 false 2 n)).reverse = Spec.zeroPad 2 (Spec.numeral 10 n) := by
  decide +kernel

theorem econvert_reverse {E : Int} (h : E.natAbs < 100) (up : Bool) :
    (econvert E up).reverse = [if up then 69 else 101, if E < 0 then 45 else 43] ++ Spec.zeroPad 2 (Spec.numeral 10 E.natAbs) := by
  unfold econvert
  simp only [List.reverse_append, econvert_table _ h]
  rfl

/-- The digits after the point, as `fltOut` puts them out. -/
theorem frac_digits {ip fp p : Nat} (hp : p ≤ 19) (hfp : fp < 10 ^ p) (st : Bool) :
    let fc := if fp ≠ 0 then convert 10 false 43 fp else []
    let omitcount : Int := if st then (if fc.length > 0 then ((fc.takeWhile (· == 48)).length : Int) else (p : Int)) else 0
    let lead : Int := if st && fc.length == 0 then 0 else (p : Int) - fc.length
    let ds := if st then strip (decimals p (ip * 10 ^ p + fp)) else decimals p (ip * 10 ^ p + fp)
    List.replicate lead.toNat 48 ++ ((fc.take fc.length).drop omitcount.toNat).reverse = ds ∧ (ds.length : Int) = p - omitcount := by
  intro fc omitcount lead ds
  have hlen : (decimals p (ip * 10 ^ p + fp)).length = p := by simp [decimals]
  have hrev : (decimals p (ip * 10 ^ p + fp)).reverse = fc ++ List.replicate (p - fc.length) 48 := by
    rw [decimals_reverse, lowDigits_mod]
    by_cases h0 : fp = 0
    · simp [fc, h0, lowDigits_zero]
    · simp only [fc, if_pos h0]
      exact lowDigits_convert p 43 fp h0 hfp (by omega)
  have hfl : fc.length ≤ p := by
    have := congrArg List.length hrev
    rw [List.length_reverse, hlen, List.length_append, List.length_replicate] at this
    omega
  have hdec : decimals p (ip * 10 ^ p + fp) = List.replicate (p - fc.length) 48 ++ fc.reverse := by
    rw [← List.reverse_reverse (decimals p (ip * 10 ^ p + fp)), hrev]; simp
  rw [List.take_length]
  cases st with
  | false =>
    have e1 : ds = decimals p (ip * 10 ^ p + fp) := rfl
    have e2 : lead = (p : Int) - fc.length := rfl
    have e3 : omitcount = 0 := rfl
    rw [e1, e2, e3, hdec]
    refine ⟨?_, by simp; omega⟩
    rw [show ((p : Int) - fc.length).toNat = p - fc.length by omega]; rfl
  | true =>
    have e1 : ds = strip (decimals p (ip * 10 ^ p + fp)) := rfl
    by_cases h0 : fp = 0
    · have hfc : fc = [] := by simp [fc, h0]
      have e2 : lead = 0 := by simp [lead, hfc]
      have e3 : omitcount = p := by simp [omitcount, hfc]
      have e4 : strip (decimals p (ip * 10 ^ p + fp)) = [] := by
        unfold strip
        rw [hrev, hfc]
        simp
      rw [e1, e2, e3, e4, hfc]
      simp
    · have hfc : fc = convert 10 false 43 fp := by simp only [fc, if_pos h0]
      have hpos : fc.length > 0 := by rw [hfc]; exact convert_length_pos _ _ _ _
      have e2 : lead = (p : Int) - fc.length := by
        show (if (true && fc.length == 0) = true then (0 : Int) else _) = _
        rw [if_neg]; simp; intro hh; rw [hh] at hpos; simp at hpos
      have e3 : omitcount = ((fc.takeWhile (· == 48)).length : Int) := by
        show (if true = true then (if fc.length > 0 then _ else _) else _) = _
        rw [if_pos rfl, if_pos hpos]
      have e4 : strip (decimals p (ip * 10 ^ p + fp)) = List.replicate (p - fc.length) 48 ++ (fc.dropWhile (· == 48)).reverse := by
        unfold strip
        rw [hrev, dropWhile_append_of_exists]
        · simp
        · obtain ⟨c, h1, h2⟩ := convert_nonzero 43 fp h0 (hfp.trans_le (Nat.pow_le_pow_right (by norm_num) (by omega)))
          exact ⟨c, by rw [hfc]; exact h1, by simpa using h2⟩
      rw [e1, e2, e3, e4, Int.toNat_natCast, drop_takeWhile, show ((p : Int) - fc.length).toNat = p - fc.length by omega]
      refine ⟨rfl, ?_⟩
      have := congrArg List.length (List.takeWhile_append_dropWhile (p := (· == 48)) (l := fc))
      rw [List.length_append] at this
      simp only [List.length_append, List.length_replicate, List.length_reverse]
      omega

/-- `fltOut` in a locale without a thousands separator. -/
theorem fltOut_text {size : Nat} {o : Out} (ho : size ≤ o.buf.length) {ip fp p w : Nat} (hp : p ≤ 19) (hfp : fp < 10 ^ p) (hip : ip < 10 ^ 43) (hw : w ≤ 2147483647)
    {es : Bool} {E : Int} (hE : es = true → E.natAbs < 100) {sg : UInt8} {fl : Flags} :
    fltOut [] size o ⟨p, es, E, ip, fp⟩ sg w fl = some (emit size o (fltField fl.minus fl.zero w (if sg ≠ 0 then [sg] else [])
      (if es then scientific (ip * 10 ^ p + fp) p E fl.up fl.num (fl.typeG && !fl.num) else fixed (ip * 10 ^ p + fp) p fl.num (fl.typeG && !fl.num)))) := by
  obtain ⟨hd1, hd2⟩ := frac_digits (ip := ip) hp hfp (fl.typeG && !fl.num)
  have hic : (convert 10 false 43 ip).reverse = Spec.numeral 10 ip := convert_reverse false (by norm_num) (by norm_num) 43 ip hip (by norm_num)
  have hicl := convert_length_le 10 false 43 ip
  have hdiv : (ip * 10 ^ p + fp) / 10 ^ p = ip := by
    rw [Nat.add_comm, Nat.add_mul_div_right _ _ (by positivity), Nat.div_eq_of_lt hfp, Nat.zero_add]
  unfold fltOut
  dsimp only at hd1 hd2 ⊢
  generalize hfc : (if fp ≠ 0 then convert 10 false 43 fp else []) = fc at hd1 hd2 ⊢
  generalize hom : (if (fl.typeG && !fl.num) = true then (if fc.length > 0 then ((fc.takeWhile (· == 48)).length : Int) else (p : Int)) else 0) = om at hd1 hd2 ⊢
  generalize hle : (if (fl.typeG && !fl.num && fc.length == 0) = true then (0 : Int) else (p : Int) - fc.length) = ld at hd1 ⊢
  generalize hds : (if (fl.typeG && !fl.num) = true then strip (decimals p (ip * 10 ^ p + fp)) else decimals p (ip * 10 ^ p + fp)) = ds at hd1 hd2 ⊢
  generalize hec : (if es = true then econvert E fl.up else []) = ec
  have hecl : ec.length ≤ 5 := by
    rw [← hec]; split
    · unfold econvert
      have := convert_length_le 10 false 2 E.natAbs
      dsimp only
      split <;> simp <;> omega
    · simp
  have hdsl : ds.length ≤ 19 := by
    have : (decimals p (ip * 10 ^ p + fp)).length = p := by simp [decimals]
    rw [← hds]; split
    · unfold strip
      have h1 := (List.dropWhile_suffix (l := (decimals p (ip * 10 ^ p + fp)).reverse) (fun x : UInt8 => x == 48)).length_le
      rw [List.length_reverse] at h1 ⊢; omega
    · omega
  have hsep : (if fl.quote = true then getnumsep [] (convert 10 false 43 ip).length else 0) = 0 := by split <;> simp [getnumsep]
  rw [hsep]
  have hpt : (decide ((p : Int) - om > 0) || fl.num) = decide (ds ≠ [] ∨ fl.num = true) := by
    rw [← hd2]
    have : decide ((ds.length : Int) > 0) = decide (ds ≠ []) := by cases ds <;> simp
    rw [this, Bool.decide_or]; simp
  rw [hpt, ← hd2]
  -- the body
  have hbody : (if es = true then scientific (ip * 10 ^ p + fp) p E fl.up fl.num (fl.typeG && !fl.num) else fixed (ip * 10 ^ p + fp) p fl.num (fl.typeG && !fl.num)) =
      (convert 10 false 43 ip).reverse ++ ((if ds ≠ [] ∨ fl.num = true then [46] else []) ++ (ds ++ ec.reverse)) := by
    have hfix : fixed (ip * 10 ^ p + fp) p fl.num (fl.typeG && !fl.num) = (convert 10 false 43 ip).reverse ++ ((if ds ≠ [] ∨ fl.num = true then [46] else []) ++ ds) := by
      unfold fixed
      dsimp only
      rw [hdiv, hds, hic]
      congr 1
      split
      · rfl
      · rename_i h; simp at h; rw [h.1]; rfl
    rw [← hec]
    split
    · rename_i h
      unfold scientific
      rw [hfix, econvert_reverse (hE h)]
      simp only [List.append_assoc]
    · rw [hfix]; simp
  rw [hbody]
  generalize hB : (convert 10 false 43 ip).reverse ++ ((if ds ≠ [] ∨ fl.num = true then [46] else []) ++ (ds ++ ec.reverse)) = B
  have hBl : (B.length : Int) = (convert 10 false 43 ip).length + ec.length + ds.length + (if decide (ds ≠ [] ∨ fl.num = true) = true then 1 else 0) := by
    rw [← hB]
    by_cases h : ds ≠ [] ∨ fl.num = true
    · simp only [List.length_append, List.length_reverse, if_pos h, decide_eq_true h, if_true, List.length_singleton]; push_cast; ring
    · simp only [List.length_append, List.length_reverse, if_neg h, decide_eq_false h, Bool.false_eq_true, if_false, List.length_nil]; push_cast; ring
  generalize hS : (if sg ≠ 0 then [sg] else []) = S
  have hSl : (S.length : Int) = if sg ≠ 0 then 1 else 0 := by rw [← hS]; split <;> rfl
  have hdist : (w : Int) - (convert 10 false 43 ip).length - ec.length - ds.length - ((0 : Nat) : Int) - (if decide (ds ≠ [] ∨ fl.num = true) = true then 1 else 0) - (if sg ≠ 0 then 1 else 0) =
      w - (S.length + B.length) := by rw [hSl, hBl]; push_cast; ring
  have hsmall : S.length + B.length ≤ 100 := by
    have : S.length ≤ 1 := by rw [← hS]; split <;> simp
    have : (B.length : Int) ≤ 99 := by rw [hBl]; split <;> omega
    omega
  rw [hdist, int32, if_pos (by omega), Option.bind_some]
  have hpad : (if (w : Int) - (S.length + B.length) < 0 then 0 else (w : Int) - (S.length + B.length)).toNat = w - (S.length + B.length) := by split <;> omega
  simp only [hpad]
  generalize hpl : w - (S.length + B.length) = pad
  -- putting out
  have hsign : ∀ (c : Prop) [Decidable c] (o' : Out), size ≤ o'.buf.length → (if c ∧ sg ≠ 0 then outchar size o' sg else some o') = some (emit size o' (if c then S else [])) := by
    intro c _ o' ho'
    by_cases hc : c
    · by_cases hs : sg ≠ 0
      · rw [if_pos ⟨hc, hs⟩, if_pos hc, outchar_eq ho', ← hS, if_pos hs]
      · rw [if_neg (fun h => hs h.2), if_pos hc, ← hS, if_neg hs]; simp
    · rw [if_neg (fun h => hc h.1), if_neg hc]; simp
  have hpoint : ∀ o' : Out, size ≤ o'.buf.length → (if decide (ds ≠ [] ∨ fl.num = true) = true then outchar size o' 46 else some o') =
      some (emit size o' (if ds ≠ [] ∨ fl.num = true then [46] else [])) := by
    intro o' ho'
    by_cases h : ds ≠ [] ∨ fl.num = true
    · rw [if_pos (decide_eq_true h), if_pos h, outchar_eq ho']
    · rw [if_neg (by simpa using h), if_neg h]; simp
  rw [hsign _ _ ho, Option.bind_some, outRepeat_eq _ _ _ (by simpa using ho), Option.bind_some, outRepeat_eq _ _ _ (by simpa using ho), Option.bind_some,
    hsign _ _ (by simpa using ho), Option.bind_some, digitsLoop_eq _ _ _ (by simpa using ho) (Nat.le_refl _), Option.bind_some,
    hpoint _ (by simpa using ho), Option.bind_some, outRepeat_eq _ _ _ (by simpa using ho), Option.bind_some,
    backLoop_eq _ _ _ _ (by simpa using ho) (Nat.le_refl _), Option.bind_some, backLoop_eq _ _ _ _ (by simpa using ho) (Nat.le_refl _), Option.bind_some,
    outRepeat_eq _ _ _ (by simpa using ho), List.take_length, List.drop_zero, List.take_length]
  simp only [← emit_append, List.append_assoc]
  congr 2
  rw [List.take_length] at hd1
  have hmid : ∀ T : Bytes, (convert 10 false 43 ip).reverse ++ ((if ds ≠ [] ∨ fl.num = true then [46] else []) ++
      (List.replicate ld.toNat 48 ++ ((fc.drop om.toNat).reverse ++ (ec.reverse ++ T)))) = B ++ T := by
    intro T
    rw [← hB, ← hd1]
    simp only [List.append_assoc]
  simp only [List.take_length]
  rw [hmid]
  unfold fltField Spec.inField Spec.zeroPad
  rw [List.length_append]
  cases hm : fl.minus <;> cases hz : fl.zero
  · simp [hpl]
  · simp only [Bool.not_false, Bool.true_and, Bool.false_eq_true, if_false, if_true, and_self, List.replicate_zero, List.append_nil, List.nil_append,
      show w - S.length - B.length = pad by omega]
    by_cases h0 : pad = 0
    · subst h0; simp
    · rw [if_pos (by omega), if_neg h0]; simp
  · simp [hpl]
  · simp [hpl]

/-! ## The digits computed -/

theorem cap19_eq {p : Int} (h : p ≤ 19) : cap19 p = p := by unfold cap19; rw [if_neg (by omega)]

theorem fixedOk_of_split {a : Flt.Num} {p f : Nat}
    (h1 : |(Flt.cast a : ℚ) * 10 ^ p + f - Flt.val a * 10 ^ p| ≤ 1 / 2 + 10 ^ p / 2 ^ 64)
    (h2 : (∃ (m : ℕ) (e : ℤ), m < 2 ^ 64 ∧ Flt.val a * 10 ^ p = m * 2 ^ e) → ((Flt.cast a * 10 ^ p + f : ℕ) : ℤ) = ⌊Flt.val a * 10 ^ p + 1 / 2⌋) :
    Spec.FixedOk (mag a) p (Flt.cast a * 10 ^ p + f) := by
  refine ⟨?_, h2⟩
  push_cast
  exact h1

theorem fltParts_fixed {v : Flt.Num} (hv : v.m < 2 ^ 64) (hx : mag v < 2 ^ 64 - 1) {p : Nat} (hp : p ≤ 19) (E : Int) :
    ∃ ip fp, fltParts v p false E = some (ip, fp, E) ∧ fp < 10 ^ p ∧ ip < 10 ^ 43 ∧ Spec.FixedOk (mag v) p (ip * 10 ^ p + fp) := by
  have hu : Flt.val v < Flt.uintmax := by
    have : ((Flt.uintmax : ℕ) : ℚ) = 2 ^ 64 - 1 := by norm_num [Flt.uintmax]
    rw [this]; exact hx
  obtain ⟨h1, h2, h3, h4, h5, h6⟩ := Flt.split_spec (Flt.rep_num hv) hu (show p < 20 by omega)
  have hlt : Flt.cast v < Flt.uintmax := by
    have : ((Flt.cast v : ℕ) : ℤ) < (Flt.uintmax : ℕ) := by rw [h2, Int.floor_lt]; exact_mod_cast hu
    exact_mod_cast this
  have hb : Flt.uintmax < 10 ^ 43 := by norm_num [Flt.uintmax]
  unfold fltParts
  simp only [Bool.false_eq_true, if_false, Bool.false_and, if_neg h1]
  have hk := fixedOk_of_split h5 h6
  generalize Flt.myround (Flt.mul (Flt.ofNat (Flt.trunc (Flt.mypow10 (p : Int)))) (Flt.sub v (Flt.ofNat (Flt.cast v)))) = f at h3 hk ⊢
  rw [h4]
  by_cases hf : f ≥ 10 ^ p
  · rw [if_pos hf]
    refine ⟨_, _, rfl, by positivity, by omega, ?_⟩
    have : (Flt.cast v + 1) * 10 ^ p + 0 = Flt.cast v * 10 ^ p + f := by
      have : f = 10 ^ p := by omega
      rw [this]; ring
    rw [this]; exact hk
  · rw [if_neg hf]
    exact ⟨_, _, rfl, by omega, by omega, hk⟩

theorem fltParts_sci {v : Flt.Num} (hv : v.m < 2 ^ 53) {p : Nat} (hp : p ≤ 19) (h : mag v = 0 ∨ (10 : ℚ) ^ (-99 : ℤ) ≤ mag v ∧ mag v < 9 * 10 ^ 99) :
    ∃ ip fp E, fltParts v p true (Flt.getexponent v) = some (ip, fp, E) ∧ fp < 10 ^ p ∧ ip < 10 ∧ E.natAbs < 100 ∧ Spec.SciOk (mag v) p (ip * 10 ^ p + fp) E ∧
      (1 ≤ mag v → 0 ≤ E) ∧ mag v < 10 ^ (E + 1) := by
  rcases h with h0 | ⟨hlo, hhi⟩
  · have hv0 : Flt.val v = 0 := h0
    have hge : Flt.getexponent v = 0 := by
      unfold Flt.getexponent
      have hd : Flt.expDown 99 v 0 = (v, 0) := by
        rw [Flt.expDown, if_neg]
        rintro ⟨-, hh⟩
        have := (Flt.lt_iff _ _).1 hh
        rw [Flt.val_ofNat, hv0] at this
        exact absurd this (by norm_num)
      rw [hd]
      exact Flt.expUp_small _ _ _ (by rw [hv0]; norm_num)
    have hm0 : (Flt.mypow10 0).m ≠ 0 := by decide
    have hy : Flt.val (Flt.div v (Flt.mypow10 0)) = 0 := by rw [Flt.val_div _ _ hm0, hv0, zero_div, Flt.rnd_zero]
    obtain ⟨h1, h2, h3, h4, h5, h6⟩ := Flt.split_spec (Flt.rep_div v _ hm0) (by rw [hy]; norm_num [Flt.uintmax]) (show p < 20 by omega)
    have h6 := h6 ⟨0, 0, by norm_num, by rw [hy]; simp⟩
    rw [hy] at h2 h6
    have hc : Flt.cast (Flt.div v (Flt.mypow10 0)) = 0 := by simpa using h2
    rw [hge]
    unfold fltParts
    simp only [if_true, if_neg h1]
    generalize Flt.myround (Flt.mul (Flt.ofNat (Flt.trunc (Flt.mypow10 (p : Int)))) (Flt.sub (Flt.div v (Flt.mypow10 0)) (Flt.ofNat (Flt.cast (Flt.div v (Flt.mypow10 0)))))) = f at h3 h6 ⊢
    rw [hc] at h6 ⊢
    have hf : f = 0 := by
      rw [show (0 : ℚ) * 10 ^ p + 1 / 2 = 1 / 2 by ring, show ⌊(1 / 2 : ℚ)⌋ = 0 by norm_num] at h6
      simpa using h6
    subst hf
    have hp0 : 0 < 10 ^ p := by positivity
    rw [if_neg (by rw [h4]; omega)]
    refine ⟨0, 0, 0, rfl, hp0, by norm_num, by norm_num, .inl ⟨h0, by simp, rfl⟩, by rw [h0]; norm_num, by rw [h0]; norm_num⟩
  · have hX : 0 < mag v := lt_of_lt_of_le (by positivity) hlo
    obtain ⟨j, hj⟩ : ∃ j, j = Int.log 10 (mag v) := ⟨_, rfl⟩
    have hj1 : (10 : ℚ) ^ j ≤ mag v := by rw [hj]; exact_mod_cast Int.zpow_log_le_self (b := 10) (by norm_num) hX
    have hj2 : mag v < (10 : ℚ) ^ (j + 1) := by rw [hj]; exact_mod_cast Int.lt_zpow_succ_log_self (b := 10) (by norm_num) (mag v)
    have hb1 : -99 ≤ j := by
      have := (zpow_lt_zpow_iff_right₀ (by norm_num : (1 : ℚ) < 10)).1 (lt_of_le_of_lt hlo hj2)
      omega
    have hb2 : j ≤ 99 := by
      have : (10 : ℚ) ^ j < 10 ^ (100 : ℤ) := lt_of_le_of_lt hj1 (hhi.trans (by norm_num))
      have := (zpow_lt_zpow_iff_right₀ (by norm_num : (1 : ℚ) < 10)).1 this
      omega
    obtain ⟨e1, e2, e3, e4⟩ := Flt.exponent_spec hv hb1 hb2 hj1 hj2
    have e5 := Flt.scaled_close hb1 hb2 hX hj2 e4
    obtain ⟨h1, h2, h3, h4, h5, -⟩ := Flt.split_spec (Flt.rep_div v _ e4) (lt_trans e3 (by norm_num [Flt.uintmax])) (show p < 20 by omega)
    rw [e1]
    unfold fltParts
    simp only [if_true, if_neg h1]
    generalize Flt.myround (Flt.mul (Flt.ofNat (Flt.trunc (Flt.mypow10 (p : Int)))) (Flt.sub (Flt.div v (Flt.mypow10 j)) (Flt.ofNat (Flt.cast (Flt.div v (Flt.mypow10 j)))))) = f at h3 h5 ⊢
    have hc1 : 1 ≤ Flt.cast (Flt.div v (Flt.mypow10 j)) := by
      have : (1 : ℤ) ≤ ((Flt.cast (Flt.div v (Flt.mypow10 j)) : ℕ) : ℤ) := by rw [h2, Int.le_floor]; exact_mod_cast e2
      exact_mod_cast this
    have hc2 : Flt.cast (Flt.div v (Flt.mypow10 j)) ≤ 9 := by
      have : ((Flt.cast (Flt.div v (Flt.mypow10 j)) : ℕ) : ℤ) < 10 := by rw [h2, Int.floor_lt]; exact_mod_cast e3
      omega
    generalize Flt.cast (Flt.div v (Flt.mypow10 j)) = c at h5 hc1 hc2 ⊢
    rw [h4]
    have hp0 : (0 : ℚ) < 10 ^ p := by positivity
    have hpn : 0 < 10 ^ p := by positivity
    have hX' : Flt.val v = mag v := rfl
    rw [hX'] at e5
    have hz : ∀ k : ℤ, mag v * (10 : ℚ) ^ ((p : ℤ) - k) = mag v * 10 ^ (-k) * 10 ^ p := by
      intro k; rw [sub_eq_add_neg, zpow_add₀ (by norm_num), zpow_natCast]; ring
    have herr : |(c : ℚ) * 10 ^ p + f - mag v * 10 ^ ((p : ℤ) - j)| ≤ 1 / 2 + 10 ^ (p + 1) * (j.natAbs + 4) / 2 ^ 64 := by
      rw [hz j]
      generalize Flt.val (Flt.div v (Flt.mypow10 j)) = y at h5 e5
      generalize mag v * (10 : ℚ) ^ (-j) = Y at e5
      have h7 : |(y - Y) * 10 ^ p| ≤ 10 * (j.natAbs + 3) / 2 ^ 64 * 10 ^ p := by
        rw [abs_mul, abs_of_pos hp0]; exact mul_le_mul_of_nonneg_right e5 hp0.le
      have h8 : (c : ℚ) * 10 ^ p + f - Y * 10 ^ p = (c * 10 ^ p + f - y * 10 ^ p) + (y - Y) * 10 ^ p := by ring
      rw [h8]
      refine (abs_add_le _ _).trans ((add_le_add h5 h7).trans ?_)
      rw [pow_succ (10 : ℚ) p]
      have : (10 : ℚ) ^ p / 2 ^ 64 + 10 * (j.natAbs + 3) / 2 ^ 64 * 10 ^ p ≤ 10 ^ p * 10 * (j.natAbs + 4) / 2 ^ 64 := by
        rw [div_mul_eq_mul_div, ← add_div, div_le_div_iff_of_pos_right (by positivity)]
        linarith
      linarith
    have hN : ∀ N : ℕ, N = c * 10 ^ p + f → |(N : ℚ) - mag v * 10 ^ ((p : ℤ) - j)| ≤ 1 / 2 + 10 ^ (p + 1) * (j.natAbs + 4) / 2 ^ 64 := by
      intro N hN; rw [hN]; push_cast; exact herr
    have hnn : 1 ≤ mag v → 0 ≤ j := by
      intro h1
      have := (zpow_lt_zpow_iff_right₀ (by norm_num : (1 : ℚ) < 10)).1 (show (10 : ℚ) ^ (0 : ℤ) < 10 ^ (j + 1) by rw [zpow_zero]; exact lt_of_le_of_lt h1 hj2)
      omega
    by_cases hf : f ≥ 10 ^ p
    · have hf' : f = 10 ^ p := by omega
      rw [if_pos hf]
      by_cases hc : c = 9
      · rw [if_pos (by simp [hc])]
        have hten : |10 * (10 : ℚ) ^ p - mag v * 10 ^ ((p : ℤ) - j)| ≤ 1 / 2 + 10 ^ (p + 1) * (j.natAbs + 4) / 2 ^ 64 := by
          rw [hc, hf'] at herr
          push_cast at herr
          rwa [show (9 : ℚ) * 10 ^ p + 10 ^ p = 10 * 10 ^ p by ring] at herr
        have hn : (j.natAbs : ℚ) ≤ 99 := by exact_mod_cast (by omega : j.natAbs ≤ 99)
        have hj98 : j ≤ 98 := by
          by_contra hcc
          have hj99 : j = 99 := by omega
          subst hj99
          have h9 := (abs_le.1 hten).2
          rw [hz] at h9
          have h10 : mag v * (10 : ℚ) ^ (-99 : ℤ) < 9 := by
            have : (10 : ℚ) ^ (-99 : ℤ) * 10 ^ 99 = 1 := by norm_num
            have h11 : (0 : ℚ) < 10 ^ (-99 : ℤ) := by positivity
            have := mul_lt_mul_of_pos_right hhi h11
            rw [mul_assoc, mul_comm ((10 : ℚ) ^ 99)] at this
            linarith
          have h12 := mul_lt_mul_of_pos_right h10 hp0
          have h13 : (1 : ℚ) ≤ 10 ^ p := one_le_pow₀ (by norm_num)
          rw [pow_succ (10 : ℚ) p] at h9
          have h14 : (10 : ℚ) ^ p * 10 * ((99 : ℤ).natAbs + 4) / 2 ^ 64 ≤ 10 ^ p / 4 := by
            rw [div_le_div_iff₀ (by positivity) (by norm_num)]
            norm_num
            linarith
          generalize mag v * (10 : ℚ) ^ (-99 : ℤ) = A at h9 h12
          generalize (10 : ℚ) ^ p * 10 * ((99 : ℤ).natAbs + 4) / 2 ^ 64 = Bd at h9 h14
          linarith only [h9, h12, h13, h14]
        refine ⟨1, 0, j + 1, rfl, hpn, by norm_num, by omega, .inr ⟨by omega, by rw [pow_succ]; omega, ?_⟩, fun h => by have := hnn h; omega, hj2.trans ?_⟩
        · rw [hz (j + 1), show (10 : ℚ) ^ (-(j + 1)) = 10 ^ (-j) / 10 by rw [neg_add, zpow_add₀ (by norm_num)]; norm_num; ring]
          rw [hz j] at hten
          push_cast
          have h15 : (1 : ℚ) * 10 ^ p + 0 - mag v * (10 ^ (-j) / 10) * 10 ^ p = (10 * 10 ^ p - mag v * 10 ^ (-j) * 10 ^ p) / 10 := by ring
          rw [h15, abs_div, abs_of_pos (by norm_num : (0 : ℚ) < 10), div_le_iff₀ (by norm_num)]
          refine hten.trans ?_
          have h16 : (j.natAbs : ℚ) ≤ (j + 1).natAbs + 1 := by exact_mod_cast (by omega : j.natAbs ≤ (j + 1).natAbs + 1)
          have h17 : (0 : ℚ) ≤ (j + 1).natAbs := by positivity
          have h18 : (10 : ℚ) ^ (p + 1) * (j.natAbs + 4) / 2 ^ 64 ≤ 10 ^ (p + 1) * ((j + 1).natAbs + 4) / 2 ^ 64 * 10 := by
            rw [div_mul_eq_mul_div, div_le_div_iff_of_pos_right (by positivity), mul_assoc]
            refine mul_le_mul_of_nonneg_left ?_ (by positivity)
            linarith
          linarith
        · exact zpow_lt_zpow_right₀ (by norm_num) (by omega)
      · rw [if_neg (by simp; omega)]
        have hNe : (c + 1) * 10 ^ p + 0 = c * 10 ^ p + f := by rw [hf']; ring
        refine ⟨c + 1, 0, j, rfl, hpn, by omega, by omega, .inr ⟨?_, ?_, hN _ hNe⟩, hnn, hj2⟩
        · nlinarith
        · rw [pow_succ]; nlinarith [(by omega : c + 1 ≤ 9)]
    · rw [if_neg hf]
      refine ⟨c, f, j, rfl, by omega, by omega, by omega, .inr ⟨?_, ?_, hN _ rfl⟩, hnn, hj2⟩
      · nlinarith
      · rw [pow_succ]; nlinarith

/-! ## `fmtflt` -/

theorem fltSign_text (neg : Bool) (fl : Flags) : (if fltSign neg fl ≠ 0 then [fltSign neg fl] else []) = Spec.fltSgn neg fl.plus fl.space := by
  unfold fltSign Spec.fltSgn
  cases neg <;> cases fl.plus <;> cases fl.space <;> rfl

theorem mag_ne_zero (v : Flt.Num) : decide (mag v ≠ 0) = (v.m != 0) := by
  have : mag v = 0 ↔ v.m = 0 := by
    unfold mag
    have := Flt.two_zpow_pos v.e
    constructor
    · intro h
      rcases mul_eq_zero.1 h with h | h
      · exact_mod_cast h
      · exact absurd h this.ne'
    · intro h; simp [h]
  by_cases h : v.m = 0
  · simp [h, this]
  · simp [h, this]

/-- The flags the conversion adds. -/
def convFlags (c : Spec.FConv) (fl : Flags) : Flags :=
  { fl with up := c.up, typeE := c = .e ∨ c = .E, typeG := c = .g ∨ c = .G }

theorem takeWhile_all {α : Type} (q : α → Bool) : ∀ l : List α, (∀ c ∈ l, q c = true) → l.takeWhile q = l := by
  intro l
  induction l with
  | nil => intro _; rfl
  | cons a l ih => intro h; rw [List.takeWhile_cons, if_pos (h a (.head _)), ih fun c hc => h c (.tail _ hc)]

theorem text_str {size : Nat} {o : Out} (ho : size ≤ o.buf.length) {w : Nat} (hw : w ≤ 2147483647) {fl : Flags} {t : Bytes} (ht : ∀ c ∈ t, c ≠ 0) (hl : t.length ≤ 2147483647) :
    fmtstr size o (t ++ [0]) w t.length fl = some (emit size o (Spec.inField fl.minus w t)) := by
  have := fmtstr_ok (size := size) (o := o) ho (m := t ++ [0]) (p := some t.length) hw (fun n hn => by cases hn; exact hl) (fl := fl)
    (.inl ⟨t.length, hl, by simp⟩)
  simp only [Spec.Item.text, List.take_append_of_le_length (Nat.le_refl _), List.take_length] at this
  rw [show t.takeWhile (· ≠ 0) = t from takeWhile_all _ t (by simpa using ht)] at this
  exact this

theorem fmtflt_ok {size : Nat} {o : Out} (ho : size ≤ o.buf.length) {fl : Flags} (c : Spec.FConv) (r : Real) {w : Nat} (hw : w ≤ 2147483647) (p : Option Nat)
    (hok : (Spec.FItem.mk c r fl.minus fl.plus fl.space fl.num fl.zero w p).ok) :
    ∃ t, (Spec.FItem.mk c r fl.minus fl.plus fl.space fl.num fl.zero w p).prints t ∧
      fmtflt [] size o r w (if (c = .g ∨ c = .G) ∧ precInt p = 0 then 1 else precInt p) (convFlags c fl) = some (false, emit size o t) := by
  have hsg : ∀ neg, (if fltSign neg (convFlags c fl) ≠ 0 then [fltSign neg (convFlags c fl)] else []) = Spec.fltSgn neg fl.plus fl.space := fun neg => fltSign_text neg (convFlags c fl)
  have hprec : (if precInt p = -1 then (6 : Int) else precInt p) = (p.getD 6 : Nat) := by
    cases p with
    | none => rfl
    | some n => show (if (n : Int) = -1 then (6 : Int) else n) = n; rw [if_neg (by omega)]
  cases r with
  | nan =>
    refine ⟨_, rfl, ?_⟩
    unfold fmtflt
    dsimp only [Real.neg]
    rw [hsg false, text_str ho hw]
    · rfl
    · unfold Spec.fltSgn nanText; cases fl.plus <;> cases fl.space <;> cases (convFlags c fl).up <;> decide
    · unfold Spec.fltSgn nanText; cases fl.plus <;> cases fl.space <;> cases (convFlags c fl).up <;> decide
  | inf n =>
    refine ⟨_, rfl, ?_⟩
    unfold fmtflt
    dsimp only [Real.neg]
    rw [hsg n, text_str ho hw]
    · rfl
    · unfold Spec.fltSgn infText; cases n <;> cases fl.plus <;> cases fl.space <;> cases (convFlags c fl).up <;> decide
    · unfold Spec.fltSgn infText; cases n <;> cases fl.plus <;> cases fl.space <;> cases (convFlags c fl).up <;> decide
  | fin n v =>
    have hok := hok n v rfl
    have hneg : (Real.fin n v).neg = (n && decide (mag v ≠ 0)) := by rw [mag_ne_zero]; rfl
    have hfix : ∀ c, c = .f ∨ c = .F → v.m < 2 ^ 64 ∧ mag v < 2 ^ 64 - 1 ∧ p.getD 6 ≤ 19 →
        (∀ neg, (if fltSign neg (convFlags c fl) ≠ 0 then [fltSign neg (convFlags c fl)] else []) = Spec.fltSgn neg fl.plus fl.space) →
        ∃ t, (∃ N, Spec.FixedOk (mag v) (p.getD 6) N ∧ t = fltField fl.minus fl.zero w (Spec.fltSgn (n && decide (mag v ≠ 0)) fl.plus fl.space) (fixed N (p.getD 6) fl.num false)) ∧
          fmtflt [] size o (.fin n v) w (if (c = .g ∨ c = .G) ∧ precInt p = 0 then 1 else precInt p) (convFlags c fl) = some (false, emit size o t) := by
      intro c hc ⟨h1, h2, h3⟩ hsg
      obtain ⟨ip, fp, e1, e2, e3, e4⟩ := fltParts_fixed h1 h2 h3 0
      refine ⟨_, ⟨_, e4, rfl⟩, ?_⟩
      have hE : (convFlags c fl).typeE = false := by rcases hc with rfl | rfl <;> rfl
      have hG : (convFlags c fl).typeG = false := by rcases hc with rfl | rfl <;> rfl
      have hcg : ¬((c = .g ∨ c = .G) ∧ precInt p = 0) := by rcases hc with rfl | rfl <;> simp
      unfold fmtflt
      simp only [hE, hG, Bool.or_false, Bool.false_eq_true, if_false]
      rw [if_neg hcg, hprec, fltDigits]
      dsimp only
      rw [cap19_eq (by omega), e1]
      simp only [Option.bind_some, Bool.false_and, Bool.false_eq_true, if_false]
      rw [fltOut_text ho h3 e2 e3 hw (fun h => by cases h), hsg, hneg, hG]
      rfl
    have hsci : ∀ c, c = .e ∨ c = .E → v.m < 2 ^ 53 ∧ (mag v = 0 ∨ (10 : ℚ) ^ (-99 : ℤ) ≤ mag v ∧ mag v < 9 * 10 ^ 99) ∧ p.getD 6 ≤ 19 →
        (∀ neg, (if fltSign neg (convFlags c fl) ≠ 0 then [fltSign neg (convFlags c fl)] else []) = Spec.fltSgn neg fl.plus fl.space) →
        ∃ t, (∃ N E, Spec.SciOk (mag v) (p.getD 6) N E ∧ t = fltField fl.minus fl.zero w (Spec.fltSgn (n && decide (mag v ≠ 0)) fl.plus fl.space) (scientific N (p.getD 6) E c.up fl.num false)) ∧
          fmtflt [] size o (.fin n v) w (if (c = .g ∨ c = .G) ∧ precInt p = 0 then 1 else precInt p) (convFlags c fl) = some (false, emit size o t) := by
      intro c hc ⟨h1, h2, h3⟩ hsg
      obtain ⟨ip, fp, E, e1, e2, e3, e4, e5, -⟩ := fltParts_sci h1 h3 h2
      refine ⟨_, ⟨_, _, e5, rfl⟩, ?_⟩
      have hE : (convFlags c fl).typeE = true := by rcases hc with rfl | rfl <;> rfl
      have hG : (convFlags c fl).typeG = false := by rcases hc with rfl | rfl <;> rfl
      have hcg : ¬((c = .g ∨ c = .G) ∧ precInt p = 0) := by rcases hc with rfl | rfl <;> simp
      unfold fmtflt
      simp only [hE, hG, Bool.true_or, if_true, Bool.false_eq_true, if_false]
      rw [if_neg hcg, hprec, fltDigits]
      dsimp only
      rw [cap19_eq (by omega), e1]
      simp only [Option.bind_some, Bool.false_and, Bool.false_eq_true, if_false]
      rw [fltOut_text ho h3 e2 (by omega) hw (fun _ => e4), hsg, hneg, hG]
      rfl
    have hgen : ∀ c, c = .g ∨ c = .G →
        v.m < 2 ^ 53 ∧ (mag v = 0 ∨ (10 : ℚ) ^ (-99 : ℤ) ≤ mag v ∧ mag v < 9 * 10 ^ 99) ∧ (p.getD 6 ≤ 16 ∨ p.getD 6 ≤ 19 ∧ 1 ≤ mag v) →
        (∀ neg, (if fltSign neg (convFlags c fl) ≠ 0 then [fltSign neg (convFlags c fl)] else []) = Spec.fltSgn neg fl.plus fl.space) →
        ∃ t, (∃ N E, Spec.SciOk (mag v) ((if p.getD 6 = 0 then 1 else p.getD 6) - 1) N E ∧
            if E < (if p.getD 6 = 0 then 1 else p.getD 6 : Nat) ∧ -4 ≤ E then ∃ N' p' : Nat, (p' : ℤ) = (if p.getD 6 = 0 then 1 else p.getD 6 : Nat) - 1 - E ∧ Spec.FixedOk (mag v) p' N' ∧
                t = fltField fl.minus fl.zero w (Spec.fltSgn (n && decide (mag v ≠ 0)) fl.plus fl.space) (fixed N' p' fl.num (!fl.num))
            else t = fltField fl.minus fl.zero w (Spec.fltSgn (n && decide (mag v ≠ 0)) fl.plus fl.space) (scientific N ((if p.getD 6 = 0 then 1 else p.getD 6) - 1) E c.up fl.num (!fl.num))) ∧
          fmtflt [] size o (.fin n v) w (if (c = .g ∨ c = .G) ∧ precInt p = 0 then 1 else precInt p) (convFlags c fl) = some (false, emit size o t) := by
      intro c hc ⟨h1, h2, h3⟩ hsg
      have hE : (convFlags c fl).typeE = false := by rcases hc with rfl | rfl <;> rfl
      have hG : (convFlags c fl).typeG = true := by rcases hc with rfl | rfl <;> rfl
      obtain ⟨P, hP⟩ : ∃ P, P = (if p.getD 6 = 0 then 1 else p.getD 6) := ⟨_, rfl⟩
      have hPp : (if (if (c = .g ∨ c = .G) ∧ precInt p = 0 then (1 : Int) else precInt p) = -1 then (6 : Int) else if (c = .g ∨ c = .G) ∧ precInt p = 0 then 1 else precInt p) = (P : Nat) := by
        rw [hP]
        cases p with
        | none => rw [if_neg (show ¬((c = .g ∨ c = .G) ∧ precInt none = 0) from fun h => absurd h.2 (by decide))]; rfl
        | some k =>
          simp only [precInt, Option.getD_some, hc, true_and]
          by_cases hk : k = 0
          · subst hk; rfl
          · rw [if_neg (by omega), if_neg (by omega), if_neg hk]
      have hP1 : 1 ≤ P := by rw [hP]; split <;> omega
      have hP3 : P ≤ 16 ∨ P ≤ 19 ∧ 1 ≤ mag v := by
        rw [hP]
        rcases h3 with h3 | h3
        · left; split <;> omega
        · right; exact ⟨by split <;> omega, h3.2⟩
      rw [← hP]
      obtain ⟨ip, fp, E, e1, e2, e3, e4, e5, e6, e7⟩ := fltParts_sci h1 (show P - 1 ≤ 19 by omega) h2
      by_cases hst : E < P ∧ -4 ≤ E
      · obtain ⟨p', hp'⟩ := Int.eq_ofNat_of_zero_le (show (0 : ℤ) ≤ (P : ℤ) - 1 - E by omega)
        have hp19 : p' ≤ 19 := by
          rcases hP3 with h | ⟨h, hx⟩
          · omega
          · have := e6 hx; omega
        have hbig : mag v < 2 ^ 64 - 1 := by
          have h5 : (10 : ℚ) ^ (E + 1) ≤ 10 ^ (19 : ℤ) := zpow_le_zpow_right₀ (by norm_num) (by omega)
          refine lt_of_lt_of_le e7 (h5.trans (by norm_num))
        obtain ⟨ip', fp', f1, f2, f3, f4⟩ := fltParts_fixed (h1.trans (by norm_num)) hbig hp19 E
        refine ⟨fltField fl.minus fl.zero w (Spec.fltSgn (n && decide (mag v ≠ 0)) fl.plus fl.space) (fixed (ip' * 10 ^ p' + fp') p' fl.num (!fl.num)), ⟨_, _, e5, ?_⟩, ?_⟩
        · rw [if_pos hst]
          exact ⟨_, p', hp'.symm, f4, rfl⟩
        · unfold fmtflt
          simp only [hE, hG, Bool.or_true, if_true]
          rw [hPp, fltDigits]
          dsimp only
          rw [cap19_eq (by omega), show ((P : Int) - 1) = ((P - 1 : Nat) : Int) by omega, e1]
          simp only [Option.bind_some, Bool.true_and]
          rw [if_pos (by simp; omega), cap19_eq (by omega), show ((P - 1 : Nat) : Int) - E = (p' : Nat) by omega, f1]
          simp only [Option.map_some]
          rw [fltOut_text ho hp19 f2 f3 hw (fun h => by cases h), hsg, hneg, hG]
          rfl
      · refine ⟨fltField fl.minus fl.zero w (Spec.fltSgn (n && decide (mag v ≠ 0)) fl.plus fl.space) (scientific (ip * 10 ^ (P - 1) + fp) (P - 1) E c.up fl.num (!fl.num)), ⟨_, _, e5, ?_⟩, ?_⟩
        · rw [if_neg hst]
        · unfold fmtflt
          simp only [hE, hG, Bool.or_true, if_true]
          rw [hPp, fltDigits]
          dsimp only
          rw [cap19_eq (by omega), show ((P : Int) - 1) = ((P - 1 : Nat) : Int) by omega, e1]
          simp only [Option.bind_some, Bool.true_and]
          rw [if_neg (by simp; omega)]
          dsimp only
          rw [fltOut_text ho (by omega) e2 (by omega) hw (fun _ => e4), hsg, hneg, hG]
          rfl
    cases c with
    | f => exact hfix _ (.inl rfl) hok hsg
    | F => exact hfix _ (.inr rfl) hok hsg
    | e => exact hsci _ (.inl rfl) hok hsg
    | E => exact hsci _ (.inr rfl) hok hsg
    | g => exact hgen _ (.inl rfl) hok hsg
    | G => exact hgen _ (.inr rfl) hok hsg

/-! ## The format -/

theorem floatArg_eq {m : Mod} {a : Arg} {r : Real} (h : Spec.fltArg m a = some r) : floatArg m a = some r := by
  cases a <;> simp only [Spec.fltArg, reduceCtorEq] at h
  all_goals
    split at h
    · first
      | cases h; done
      | (cases h; rename_i hm; subst hm; rfl)
    · first
      | (cases h; done)
      | (cases h; rename_i hm; cases m <;> first | rfl | exact absurd rfl hm)

theorem run_fdir {size : Nat} {o : Out} (ho : size ≤ o.buf.length) {d : Spec.FDir} (hwf : (Spec.FPiece.flt d).wf) {as as' : List Arg} {it : Spec.FItem}
    (hr : Spec.resolveFDir d as = some (it, as')) (hok : it.ok) :
    ∃ t, it.prints t ∧ run [] size (Spec.FPiece.flt d).bytes { args := as } o = some ({ args := as' }, emit size o t) := by
  obtain ⟨hwl, -⟩ := hwf
  unfold Spec.resolveFDir at hr
  obtain ⟨⟨w, left, as1⟩, hw, hr⟩ := Option.bind_eq_some_iff.1 hr
  obtain ⟨⟨p, as2⟩, hp, hr⟩ := Option.bind_eq_some_iff.1 hr
  have hconv : Letter d.conv.byte ∧ ConvLetter d.conv.byte := by
    cases d.conv <;> exact ⟨by unfold Letter Post; decide, by unfold ConvLetter; decide⟩
  have hml : ∃ ch f, Spec.modBytes d.mod ++ [d.conv.byte] = ch :: f ∧ Letter ch := by
    cases d.mod with
    | none => exact ⟨_, _, rfl, hconv.1⟩
    | _ => exact ⟨_, _, rfl, by unfold Letter Post; decide⟩
  obtain ⟨ch, f, hcf, hl⟩ := hml
  have hpl : ∃ ch f, Spec.precBytes d.prec ++ (Spec.modBytes d.mod ++ [d.conv.byte]) = ch :: f ∧ Post ch := by
    rw [hcf]
    cases d.prec with
    | absent => exact ⟨_, _, rfl, hl.1⟩
    | lit n => exact ⟨_, _, rfl, by unfold Post; decide⟩
    | star => exact ⟨_, _, rfl, by unfold Post; decide⟩
  obtain ⟨ch', f', hcf', hl'⟩ := hpl
  have h1 : run [] size (Spec.FPiece.flt d).bytes { args := as } o =
      run [] size [d.conv.byte] (dst .conv (flagsOf d.flags left) w (precInt p) d.mod as2) o ∧ w ≤ 2147483647 ∧ ∀ n, p = some n → n ≤ 2147483647 := by
    rw [Spec.FPiece.bytes, run_step (s' := dst .flags {} 0 (-1) .none as) (o' := o) (by rfl) rfl]
    simp only [List.append_assoc]
    rw [run_flags, hcf']
    obtain ⟨h2, h3⟩ := run_width hl' hwl hw (d.flags.foldl applyFlag {}) o (size := size) (f := f')
    rw [h2, ← hcf', hcf]
    obtain ⟨h4, h5⟩ := run_prec hl hp (if left then { d.flags.foldl applyFlag {} with minus := true } else d.flags.foldl applyFlag {}) w o (size := size) (f := f)
    rw [h4, ← hcf, run_mod hconv.2]
    refine ⟨?_, h3, h5⟩
    congr 2
    rw [foldl_applyFlag]
    cases left <;> simp [flagsOf]
  obtain ⟨h1, hw', hp'⟩ := h1
  cases as2 with
  | nil => cases hr
  | cons a as2 =>
    simp only at hr
    obtain ⟨r, hv, hr⟩ := Option.map_eq_some_iff.1 hr
    simp only [Prod.mk.injEq] at hr
    obtain ⟨rfl, rfl⟩ := hr
    obtain ⟨t, ht1, ht2⟩ := fmtflt_ok (size := size) (o := o) ho (fl := flagsOf d.flags left) d.conv r hw' p hok
    refine ⟨t, ht1, ?_⟩
    rw [h1]
    refine run_one ?_
    rw [step_conv]
    have key : ∀ (q : Int) (fl : Flags), q = (if (d.conv = .g ∨ d.conv = .G) ∧ precInt p = 0 then 1 else precInt p) → fl = convFlags d.conv (flagsOf d.flags left) →
        convFloat [] size (dst .conv (flagsOf d.flags left) w (precInt p) d.mod (a :: as2)) o q fl = some ({ args := as2 }, emit size o t) := by
      intro q fl hq hfl
      rw [hq, hfl, convFloat]
      simp only [vaArg, dst, Option.bind_some, floatArg_eq hv]
      rw [ht2]
      rfl
    cases hc : d.conv <;> rw [hc] at key <;> refine key _ _ ?_ rfl <;> by_cases h0 : precInt p = 0 <;> simp [dst, h0]

theorem run_fpieces {size : Nat} : ∀ (ps : List Spec.FPiece) (as : List Arg) (is : List Spec.Item2) (o : Out), size ≤ o.buf.length →
    (∀ p ∈ ps, p.wf) → Spec.fresolve ps as = some is → (∀ i ∈ is, i.ok) →
    ∃ t as', Spec.Prints is t ∧ run [] size (Spec.funparse ps) { args := as } o = some ({ args := as' }, emit size o t) := by
  intro ps
  induction ps with
  | nil => intro as is o _ _ hr _; cases hr; exact ⟨[], as, .nil, by simp [Spec.funparse, run]⟩
  | cons p ps ih =>
    intro as is o ho hwf hr hok
    have hcons : ∀ (as1 : List Arg) (is' : List Spec.Item2) (it : Spec.Item2) (s : Bytes), is = it :: is' → Spec.fresolve ps as1 = some is' →
        (∀ t, Spec.Prints is' t → Spec.Prints (it :: is') (s ++ t)) →
        run [] size p.bytes { args := as } o = some ({ args := as1 }, emit size o s) →
        ∃ t as', Spec.Prints is t ∧ run [] size (Spec.funparse (p :: ps)) { args := as } o = some ({ args := as' }, emit size o t) := by
      intro as1 is' it s he hr' hpr hrun
      subst he
      obtain ⟨t, as', h1, h2⟩ := ih as1 is' (emit size o s) (by simpa using ho) (fun q hq => hwf q (.tail _ hq)) hr' (fun i hi => hok i (.tail _ hi))
      refine ⟨s ++ t, as', hpr t h1, ?_⟩
      rw [Spec.funparse, List.flatMap_cons, run_append _ _ _ _ hrun rfl rfl]
      refine h2.trans ?_
      rw [← emit_append]
    cases p with
    | plain p =>
      cases p with
      | chr c =>
        obtain ⟨is', h1, h2⟩ := Option.map_eq_some_iff.1 hr
        have hc : c ≠ 37 := hwf _ (.head _)
        refine hcons as is' _ _ h2.symm h1 (fun t ht => .plain ht) (run_one ?_)
        show (if c = 37 then _ else (outchar size o c).map _) = _
        rw [if_neg hc, outchar_eq ho]; rfl
      | percent =>
        obtain ⟨is', h1, h2⟩ := Option.map_eq_some_iff.1 hr
        refine hcons as is' _ _ h2.symm h1 (fun t ht => .plain ht) ?_
        show run [] size [37, 37] _ _ = _
        rw [run_step (s' := dst .flags {} 0 (-1) .none as) (o' := o) (by rfl) rfl]
        refine run_one ?_
        show (outchar size o 37).map _ = _
        rw [outchar_eq ho]; rfl
      | dir d =>
        obtain ⟨⟨it, as1⟩, h1, h2⟩ := Option.bind_eq_some_iff.1 hr
        obtain ⟨is', h3, h4⟩ := Option.map_eq_some_iff.1 h2
        exact hcons as1 is' _ _ h4.symm h3 (fun t ht => .plain ht) (run_dir ho (hwf _ (.head _)) h1 (hok (.plain it) (by rw [← h4]; exact .head _)))
    | flt d =>
      obtain ⟨⟨it, as1⟩, h1, h2⟩ := Option.bind_eq_some_iff.1 hr
      obtain ⟨is', h3, h4⟩ := Option.map_eq_some_iff.1 h2
      obtain ⟨s, h5, h6⟩ := run_fdir ho (hwf _ (.head _)) h1 (hok (.flt it) (by rw [← h4]; exact .head _))
      exact hcons as1 is' _ s h4.symm h3 (fun t ht => .flt h5 ht) h6

end Snprintf
