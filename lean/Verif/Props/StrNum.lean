import Verif.Props.StrCompare
/-! # C40 (integer parsing) -/
open StrSpec CMem NumSpec TrimSpec

namespace Str

theorem isdigit_eq (c : UInt8) : isdigit c = digit c := byte_all (P := fun c => isdigit c = digit c) (by decide +kernel) c
theorem digit_not (c : UInt8) : digit c = true → c ≠ 0 ∧ c ≠ 43 ∧ c ≠ 45 ∧ space c = false ∧ c ≠ 46 :=
  byte_all (P := fun c => digit c = true → c ≠ 0 ∧ c ≠ 43 ∧ c ≠ 45 ∧ space c = false ∧ c ≠ 46) (by decide +kernel) c
theorem space_not (c : UInt8) : space c = true → c ≠ 0 ∧ c ≠ 43 ∧ c ≠ 45 := byte_all (P := fun c => space c = true → c ≠ 0 ∧ c ≠ 43 ∧ c ≠ 45) (by decide +kernel) c

theorem takeWhile_app {p : UInt8 → Bool} {a b : List UInt8} (ha : a.all p = true) (hb : ∀ c tl, b = c :: tl → p c = false) :
    (a ++ b).takeWhile p = a ∧ (a ++ b).dropWhile p = b := by
  induction a with
  | nil =>
    cases b with
    | nil => simp
    | cons c tl => simp [hb c tl rfl]
  | cons x a ih =>
    simp only [List.all_cons, Bool.and_eq_true] at ha
    simp [ha.1, ih ha.2]

theorem all_takeWhile (p : UInt8 → Bool) (s : List UInt8) : (s.takeWhile p).all p = true := by
  induction s with
  | nil => rfl
  | cons c s ih => by_cases h : p c = true <;> simp [h]

theorem head_dropWhile (p : UInt8 → Bool) (s : List UInt8) : ∀ c tl, s.dropWhile p = c :: tl → p c = false := by
  induction s with
  | nil => simp
  | cons x s ih =>
    intro c tl h
    by_cases hx : p x = true
    · rw [List.dropWhile_cons, if_pos hx] at h; exact ih c tl h
    · rw [List.dropWhile_cons, if_neg hx] at h; cases h; simpa using hx

/-- The sign characters skipped by `strtoParse`. -/
theorem parse_numeral (s : List UInt8) (neg : Bool) (mag : Nat) (rest : List UInt8) (h : Numeral s neg mag rest) :
    strtoParse s = some (neg, mag, s.length - rest.length) := by
  obtain ⟨bl, sg, ds, rfl, hb, hs, hneg, hne, hd, hr, rfl⟩ := h
  obtain ⟨d, ds', rfl⟩ := List.exists_cons_of_ne_nil hne
  have hd1 : digit d = true := by simp at hd; exact hd.1
  obtain ⟨hd0, hdp, hdm, hds, _⟩ := digit_not d hd1
  have hsp : (isspace : UInt8 → Bool) = space := funext isspace_eq
  have hdg : (isdigit : UInt8 → Bool) = digit := funext isdigit_eq
  have key : ∀ c tl, sg ++ (d :: ds') ++ rest = c :: tl → space c = false := by
    intro c tl h
    rcases hs with rfl | rfl | rfl <;> simp at h <;> rw [← h.1]
    · exact hds
    · decide
    · decide
  have h1 := takeWhile_app (b := sg ++ (d :: ds') ++ rest) hb key
  rw [show bl ++ sg ++ (d :: ds') ++ rest = bl ++ (sg ++ (d :: ds') ++ rest) by simp]
  have hdig := (takeWhile_app hd hr).1
  rw [strtoParse, hsp, hdg, h1.1, h1.2]
  rcases hs with rfl | rfl | rfl
  · have : neg = false := by cases neg with | false => rfl | true => simp at hneg
    subst this
    simp only [signOf, List.nil_append, List.cons_append, hdm, hdp, if_false, List.drop_zero]
    simp only [List.cons_append] at hdig
    rw [hdig]; simp [value]; omega
  · have : neg = false := by cases neg with | false => rfl | true => simp at hneg
    subst this
    simp only [signOf, List.nil_append, List.cons_append, show ¬ ((43 : UInt8) = 45) by decide, if_false, if_true, List.drop_succ_cons, List.drop_zero]
    simp only [List.cons_append] at hdig
    rw [hdig]; simp [value]; omega
  · have : neg = true := hneg.2 rfl
    subst this
    simp only [signOf, List.nil_append, List.cons_append, if_true, List.drop_succ_cons, List.drop_zero]
    simp only [List.cons_append] at hdig
    rw [hdig]; simp [value]; omega

theorem sign_split (r : List UInt8) : ∃ sg : List UInt8, (sg = [] ∨ sg = [43] ∨ sg = [45]) ∧ r = sg ++ r.drop sg.length ∧
      signOf r = (decide (sg = [45]), sg.length) := by
  cases r with
  | nil => exact ⟨[], by simp [signOf]⟩
  | cons c r =>
    by_cases h1 : c = 45
    · exact ⟨[45], by simp [signOf, h1]⟩
    · by_cases h2 : c = 43
      · exact ⟨[43], by simp [signOf, h2]⟩
      · exact ⟨[], by simp [signOf, h1, h2]⟩

theorem numeral_parse (s : List UInt8) (neg : Bool) (mag e : Nat) (h : strtoParse s = some (neg, mag, e)) :
    Numeral s neg mag (s.drop e) ∧ 0 < e ∧ e ≤ s.length := by
  have hsp : (isspace : UInt8 → Bool) = space := funext isspace_eq
  have hdg : (isdigit : UInt8 → Bool) = digit := funext isdigit_eq
  rw [strtoParse, hsp, hdg] at h
  have hsplit := List.takeWhile_append_dropWhile (p := space) (l := s)
  have hbl := all_takeWhile space s
  generalize hB : s.takeWhile space = bl at *
  generalize hR : s.dropWhile space = r at *
  subst hsplit
  obtain ⟨sg, hs1, hs2, hs3⟩ := sign_split r
  rw [hs3] at h
  simp only at h
  generalize hT : r.drop sg.length = t at *
  subst hs2
  have hspl := List.takeWhile_append_dropWhile (p := digit) (l := t)
  have hall := all_takeWhile digit t
  have hhd := head_dropWhile digit t
  generalize hD : t.takeWhile digit = ds at *
  generalize hE : t.dropWhile digit = rest at *
  by_cases hds : ds = []
  · simp [hds] at h
  · rw [if_neg hds] at h
    simp only [Option.some.injEq, Prod.mk.injEq] at h
    obtain ⟨rfl, rfl, rfl⟩ := h
    have hpos : 0 < ds.length := List.length_pos_iff.2 hds
    have hdrop : (bl ++ (sg ++ t)).drop (bl.length + sg.length + ds.length) = rest := by
      rw [← hspl, show bl ++ (sg ++ (ds ++ rest)) = (bl ++ sg ++ ds) ++ rest by simp]
      rw [List.drop_append_of_le_length (by simp; omega), List.drop_eq_nil_of_le (by simp; omega)]; rfl
    refine ⟨?_, by omega, ?_⟩
    · rw [hdrop]
      refine ⟨bl, sg, ds, by rw [← hspl]; simp, hbl, hs1, by simp, hds, hall, hhd, rfl⟩
    · rw [← hspl]; simp; omega

theorem parse_none (s : List UInt8) : strtoParse s = none ↔ ¬ ∃ neg mag rest, Numeral s neg mag rest := by
  constructor
  · rintro h ⟨neg, mag, rest, hn⟩
    rw [parse_numeral s neg mag rest hn] at h; cases h
  · intro h
    cases hp : strtoParse s with
    | none => rfl
    | some r => obtain ⟨neg, mag, e⟩ := r; exact absurd ⟨neg, mag, _, (numeral_parse s neg mag e hp).1⟩ h

theorem checkEnd_ok (s : List UInt8) (e : Nat) (h0 : 0 ∉ s) (hp : 0 < e) (he : e ≤ s.length) :
    (checkEnd s e = some none ∧ Terminated (s.drop e)) ∨ (checkEnd s e = some (some (-83)) ∧ ¬ Terminated (s.drop e)) := by
  rw [checkEnd, if_neg (by omega)]
  by_cases h : e < s.length
  · rw [List.getElem?_append_left h, List.getElem?_eq_getElem h]
    simp only [Option.bind_eq_bind, Option.bind_some]
    have hne : s[e] ≠ 0 := fun e' => h0 (e' ▸ List.getElem_mem h)
    rw [isspace_eq]
    by_cases hs : space s[e] = true
    · left
      rw [if_neg (by simp [hs])]
      refine ⟨rfl, ?_⟩
      intro c tl hc
      rw [List.drop_eq_getElem_cons h] at hc; cases hc; exact hs
    · right
      rw [if_pos ⟨hne, by simpa using hs⟩]
      refine ⟨rfl, ?_⟩
      intro ht
      exact hs (ht _ _ (List.drop_eq_getElem_cons h))
  · have : e = s.length := by omega
    subst this
    left
    simp [Terminated]

end Str


/-- C40. A text starts with at most one numeral: sign, magnitude and what follows are determined. -/
theorem C40_numeral_unique (s : List UInt8) (n1 n2 : Bool) (m1 m2 : Nat) (r1 r2 : List UInt8) (h1 : Numeral s n1 m1 r1) (h2 : Numeral s n2 m2 r2) :
    n1 = n2 ∧ m1 = m2 ∧ r1 = r2 := by
  have e1 := Str.parse_numeral s n1 m1 r1 h1
  rw [Str.parse_numeral s n2 m2 r2 h2] at e1
  simp only [Option.some.injEq, Prod.mk.injEq] at e1
  have suf : ∀ {n m r}, Numeral s n m r → r <:+ s := by
    rintro n m r ⟨bl, sg, ds, rfl, _⟩; exact ⟨bl ++ sg ++ ds, rfl⟩
  have s1 := suf h1
  have s2 := suf h2
  refine ⟨e1.1.symm, e1.2.1.symm, ?_⟩
  have l1 := s1.length_le
  have l2 := s2.length_le
  rw [List.suffix_iff_eq_drop] at s1 s2
  rw [s1, s2, show s.length - r1.length = s.length - r2.length by omega]

/-- C40. `StringToLong` and `StringToInt64` on every C string. The four cases exclude each other and cover everything:
no numeral: −81; a numeral that does not fit: ERANGE; one that fits but is followed by something other than the end or a blank: −83; otherwise the
number it denotes. -/
theorem C40_toLong (s : List UInt8) (h0 : 0 ∉ s) :
    ((¬ ∃ neg mag rest, Numeral s neg mag rest) → Str.stringToLong s = some (.error (-81))) ∧
    (∀ neg mag rest, Numeral s neg mag rest →
      (¬ (-2 ^ 63 ≤ signed neg mag ∧ signed neg mag < 2 ^ 63) → Str.stringToLong s = some (.error 34)) ∧
      (-2 ^ 63 ≤ signed neg mag → signed neg mag < 2 ^ 63 → ¬ Terminated rest → Str.stringToLong s = some (.error (-83))) ∧
      (-2 ^ 63 ≤ signed neg mag → signed neg mag < 2 ^ 63 → Terminated rest → Str.stringToLong s = some (.ok (signed neg mag)))) := by
  constructor
  · intro h
    simp [Str.stringToLong, Str.strtol, (Str.parse_none s).2 h, Str.checkEnd]
  · intro neg mag rest hn
    have hp := Str.parse_numeral s neg mag rest hn
    obtain ⟨hn', hpos, hle⟩ := Str.numeral_parse s neg mag _ hp
    have hrest := (C40_numeral_unique s _ _ _ _ _ _ hn hn').2.2
    have hst : Str.strtol s = (if signed neg mag < -2 ^ 63 then (-2 ^ 63, s.length - rest.length, true) else if signed neg mag > 2 ^ 63 - 1 then
        (2 ^ 63 - 1, s.length - rest.length, true) else (signed neg mag, s.length - rest.length, false)) := by
      simp only [Str.strtol, hp]; rfl
    generalize signed neg mag = v at *
    have hc := Str.checkEnd_ok s _ h0 hpos hle
    rw [← hrest] at hc
    refine ⟨fun h => ?_, fun h1 h2 h3 => ?_, fun h1 h2 h3 => ?_⟩
    · by_cases hlo : v < -2 ^ 63
      · rw [if_pos hlo] at hst; simp [Str.stringToLong, hst, Str.ERANGE]
      · rw [if_neg hlo, if_pos (by omega)] at hst; simp [Str.stringToLong, hst, Str.ERANGE]
    · rw [if_neg (by omega), if_neg (by omega)] at hst
      rcases hc with ⟨hc, ht⟩ | ⟨hc, ht⟩
      · exact absurd ht h3
      · simp [Str.stringToLong, hst, hc]
    · rw [if_neg (by omega), if_neg (by omega)] at hst
      rcases hc with ⟨hc, ht⟩ | ⟨hc, ht⟩
      · simp [Str.stringToLong, hst, hc]
      · exact absurd h3 ht

example : Numeral [32, 45, 52, 50, 32, 120] true 42 [32, 120] ∧ Terminated [32, 120] ∧
    Str.stringToLong [32, 45, 52, 50, 32, 120] = some (.ok (-42)) ∧ Str.stringToLong [45] = some (.error (-81)) ∧
    Str.stringToLong [49, 120] = some (.error (-83)) := by
  refine ⟨⟨[32], [45], [52, 50], rfl, by decide, by decide, by decide, by decide, by decide, ?_, by decide⟩, ?_, rfl, rfl, rfl⟩
  · intro c tl h; cases h; decide
  · intro c tl h; cases h; decide

namespace Str
theorem skipLoop_ok (s bl t : List UInt8) (e : Nat) (hs : s = bl ++ t) (hb : bl.all space = true) (ht : ∀ c tl, t = c :: tl → space c = false)
    (hte : t ≠ []) : ∀ k i, i ≤ bl.length → bl.length < i + k → bl.length ≤ e → skipLoop s e i k = some bl.length := by
  intro k
  induction k with
  | zero => intro i h1 h2 _; omega
  | succ k ih =>
    intro i h1 h2 h3
    rw [skipLoop]
    by_cases hi : i < bl.length
    · rw [if_pos (by omega), hs, List.append_assoc, List.getElem?_append_left hi, List.getElem?_eq_getElem hi]
      simp only [Option.bind_eq_bind, Option.bind_some]
      have : space bl[i] = true := by
        rw [List.all_eq_true] at hb; exact hb _ (List.getElem_mem hi)
      rw [isspace_eq, if_pos this, ← hs]
      exact ih _ (by omega) (by omega) h3
    · have hib : i = bl.length := by omega
      by_cases he : i < e
      · rw [if_pos he, hs, List.append_assoc, List.getElem?_append_right (by omega), hib, Nat.sub_self]
        obtain ⟨c, tl, rfl⟩ := List.exists_cons_of_ne_nil hte
        simp only [List.cons_append, List.getElem?_cons_zero, Option.bind_eq_bind, Option.bind_some]
        rw [isspace_eq, ht c tl rfl]; simp
      · rw [if_neg he, hib]
end Str

/-- C40. `StringToUlong` on every C string: as above, with the numerals that denote a number of the type; a minus sign is refused with ERANGE
unless the number is zero. -/
theorem C40_toUlong (s : List UInt8) (h0 : 0 ∉ s) :
    ((¬ ∃ neg mag rest, Numeral s neg mag rest) → Str.stringToUlong s = some (.error (-81))) ∧
    (∀ neg mag rest, Numeral s neg mag rest →
      (¬ (0 ≤ signed neg mag ∧ signed neg mag < 2 ^ 64) → Str.stringToUlong s = some (.error 34)) ∧
      (0 ≤ signed neg mag → signed neg mag < 2 ^ 64 → ¬ Terminated rest → Str.stringToUlong s = some (.error (-83))) ∧
      (0 ≤ signed neg mag → signed neg mag < 2 ^ 64 → Terminated rest → Str.stringToUlong s = some (.ok mag))) := by
  constructor
  · intro h
    simp [Str.stringToUlong, Str.strtoul, (Str.parse_none s).2 h, Str.checkEnd, Str.ulongNegative]
  · intro neg mag rest hn
    have hp := Str.parse_numeral s neg mag rest hn
    obtain ⟨hn', hpos, hle⟩ := Str.numeral_parse s neg mag _ hp
    have hrest := (C40_numeral_unique s _ _ _ _ _ _ hn hn').2.2
    have hc := Str.checkEnd_ok s _ h0 hpos hle
    rw [← hrest] at hc
    have hst : Str.strtoul s = (if mag > 2 ^ 64 - 1 then (2 ^ 64 - 1, s.length - rest.length, true)
        else (if neg then (2 ^ 64 - mag) % 2 ^ 64 else mag, s.length - rest.length, false)) := by
      simp only [Str.strtoul, hp]
    have hsig : signed neg mag = if neg then -(mag : Int) else mag := rfl
    -- the sign test
    have hsgn : ∀ val, 0 < val → Str.ulongNegative s val (s.length - rest.length) = some neg := by
      intro val hval
      obtain ⟨bl, sg, ds, hs, hb, hs1, hneg, hne, hd, hr, rfl⟩ := hn
      obtain ⟨d, ds', rfl⟩ := List.exists_cons_of_ne_nil hne
      have hd1 : digit d = true := by simp at hd; exact hd.1
      obtain ⟨_, _, hdm, hds, _⟩ := Str.digit_not d hd1
      have ht : ∀ c tl, sg ++ (d :: ds') ++ rest = c :: tl → space c = false ∧ ((c == 45) = neg) := by
        intro c tl h
        rcases hs1 with rfl | rfl | rfl <;> simp at h <;> rw [← h.1]
        · refine ⟨hds, ?_⟩
          cases neg with
          | false => simpa using hdm
          | true => simp at hneg
        · refine ⟨by decide, ?_⟩
          cases neg with
          | false => rfl
          | true => simp at hneg
        · exact ⟨by decide, by rw [hneg.2 rfl]; rfl⟩
      have hs' : s = bl ++ (sg ++ (d :: ds') ++ rest) := by rw [hs]; simp
      have hlen : bl.length ≤ s.length - rest.length := by rw [hs]; simp; omega
      rw [Str.ulongNegative, if_pos hval, Str.skipLoop_ok s bl _ _ hs' hb (fun c tl h => (ht c tl h).1) (by simp) _ 0 (by omega) (by rw [hs']; simp; omega) hlen]
      simp only [Option.bind_eq_bind, Option.bind_some]
      have hnn : sg ++ (d :: ds') ++ rest ≠ [] := by simp
      obtain ⟨c, tl, hct⟩ := List.exists_cons_of_ne_nil hnn
      have hc2 := (ht c tl hct).2
      rw [hct] at hs'
      rw [hs', List.append_assoc, List.getElem?_append_right (Nat.le_refl _), Nat.sub_self]
      simp [hc2]
    refine ⟨fun h => ?_, fun h1 h2 h3 => ?_, fun h1 h2 h3 => ?_⟩
    · by_cases hbig : mag > 2 ^ 64 - 1
      · rw [if_pos hbig] at hst; simp [Str.stringToUlong, hst, Str.ERANGE]
      · rw [if_neg hbig] at hst
        cases neg with
        | false => simp only [hsig, Bool.false_eq_true, if_false] at h; omega
        | true =>
          have hm : 0 < mag := by
            simp only [hsig, if_true] at h; omega
          simp only [if_true] at hst
          have hmod : (2 ^ 64 - mag) % 2 ^ 64 = 2 ^ 64 - mag := Nat.mod_eq_of_lt (by omega)
          rw [hmod] at hst
          simp only [Str.stringToUlong, hst, Bool.false_eq_true, false_and, if_false, hsgn _ (show 0 < 2 ^ 64 - mag by omega)]
          simp [Str.ERANGE]
    all_goals
      have hbig : ¬ mag > 2 ^ 64 - 1 := by
        cases neg with
        | false => simp only [hsig, Bool.false_eq_true, if_false] at h1 h2; omega
        | true => simp only [hsig, if_true] at h1 h2; omega
      have hval : (if neg = true then (2 ^ 64 - mag) % 2 ^ 64 else mag) = mag := by
        cases neg with
        | false => simp
        | true =>
          simp only [hsig, if_true] at h1
          have : mag = 0 := by omega
          subst this; simp
      have hng : Str.ulongNegative s mag (s.length - rest.length) = some false := by
        by_cases hm : 0 < mag
        · rw [hsgn mag hm]
          cases neg with
          | false => rfl
          | true => simp only [hsig, if_true] at h1; omega
        · simp [Str.ulongNegative, hm]
      rw [if_neg hbig, hval] at hst
      simp only [Str.stringToUlong, hst, Bool.false_eq_true, false_and, if_false, hng]
      rcases hc with ⟨hc, ht⟩ | ⟨hc, ht⟩
      · first
          | exact absurd ht h3
          | simp [hc]
      · first
          | exact absurd h3 ht
          | simp [hc]

example : Str.stringToUlong [45, 49] = some (.error 34) ∧ Str.stringToUlong [45, 48] = some (.ok 0) ∧ Str.stringToUlong [43, 55] = some (.ok 7) := ⟨rfl, rfl, rfl⟩

namespace NumSpec
theorem decimal_eq (n : Nat) : decimal n = if n < 10 then [UInt8.ofNat (48 + n)] else decimal (n / 10) ++ [UInt8.ofNat (48 + n % 10)] := by
  rw [decimal]

theorem value_append (a : List UInt8) (d : UInt8) : value (a ++ [d]) = 10 * value a + (d.toNat - 48) := by
  simp [value, List.foldl_append]

theorem ofNat_digit (k : Nat) (h : k < 10) : (UInt8.ofNat (48 + k)).toNat = 48 + k := by
  rw [UInt8.toNat_ofNat']; omega

theorem digit_ofNat (k : Nat) (h : k < 10) : digit (UInt8.ofNat (48 + k)) = true := by
  simp [digit, ofNat_digit k h]; omega

theorem value_decimal (n : Nat) : value (decimal n) = n := by
  induction n using Nat.strongRecOn with
  | _ n ih =>
    rw [decimal_eq]
    by_cases h : n < 10
    · rw [if_pos h]; simp only [value, List.foldl_cons, List.foldl_nil]; rw [ofNat_digit n h]; omega
    · rw [if_neg h, value_append, ih _ (by omega), ofNat_digit _ (by omega)]; omega

theorem decimal_digits (n : Nat) : (decimal n).all digit = true ∧ decimal n ≠ [] := by
  induction n using Nat.strongRecOn with
  | _ n ih =>
    rw [decimal_eq]
    by_cases h : n < 10
    · rw [if_pos h]; simp only [List.all_cons, digit_ofNat n h, List.all_nil]; simp
    · rw [if_neg h]
      refine ⟨?_, by simp⟩
      rw [List.all_append, (ih _ (by omega)).1]; simp only [List.all_cons, digit_ofNat _ (show n % 10 < 10 by omega), List.all_nil]; simp

theorem decimal_length (n k : Nat) (hk : 0 < k) : n < 10 ^ k ↔ (decimal n).length ≤ k := by
  induction n using Nat.strongRecOn generalizing k with
  | _ n ih =>
    rw [decimal_eq]
    by_cases h : n < 10
    · rw [if_pos h]
      have : 10 ^ 1 ≤ 10 ^ k := Nat.pow_le_pow_right (by omega) hk
      simp; omega
    · rw [if_neg h]
      simp only [List.length_append, List.length_cons, List.length_nil]
      by_cases hk1 : k = 1
      · subst hk1
        have := (decimal_digits (n / 10)).2
        have := List.length_pos_iff.2 this
        rw [Nat.pow_one]; omega
      · have h2 := ih (n / 10) (by omega) (k - 1) (by omega)
        obtain ⟨j, rfl⟩ : ∃ j, k = j + 2 := ⟨k - 2, by omega⟩
        rw [show j + 2 - 1 = j + 1 by omega] at h2
        rw [show (10 : Nat) ^ (j + 2) = 10 ^ (j + 1) * 10 by rw [Nat.pow_succ]]
        generalize (10 : Nat) ^ (j + 1) = p at *
        omega

theorem digitChar_byte (k : Nat) (h : k < 10) : UInt8.ofNat (Nat.digitChar k).toNat = UInt8.ofNat (48 + k) := by
  have : ∀ k : Fin 10, UInt8.ofNat (Nat.digitChar k.val).toNat = UInt8.ofNat (48 + k.val) := by decide
  exact this ⟨k, h⟩

theorem natText_eq (n : Nat) : Str.natText n = decimal n := by
  induction n using Nat.strongRecOn with
  | _ n ih =>
    rw [decimal_eq, Str.natText, Nat.toDigits_eq_if (by omega)]
    by_cases h : n < 10
    · rw [if_pos h, if_pos h]; simp [digitChar_byte n h]
    · rw [if_neg h, if_neg h, List.map_append, ← ih _ (by omega)]
      simp [Str.natText, digitChar_byte _ (show n % 10 < 10 by omega)]

theorem decimalInt_numeral (v : Int) : Numeral (decimalInt v) (decide (v < 0)) v.natAbs [] := by
  rw [decimalInt]
  by_cases h : v < 0
  · rw [if_pos h]
    exact ⟨[], [45], decimal v.natAbs, by simp, rfl, by simp, by simp [h], (decimal_digits _).2, (decimal_digits _).1, by simp, (value_decimal _).symm⟩
  · rw [if_neg h]
    exact ⟨[], [], decimal v.natAbs, by simp, rfl, by simp, by simp [h], (decimal_digits _).2, (decimal_digits _).1, by simp, (value_decimal _).symm⟩

theorem decimal_nonzero (n : Nat) : (0 : UInt8) ∉ decimal n := by
  intro h
  have := (decimal_digits n).1
  rw [List.all_eq_true] at this
  exact (Str.digit_not 0 (this 0 h)).1 rfl

theorem decimalInt_nonzero (v : Int) : (0 : UInt8) ∉ decimalInt v := by
  rw [decimalInt]; split <;> simp [decimal_nonzero]

theorem decimalInt_length (v : Int) (h : v.natAbs < 10 ^ 19) : (decimalInt v).length ≤ 20 := by
  have := (decimal_length v.natAbs 19 (by omega)).1 h
  rw [decimalInt]; split <;> simp <;> omega
end NumSpec

/-- C40. `StringFromLong` writes the decimal text of the number and `StringToLong` reads back the same number, for every `long`. -/
theorem C40_roundtrip (v : Int) (h1 : -2 ^ 63 ≤ v) (h2 : v < 2 ^ 63) :
    ∃ m, Str.stringFromLong v = some m ∧ HoldsStr m (decimalInt v) ∧ Str.stringToLong (decimalInt v) = some (.ok v) := by
  have hn : (if v < 0 then 45 :: Str.natText v.natAbs else Str.natText v.natAbs) = decimalInt v := by
    rw [decimalInt, natText_eq]
  have hl := decimalInt_length v (by omega)
  have ht : (decimalInt v).take 31 = decimalInt v := List.take_of_length_le (by omega)
  refine ⟨(decimalInt v ++ [0]).map some ++ (List.replicate 32 (some 0)).drop (0 + (decimalInt v ++ [0]).length), ?_,
    ⟨decimalInt_nonzero v, (List.replicate 32 (some 0)).drop (0 + (decimalInt v ++ [0]).length), ?_⟩, ?_⟩
  · rw [Str.stringFromLong, hn, ht, store_eq (by simp; omega)]; simp
  · simp
  · have := ((C40_toLong (decimalInt v) (decimalInt_nonzero v)).2 _ _ _ (decimalInt_numeral v)).2.2
    have hs : signed (decide (v < 0)) v.natAbs = v := by
      rw [signed]; by_cases h : v < 0 <;> simp [h] <;> omega
    rw [hs] at this
    exact this h1 h2 (by intro c tl h; cases h)

example : decimalInt (-120) = [45, 49, 50, 48] := by decide +kernel

/-- C40. `StringDecimalToLong` on digits, optionally followed by a point and more characters: the value of the integer part, if that has at most
12 characters and something precedes the point; −84 when the part before the first point is longer. -/
theorem C40_decimalToLong (ds frac : List UInt8) (hd : ds.all digit = true) (hne : ds ≠ []) (hf : frac = [] ∨ ∃ tl, frac = 46 :: tl) (h0 : 0 ∉ frac) :
    (ds.length ≤ 12 → Str.stringDecimalToLong (ds ++ frac) = some (.ok (value ds : Int))) ∧
    (12 < ds.length → Str.stringDecimalToLong (ds ++ frac) = some (.error (-84))) := by
  have hlen : Str.strcspn (ds ++ frac) [46] = ds.length := by
    rw [Str.strcspn]
    have := (Str.takeWhile_app (p := fun c => !([46] : List UInt8).contains c) (a := ds) (b := frac) (by
      rw [List.all_eq_true] at hd ⊢
      intro c hc
      have := (Str.digit_not c (hd c hc)).2.2.2.2
      simp [this]) (by
      intro c tl h
      rcases hf with rfl | ⟨tl', rfl⟩
      · simp at h
      · cases h; simp)).1
    rw [this]
  have hp : Str.printsizeInt = 12 := rfl
  constructor
  · intro h
    have hz : 0 ∉ ds := by
      intro hz; rw [List.all_eq_true] at hd; exact (Str.digit_not 0 (hd 0 hz)).1 rfl
    have hnum : Numeral ds false (value ds) [] :=
      ⟨[], [], ds, by simp, rfl, by simp, by simp, hne, hd, by simp, rfl⟩
    have hval : value ds < 10 ^ ds.length := by
      have key : ∀ (ds : List UInt8), ds.all digit = true → ∀ a, ds.foldl (fun n c => 10 * n + (c.toNat - 48)) a < (a + 1) * 10 ^ ds.length := by
        intro ds
        induction ds with
        | nil => intro _ a; simp
        | cons c ds ih =>
          intro h a
          simp only [List.all_cons, Bool.and_eq_true] at h
          have hc : c.toNat ≤ 57 := by simp [digit] at h; omega
          have := ih h.2 (10 * a + (c.toNat - 48))
          simp only [List.foldl_cons, List.length_cons]
          refine Nat.lt_of_lt_of_le this ?_
          rw [Nat.pow_succ, Nat.mul_comm (10 ^ ds.length) 10, ← Nat.mul_assoc]
          exact Nat.mul_le_mul_right _ (by omega)
      have := key ds hd 0
      rw [value]; omega
    have hb : value ds < 10 ^ 12 := Nat.lt_of_lt_of_le hval (Nat.pow_le_pow_right (by omega) h)
    have hlong := ((C40_toLong ds hz).2 _ _ _ hnum).2.2 (by simp only [signed, Bool.false_eq_true, if_false]; omega)
      (by simp only [signed, Bool.false_eq_true, if_false]; omega) (by intro c tl h; cases h)
    have hpos : 0 < ds.length := List.length_pos_iff.2 hne
    unfold Str.stringDecimalToLong
    simp only [hlen, hp]
    rw [if_neg (by omega)]
    rcases hf with rfl | ⟨tl, rfl⟩
    · have hg : (ds ++ [] ++ [0])[ds.length]? = some 0 := by simp
      rw [hg]
      simp only [Option.bind_eq_bind, Option.bind_some]
      rw [if_pos (by simp), List.append_nil]; exact hlong
    · have hg : (ds ++ 46 :: tl ++ [0])[ds.length]? = some 46 := by simp
      rw [hg]
      simp only [Option.bind_eq_bind, Option.bind_some]
      rw [if_neg (by simp [hne]), List.take_left]; exact hlong
  · intro h
    unfold Str.stringDecimalToLong
    simp only [hlen, hp]
    rw [if_pos h]

example : Str.stringDecimalToLong [49, 50, 46, 57] = some (.ok 12) := rfl

/-- A point without an integer part is passed on as it is: ".5" gives −81 (no digits). -/
theorem C40_decimal_no_integer_part : Str.stringDecimalToLong [46, 53] = some (.error (-81)) := rfl

/-- C40. `StringToLongDefaultOnError` returns the number when the text is a terminated numeral that fits, and the default otherwise. -/
theorem C40_toLongDefault (s : List UInt8) (h0 : 0 ∉ s) (d : Int) :
    (∀ neg mag rest, Numeral s neg mag rest → -2 ^ 63 ≤ signed neg mag → signed neg mag < 2 ^ 63 → Terminated rest →
      Str.stringToLongDefault s d = some (signed neg mag)) ∧
    ((¬ ∃ neg mag rest, Numeral s neg mag rest ∧ -2 ^ 63 ≤ signed neg mag ∧ signed neg mag < 2 ^ 63 ∧ Terminated rest) →
      Str.stringToLongDefault s d = some d) := by
  obtain ⟨hno, hyes⟩ := C40_toLong s h0
  constructor
  · intro neg mag rest hn h1 h2 ht
    simp [Str.stringToLongDefault, (hyes _ _ _ hn).2.2 h1 h2 ht]
  · intro h
    by_cases hn : ∃ neg mag rest, Numeral s neg mag rest
    · obtain ⟨neg, mag, rest, hn⟩ := hn
      by_cases hr : -2 ^ 63 ≤ signed neg mag ∧ signed neg mag < 2 ^ 63
      · have ht : ¬ Terminated rest := fun ht => h ⟨neg, mag, rest, hn, hr.1, hr.2, ht⟩
        simp [Str.stringToLongDefault, (hyes _ _ _ hn).2.1 hr.1 hr.2 ht]
      · simp [Str.stringToLongDefault, (hyes _ _ _ hn).1 hr]
    · simp [Str.stringToLongDefault, hno hn]

example : Str.stringToLongDefault [45, 52, 50] 7 = some (-42) ∧ Str.stringToLongDefault [120] 7 = some 7 := ⟨rfl, rfl⟩
