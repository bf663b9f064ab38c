import Verif.Spec.Texts
import Verif.Props.StrNum
import Verif.Props.StrNumExt
import Verif.Props.StrCopy
/-! # C169, C170: timestamps and messages -/
namespace TextsSpec
open Texts

theorem two_nonzero (n : Nat) : (0 : UInt8) ∉ two n := by
  have h : ∀ k, k < 10 → (0 : UInt8) ≠ UInt8.ofNat (48 + k) := by decide
  simp only [two, List.mem_cons, List.not_mem_nil, or_false, not_or]
  exact ⟨h _ (Nat.mod_lt _ (by omega)), h _ (Nat.mod_lt _ (by omega))⟩

theorem yearText_eq (y : Int) : yearText y = NumSpec.decimalInt y := by
  rw [yearText, NumSpec.decimalInt, NumSpec.natText_eq]

theorem stamp_nonzero (t : Tm) : (0 : UInt8) ∉ stampText t := by
  have hz : (0 : UInt8) ∉ zoneText t := by
    rw [zoneText]
    split
    · simp
    · intro h
      rcases List.mem_cons.mp h with h | h
      · split at h <;> simp at h
      · rcases List.mem_append.mp h with h | h <;> exact two_nonzero _ h
  have hy : (0 : UInt8) ∉ yearText t.year := by rw [yearText_eq]; exact NumSpec.decimalInt_nonzero _
  simp only [stampText, List.mem_append, List.mem_singleton, not_or]
  refine ⟨⟨⟨⟨⟨⟨⟨⟨⟨⟨⟨hy, ?_⟩, ?_⟩, ?_⟩, ?_⟩, ?_⟩, ?_⟩, ?_⟩, ?_⟩, ?_⟩, ?_⟩, hz⟩ <;> first | exact two_nonzero _ | decide

theorem shows_of (n : Nat) (t : Tm) (hn : (stampText t).length < n) : Shows n t (stampText t) := by
  intro dest junk hd
  obtain ⟨m', e, hst⟩ := CMem.stored_of_store (m := dest) (t := []) (rest := dest) rfl (stampText t) n (by simpa using hn) hd (by simp) (stamp_nonzero t)
  simp only [List.length_nil, List.nil_append] at e hst
  refine ⟨m', ?_, hst⟩
  have hl : (stampText t).length ≠ 0 := by simp [stampText]
  simp only [loggingFormatTimestamp, strftime, if_pos hd, if_pos hn, e, Option.map_some, Option.bind_eq_bind, Option.bind_some, if_neg hl]

theorem four_digits (y : Int) (h : 1000 ≤ y ∧ y ≤ 9999) :
    yearText y = [UInt8.ofNat (48 + y.natAbs / 1000 % 10), UInt8.ofNat (48 + y.natAbs / 100 % 10), UInt8.ofNat (48 + y.natAbs / 10 % 10), UInt8.ofNat (48 + y.natAbs % 10)] := by
  obtain ⟨n, rfl⟩ : ∃ n : Nat, y = n := ⟨y.toNat, by omega⟩
  have h1 : 1000 ≤ n ∧ n ≤ 9999 := by omega
  rw [yearText, if_neg (by omega), Int.natAbs_natCast]
  rw [NumSpec.natText_eq, NumSpec.decimal_eq, if_neg (by omega), NumSpec.decimal_eq, if_neg (by omega), NumSpec.decimal_eq, if_neg (by omega), NumSpec.decimal_eq, if_pos (by omega)]
  have e1 : n / 10 / 10 = n / 100 := by omega
  have e2 : n / 100 / 10 = n / 1000 := by omega
  rw [e1, e2]
  have : n / 1000 % 10 = n / 1000 := by omega
  simp [this]

theorem digit_val (k : Nat) (h : k < 10) : (UInt8.ofNat (48 + k)).toNat = 48 + k := by
  simp; omega

theorem numberAt_two (pre post : Bytes) (n i : Nat) (hi : i = pre.length) (hn : n < 100) :
    numberAt (pre ++ (two n ++ post)) i 2 = some n := by
  subst hi
  have h1 := digit_val (n / 10 % 10) (by omega)
  have h2 := digit_val (n % 10) (by omega)
  have hr : ∀ k, k < 10 → 48 ≤ UInt8.ofNat (48 + k) ∧ UInt8.ofNat (48 + k) ≤ 57 := by decide
  simp only [numberAt, two, List.drop_left', List.cons_append, List.nil_append, List.take_succ_cons, List.take_zero, List.length_cons, List.length_nil,
    List.mem_cons, List.not_mem_nil, or_false, forall_eq_or_imp, forall_eq, List.foldl_cons, List.foldl_nil, h1, h2]
  rw [if_pos ⟨trivial, hr _ (by omega), hr _ (by omega)⟩]
  congr 1; omega

theorem numberAt_four (post : Bytes) (y : Int) (h : 1000 ≤ y ∧ y ≤ 9999) :
    numberAt (yearText y ++ post) 0 4 = some y.toNat := by
  have h1 := digit_val (y.natAbs / 1000 % 10) (by omega)
  have h2 := digit_val (y.natAbs / 100 % 10) (by omega)
  have h3 := digit_val (y.natAbs / 10 % 10) (by omega)
  have h4 := digit_val (y.natAbs % 10) (by omega)
  have hr : ∀ k, k < 10 → 48 ≤ UInt8.ofNat (48 + k) ∧ UInt8.ofNat (48 + k) ≤ 57 := by decide
  simp only [numberAt, four_digits y h, List.drop_zero, List.cons_append, List.nil_append, List.take_succ_cons, List.take_zero, List.length_cons, List.length_nil,
    List.mem_cons, List.not_mem_nil, or_false, forall_eq_or_imp, forall_eq, List.foldl_cons, List.foldl_nil, h1, h2, h3, h4]
  rw [if_pos ⟨trivial, hr _ (by omega), hr _ (by omega), hr _ (by omega), hr _ (by omega)⟩]
  congr 1; omega

/-- Lists of the same length are compared before what follows them. -/
theorem append_lt (a b r s : Bytes) (h : a.length = b.length) : a ++ r < b ++ s ↔ a < b ∨ a = b ∧ r < s := by
  induction a generalizing b with
  | nil =>
    cases b with
    | nil => simp
    | cons _ _ => simp at h
  | cons x a ih =>
    cases b with
    | nil => simp at h
    | cons y b =>
      have := ih b (by simpa using h)
      simp only [List.cons_append, List.cons_lt_cons_iff, this, List.cons.injEq]
      constructor
      · rintro (h | ⟨rfl, h | ⟨rfl, h'⟩⟩)
        · exact Or.inl (Or.inl h)
        · exact Or.inl (Or.inr ⟨rfl, h⟩)
        · exact Or.inr ⟨⟨rfl, rfl⟩, h'⟩
      · rintro ((h | ⟨rfl, h'⟩) | ⟨⟨rfl, rfl⟩, h'⟩)
        · exact Or.inl h
        · exact Or.inr ⟨rfl, Or.inl h'⟩
        · exact Or.inr ⟨rfl, Or.inr ⟨rfl, h'⟩⟩

theorem digit_lt (j k : Nat) (hj : j < 10) (hk : k < 10) : UInt8.ofNat (48 + j) < UInt8.ofNat (48 + k) ↔ j < k := by
  rw [UInt8.lt_iff_toNat_lt, digit_val j hj, digit_val k hk]; omega

theorem digit_eq (j k : Nat) (hj : j < 10) (hk : k < 10) : UInt8.ofNat (48 + j) = UInt8.ofNat (48 + k) ↔ j = k := by
  rw [← UInt8.toNat_inj, digit_val j hj, digit_val k hk]; omega

theorem two_lt (m n : Nat) (hm : m < 100) (hn : n < 100) : two m < two n ↔ m < n := by
  simp only [two, List.cons_lt_cons_iff, digit_lt _ _ (Nat.mod_lt (m / 10) (show 10 > 0 by omega)) (Nat.mod_lt (n / 10) (show 10 > 0 by omega)),
    digit_lt _ _ (Nat.mod_lt m (show 10 > 0 by omega)) (Nat.mod_lt n (show 10 > 0 by omega)),
    digit_eq _ _ (Nat.mod_lt (m / 10) (show 10 > 0 by omega)) (Nat.mod_lt (n / 10) (show 10 > 0 by omega)), List.lt_irrefl, and_false, or_false]
  omega

theorem two_eq (m n : Nat) (hm : m < 100) (hn : n < 100) : two m = two n ↔ m = n := by
  simp only [two, List.cons.injEq, digit_eq _ _ (Nat.mod_lt m (show 10 > 0 by omega)) (Nat.mod_lt n (show 10 > 0 by omega)),
    digit_eq _ _ (Nat.mod_lt (m / 10) (show 10 > 0 by omega)) (Nat.mod_lt (n / 10) (show 10 > 0 by omega)), and_true]
  omega

theorem digits_of (m : Int) (hm : 1000 ≤ m ∧ m ≤ 9999) : ∃ a b c d : Nat, m.natAbs / 1000 % 10 = a ∧ m.natAbs / 100 % 10 = b ∧ m.natAbs / 10 % 10 = c ∧ m.natAbs % 10 = d ∧
    m = 1000 * a + 100 * b + 10 * c + d ∧ a < 10 ∧ b < 10 ∧ c < 10 ∧ d < 10 :=
  ⟨_, _, _, _, rfl, rfl, rfl, rfl, by omega, by omega, by omega, by omega, by omega⟩

theorem year_lt (m n : Int) (hm : 1000 ≤ m ∧ m ≤ 9999) (hn : 1000 ≤ n ∧ n ≤ 9999) : yearText m < yearText n ↔ m < n := by
  obtain ⟨a, b, c, d, e1, e2, e3, e4, e5, l1, l2, l3, l4⟩ := digits_of m hm
  obtain ⟨a', b', c', d', e1', e2', e3', e4', e5', l1', l2', l3', l4'⟩ := digits_of n hn
  rw [four_digits m hm, four_digits n hn, e1, e2, e3, e4, e1', e2', e3', e4']
  simp only [List.cons_lt_cons_iff, digit_lt _ _ l1 l1', digit_eq _ _ l1 l1', digit_lt _ _ l2 l2', digit_eq _ _ l2 l2', digit_lt _ _ l3 l3', digit_eq _ _ l3 l3',
    digit_lt _ _ l4 l4', List.lt_irrefl, and_false, or_false]
  omega

theorem year_eq (m n : Int) (hm : 1000 ≤ m ∧ m ≤ 9999) (hn : 1000 ≤ n ∧ n ≤ 9999) : yearText m = yearText n ↔ m = n := by
  obtain ⟨a, b, c, d, e1, e2, e3, e4, e5, l1, l2, l3, l4⟩ := digits_of m hm
  obtain ⟨a', b', c', d', e1', e2', e3', e4', e5', l1', l2', l3', l4'⟩ := digits_of n hn
  rw [four_digits m hm, four_digits n hn, e1, e2, e3, e4, e1', e2', e3', e4']
  simp only [List.cons.injEq, digit_eq _ _ l1 l1', digit_eq _ _ l2 l2', digit_eq _ _ l3 l3', digit_eq _ _ l4 l4', and_true]
  omega

theorem sep_lt (c : UInt8) (r s : Bytes) : [c] ++ r < [c] ++ s ↔ r < s := by
  simp [List.cons_lt_cons_iff]

theorem two_append (m n : Nat) (hm : m < 100) (hn : n < 100) (r s : Bytes) : two m ++ r < two n ++ s ↔ m < n ∨ m = n ∧ r < s := by
  rw [append_lt (two m) (two n) r s rfl, two_lt m n hm hn, two_eq m n hm hn]

theorem year_append (m n : Int) (hm : 1000 ≤ m ∧ m ≤ 9999) (hn : 1000 ≤ n ∧ n ≤ 9999) (r s : Bytes) :
    yearText m ++ r < yearText n ++ s ↔ m < n ∨ m = n ∧ r < s := by
  rw [append_lt _ _ _ _ (by rw [four_digits m hm, four_digits n hn]; rfl), year_lt m n hm hn, year_eq m n hm hn]

end TextsSpec

open Texts TextsSpec StrSpec

/-- **C169**. For every time, every size and every memory, `LoggingFormatTimestamp` writes only into the `n` bytes given, and leaves a
terminated string there if `n` is not 0. If it returns true the string is the timestamp; it returns false only if that and its
terminator do not fit, and then the string is `<unknown>`, cut if necessary. -/
theorem C169_always_a_string (t : Tm) (n : Nat) (dest junk : List (Option UInt8)) (hn : 0 < n) (hd : n ≤ dest.length) :
    ∃ text : Bytes, ∃ m b, loggingFormatTimestamp dest n t junk = some (m, b) ∧
      ((b = true ∧ Shows n t text ∧ Stored dest m n text) ∨ (b = false ∧ (∀ text, ¬ Shows n t text) ∧ Stored dest m n ((bytes! "<unknown>").take (n - 1)))) := by
  by_cases h : (stampText t).length < n
  · obtain ⟨m, e, hs⟩ := shows_of n t h dest junk hd
    exact ⟨_, m, true, e, Or.inl ⟨rfl, shows_of n t h, hs⟩⟩
  · have hlen : ∀ junk, (List.take n junk ++ List.replicate (n - List.length junk) none ++ List.drop n dest).length = dest.length := by
      intro junk
      simp only [List.length_append, List.length_take, List.length_replicate, List.length_drop]; omega
    have hdrop : ∀ junk, (List.take n junk ++ List.replicate (n - List.length junk) none ++ List.drop n dest).drop n = dest.drop n := by
      intro junk
      rw [List.drop_left']
      simp only [List.length_append, List.length_take, List.length_replicate]; omega
    have key : ∀ junk, ∃ m, loggingFormatTimestamp dest n t junk = some (m, false) ∧ Stored dest m n ((bytes! "<unknown>").take (n - 1)) := by
      intro junk
      obtain ⟨m, e, hs⟩ := C37_strlcpy (bytes! "<unknown>") (List.take n junk ++ List.replicate (n - List.length junk) none ++ List.drop n dest) n (by decide) hn (by rw [hlen]; exact hd)
      refine ⟨m, ?_, ⟨by rw [hs.size, hlen], by rw [hs.outside, hdrop], hs.3, hs.4⟩⟩
      simp only [loggingFormatTimestamp, strftime, if_pos hd, if_neg h, Option.bind_eq_bind, Option.bind_some, if_true, e]
    obtain ⟨m, e, hs⟩ := key junk
    refine ⟨[], m, false, e, Or.inr ⟨rfl, fun text hsh => ?_, hs⟩⟩
    obtain ⟨m', e', _⟩ := hsh dest junk hd
    rw [e] at e'
    simp at e'

/-- **C169**. An ordinary time is shown in 24 characters whenever 25 bytes are given: year, month (counted from 1), day, hour, minute and second in
decimal at fixed places with fixed separators, then the sign of the zone, its hours and its minutes. -/
theorem C169_text (t : Tm) (h : Ordinary t) :
    ∃ text, text.length = 24 ∧ (∀ n, 25 ≤ n → Shows n t text) ∧
      numberAt text 0 4 = some t.year.toNat ∧ text[4]? = some 45 ∧ numberAt text 5 2 = some (t.mon + 1) ∧ text[7]? = some 45 ∧
      numberAt text 8 2 = some t.mday ∧ text[10]? = some 84 ∧ numberAt text 11 2 = some t.hour ∧ text[13]? = some 58 ∧
      numberAt text 14 2 = some t.min ∧ text[16]? = some 58 ∧ numberAt text 17 2 = some t.sec ∧
      text[19]? = some (if t.gmtoff < 0 then 45 else 43) ∧
      ∃ hh mm, numberAt text 20 2 = some hh ∧ numberAt text 22 2 = some mm ∧ mm < 60 ∧ 60 * hh + mm = t.gmtoff.natAbs / 60 := by
  have hy := four_digits t.year h.year
  have hz : zoneText t = (if t.gmtoff < 0 then 45 else 43) :: (two (t.gmtoff.natAbs / 60 / 60) ++ two (t.gmtoff.natAbs / 60 % 60)) := by
    rw [zoneText, if_neg]; have := h.isdst; omega
  have hl : (stampText t).length = 24 := by rw [stampText, hy, hz]; rfl
  have h0 := h.year
  have h1 := h.mon
  have h2 := h.mday
  have h3 := h.hour
  have h4 := h.min
  have h5 := h.sec
  have h6 := h.zone
  refine ⟨stampText t, hl, fun n hn => shows_of n t (by omega), ?_⟩
  have ey : (yearText t.year).length = 4 := by rw [hy]; rfl
  refine ⟨?_, ?_, ?_, ?_, ?_, ?_, ?_, ?_, ?_, ?_, ?_, ?_, t.gmtoff.natAbs / 60 / 60, t.gmtoff.natAbs / 60 % 60, ?_, ?_, by omega, by omega⟩
  · simp only [stampText, List.append_assoc]; exact numberAt_four _ _ h.year
  · rw [stampText, hy]; rfl
  · have := numberAt_two (yearText t.year ++ [45]) ([45] ++ two t.mday ++ [84] ++ two t.hour ++ [58] ++ two t.min ++ [58] ++ two t.sec ++ zoneText t) (t.mon + 1) 5 (by simp [ey]) (by omega)
    simpa only [stampText, List.append_assoc] using this
  · rw [stampText, hy]; rfl
  · have := numberAt_two (yearText t.year ++ [45] ++ two (t.mon + 1) ++ [45]) ([84] ++ two t.hour ++ [58] ++ two t.min ++ [58] ++ two t.sec ++ zoneText t) t.mday 8 (by simp [ey, two]) (by omega)
    simpa only [stampText, List.append_assoc] using this
  · rw [stampText, hy]; rfl
  · have := numberAt_two (yearText t.year ++ [45] ++ two (t.mon + 1) ++ [45] ++ two t.mday ++ [84]) ([58] ++ two t.min ++ [58] ++ two t.sec ++ zoneText t) t.hour 11 (by simp [ey, two]) (by omega)
    simpa only [stampText, List.append_assoc] using this
  · rw [stampText, hy]; rfl
  · have := numberAt_two (yearText t.year ++ [45] ++ two (t.mon + 1) ++ [45] ++ two t.mday ++ [84] ++ two t.hour ++ [58]) ([58] ++ two t.sec ++ zoneText t) t.min 14 (by simp [ey, two]) (by omega)
    simpa only [stampText, List.append_assoc] using this
  · rw [stampText, hy]; rfl
  · have := numberAt_two (yearText t.year ++ [45] ++ two (t.mon + 1) ++ [45] ++ two t.mday ++ [84] ++ two t.hour ++ [58] ++ two t.min ++ [58]) (zoneText t) t.sec 17 (by simp [ey, two]) (by omega)
    simpa only [stampText, List.append_assoc] using this
  · rw [stampText, hy, hz]; rfl
  · have := numberAt_two (yearText t.year ++ [45] ++ two (t.mon + 1) ++ [45] ++ two t.mday ++ [84] ++ two t.hour ++ [58] ++ two t.min ++ [58] ++ two t.sec ++ [if t.gmtoff < 0 then 45 else 43])
      (two (t.gmtoff.natAbs / 60 % 60)) (t.gmtoff.natAbs / 60 / 60) 20 (by simp [ey, two]) (by omega)
    rw [stampText, hz]
    simpa only [List.append_assoc, List.singleton_append, List.cons_append, List.nil_append] using this
  · have := numberAt_two (yearText t.year ++ [45] ++ two (t.mon + 1) ++ [45] ++ two t.mday ++ [84] ++ two t.hour ++ [58] ++ two t.min ++ [58] ++ two t.sec ++ [if t.gmtoff < 0 then 45 else 43] ++
      two (t.gmtoff.natAbs / 60 / 60)) [] (t.gmtoff.natAbs / 60 % 60) 22 (by simp [ey, two]) (by omega)
    rw [stampText, hz]
    simpa only [List.append_assoc, List.append_nil, List.singleton_append, List.cons_append, List.nil_append] using this

/-- **C169**. Timestamps of the same zone sort as texts, byte by byte, in the order of the clock. -/
theorem C169_texts_sort_in_time_order (a b : Tm) (ha : Ordinary a) (hb : Ordinary b) (hz : a.gmtoff = b.gmtoff) :
    ∃ ta tb, (∀ n, 25 ≤ n → Shows n a ta) ∧ (∀ n, 25 ≤ n → Shows n b tb) ∧ (ta < tb ↔ Earlier a b) := by
  have hzt : zoneText a = zoneText b := by
    have := ha.isdst; have := hb.isdst
    rw [zoneText, zoneText, if_neg (show ¬ a.isdst < 0 by omega), if_neg (show ¬ b.isdst < 0 by omega), hz]
  have hl : ∀ t, Ordinary t → (stampText t).length = 24 := by
    intro t h
    have := h.isdst
    rw [stampText, four_digits t.year h.year, zoneText, if_neg (by omega)]; rfl
  refine ⟨stampText a, stampText b, fun n hn => shows_of n a (by rw [hl a ha]; omega), fun n hn => shows_of n b (by rw [hl b hb]; omega), ?_⟩
  have a1 := ha.mon
  have a2 := ha.mday
  have a3 := ha.hour
  have a4 := ha.min
  have a5 := ha.sec
  have b1 := hb.mon
  have b2 := hb.mday
  have b3 := hb.hour
  have b4 := hb.min
  have b5 := hb.sec
  simp only [stampText, List.append_assoc]
  rw [year_append _ _ ha.year hb.year, sep_lt, two_append _ _ (by omega) (by omega), sep_lt, two_append _ _ (by omega) (by omega), sep_lt, two_append _ _ (by omega) (by omega), sep_lt,
    two_append _ _ (by omega) (by omega), sep_lt, two_append _ _ (by omega) (by omega), hzt]
  simp only [List.lt_irrefl, and_false, or_false, Nat.add_lt_add_iff_right, Nat.add_right_cancel_iff, Earlier]

/-- **C169**. The 64 bytes that the log uses are enough for every time a 32-bit year can denote. -/
theorem C169_sixty_four_bytes_suffice (t : Tm) (h : t.year.natAbs < 10 ^ 10) : ∃ text, Shows 64 t text := by
  refine ⟨stampText t, shows_of 64 t ?_⟩
  have h1 : (yearText t.year).length ≤ 11 := by
    have := (NumSpec.decimal_length t.year.natAbs 10 (by omega)).mp h
    rw [yearText_eq, NumSpec.decimalInt]
    split <;> simp <;> omega
  have h2 : (zoneText t).length ≤ 5 := by
    rw [zoneText]; split <;> simp [two]
  simp only [stampText, List.length_append, two, List.length_cons, List.length_nil]
  omega

/-- A summer evening. -/
def evening : Tm := ⟨2021, 6, 9, 21, 5, 7, 7200, 1⟩

example : Ordinary evening := ⟨by decide, by decide, by decide, by decide, by decide, by decide, by decide, by decide⟩
example : stampText evening = bytes! "2021-07-09T21:05:07+0200" := by decide +kernel
example : (loggingFormatTimestamp (List.replicate 12 none) 8 evening []).map (fun r => (r.1.take 8, r.2)) = some ((bytes! "<unknow").map some ++ [some 0], false) := by decide +kernel

namespace TextsSpec

theorem intText_eq (n : Int) : intText n = NumSpec.decimalInt n := by rw [intText, NumSpec.decimalInt, NumSpec.natText_eq]

theorem decimalInt_inj (v w : Int) (h : NumSpec.decimalInt v = NumSpec.decimalInt w) : v = w := by
  have h1 := NumSpec.decimalInt_numeral v
  rw [h] at h1
  obtain ⟨e1, e2, _⟩ := C40_numeral_unique _ _ _ _ _ _ _ h1 (NumSpec.decimalInt_numeral w)
  simp only [decide_eq_decide] at e1
  omega

theorem decimalInt_no_newline (v : Int) : ∀ c ∈ NumSpec.decimalInt v, c ≠ 10 := by
  have hd := (NumSpec.decimal_digits v.natAbs).1
  rw [List.all_eq_true] at hd
  have key : ∀ c : UInt8, TrimSpec.digit c = true → c ≠ 10 := by
    rintro c hc rfl; simp [TrimSpec.digit] at hc
  rw [NumSpec.decimalInt]
  split
  · intro c hc
    rcases List.mem_cons.mp hc with rfl | hc
    · decide
    · exact key c (hd c hc)
  · intro c hc; exact key c (hd c hc)

theorem line_inj (a b : Bytes) (k : Nat) (ha : a.length ≤ k) (hb : b.length ≤ k) (na : ∀ c ∈ a, c ≠ 10) (nb : ∀ c ∈ b, c ≠ 10)
    (h : (a ++ [10]).take k = (b ++ [10]).take k) : a = b := by
  have key : ∀ l : Bytes, l.length ≤ k → (∀ c ∈ l, c ≠ 10) → l = ((l ++ [10]).take k).takeWhile (fun c => c != 10) := by
    intro l hl hn
    have h0 : ∀ c ∈ l, (c != 10) = true := by intro c hc; simpa using hn c hc
    rw [List.take_append]
    rw [List.take_of_length_le hl]
    rw [List.takeWhile_append_of_pos h0]
    cases hx : k - l.length with
    | zero => simp
    | succ m => simp
  rw [key a ha na, key b hb nb, h]

theorem decimalInt_len (v : Int) (k : Nat) (hk : 0 < k) (h1 : v < 10 ^ k) (h2 : -(10 ^ (k - 1)) < v) (hk1 : 1 < k) : (NumSpec.decimalInt v).length ≤ k := by
  rw [NumSpec.decimalInt]
  split
  · have : v.natAbs < 10 ^ (k - 1) := by
      have : ((10 : Int) ^ (k - 1)) = ((10 ^ (k - 1) : Nat) : Int) := by simp
      omega
    have := (NumSpec.decimal_length v.natAbs (k - 1) (by omega)).mp this
    simp; omega
  · have : v.natAbs < 10 ^ k := by
      have : ((10 : Int) ^ k) = ((10 ^ k : Nat) : Int) := by simp
      omega
    exact (NumSpec.decimal_length v.natAbs k hk).mp this

theorem str_of (rest : List (Option UInt8)) : ∀ l : Bytes, 0 ∉ l → CMem.str (l.map some ++ some 0 :: rest) = some l := by
  intro l
  induction l with
  | nil => intro _; simp [CMem.str]
  | cons c l ih =>
    intro hc
    have hc0 : c ≠ 0 := by rintro rfl; simp at hc
    have := ih (by intro h; exact hc (by simp [h]))
    simp [CMem.str, hc0, this]

theorem errorStr_step (size : Nat) (t : Bytes) (h0 : 0 ∉ t) (hne : t ≠ []) (hu : t.length < size) :
    ∃ m1 rest, errorStr size (some t) = (if t.length < 2 then none else (CMem.write m1 (t.length - 1) (some 0)).bind fun e => CMem.write e (t.length - 2) (some 0)) ∧
      m1 = t.map some ++ some 0 :: rest ∧ m1.length = size := by
  obtain ⟨m1, e1, s1⟩ := CMem.stored_of_store (m := List.replicate size (some 0)) (t := []) (rest := List.replicate size (some 0)) rfl t size
    (by simpa using hu) (by simp) (by simp) h0
  simp only [List.length_nil, List.nil_append] at e1 s1
  obtain ⟨_, rest, hm⟩ := s1.string
  have hlen := s1.size
  have hstr : CMem.strlen m1 0 = some t.length := by simp [CMem.strlen, hm, str_of rest t h0]
  have hf : (some t).filter (fun t => decide (t.length < size ∧ t ≠ [])) = some t := by
    simp [Option.filter, hu, hne]
  refine ⟨m1, rest, ?_, hm, by simpa using hlen⟩
  simp only [errorStr, hf, Option.bind_eq_bind, e1, Option.bind_some, hstr]

theorem errorStr_ok (size : Nat) (t : Bytes) (h0 : 0 ∉ t) (hl : 2 ≤ t.length) (hu : t.length < size) :
    ∃ m, errorStr size (some t) = some m ∧ StrSpec.HoldsStr m (t.take (t.length - 2)) := by
  obtain ⟨m1, rest, e, hm, hlen⟩ := errorStr_step size t h0 (by rintro rfl; simp at hl) hu
  have w1 : CMem.write m1 (t.length - 1) (some 0) = some (m1.set (t.length - 1) (some 0)) := CMem.write_eq (by omega)
  have w2 : CMem.write (m1.set (t.length - 1) (some 0)) (t.length - 2) (some 0) = some ((m1.set (t.length - 1) (some 0)).set (t.length - 2) (some 0)) :=
    CMem.write_eq (by rw [List.length_set]; omega)
  refine ⟨(m1.set (t.length - 1) (some 0)).set (t.length - 2) (some 0), ?_, ?_, ?_⟩
  · rw [e, if_neg (by omega), w1, Option.bind_some, w2]
  · intro hc; exact h0 (List.mem_of_mem_take hc)
  · refine ⟨(m1.set (t.length - 1) (some 0)).drop (t.length - 1), ?_⟩
    have hlt : t.length - 2 < (m1.set (t.length - 1) (some 0)).length := by rw [List.length_set]; omega
    rw [List.set_eq_take_append_cons_drop, if_pos hlt, List.take_set_of_le (by omega), show t.length - 2 + 1 = t.length - 1 by omega]
    congr 1
    rw [hm, List.take_append_of_le_length (by simp), List.map_take]

end TextsSpec

/-- **C170**. On Windows, for every system message of at least two and at most 4095 characters, `GetErrorStrFromCode` gives the message without its last two
characters, which the system makes a carriage return and a newline; and `Unknown error` if there is no message. -/
theorem C170_windows_messages (t : Bytes) (h0 : 0 ∉ t) (hl : 2 ≤ t.length) (hu : t.length < 4096) :
    (∃ m, getErrorStrFromCode (some t) = some m ∧ HoldsStr m (t.take (t.length - 2))) ∧
    ∃ m, getErrorStrFromCode none = some m ∧ HoldsStr m (bytes! "Unknown error") := by
  refine ⟨errorStr_ok 4096 t h0 hl hu, ?_⟩
  have h : ∀ k, 14 ≤ k → ∃ m, errorStr k none = some m ∧ HoldsStr m (bytes! "Unknown error") := by
    intro k hk
    obtain ⟨m1, e1, s1⟩ := CMem.stored_of_store (m := List.replicate k (some 0)) (t := []) (rest := List.replicate k (some 0)) rfl (bytes! "Unknown error") k
      (by simp; omega) (by simp) (by simp) (by decide)
    simp only [List.length_nil, List.nil_append] at e1 s1
    exact ⟨m1, e1, s1.string⟩
  exact h 4096 (by omega)

/-- **C170**, a finding. For a message of one character the function writes before its array. -/
theorem C170_windows_short_message_negated (c : UInt8) (h : c ≠ 0) : getErrorStrFromCode (some [c]) = none := by
  obtain ⟨m1, rest, e, _⟩ := errorStr_step 4096 [c] (by simpa using h.symm) (by simp) (by simp)
  rw [getErrorStrFromCode, cfBufSize, e]; rfl

/-- **C170**. The replacement of `strerror` gives the number in full, and a newline, for numbers of up to five characters; numbers of up to six characters can
be told apart by their texts. -/
theorem C170_strerror (e : Int) :
    (-9999 ≤ e ∧ e ≤ 99999 → strerror e = bytes! "Error number " ++ NumSpec.decimalInt e ++ [10]) ∧
    (-99999 ≤ e ∧ e ≤ 999999 → ∀ e', -99999 ≤ e' ∧ e' ≤ 999999 → strerror e = strerror e' → e = e') := by
  constructor
  · intro h
    have := decimalInt_len e 5 (by omega) (by omega) (by omega) (by omega)
    rw [strerror, snprintf, intText_eq, List.take_of_length_le]
    simp; omega
  · intro h e' h' heq
    have l1 := decimalInt_len e 6 (by omega) (by omega) (by omega) (by omega)
    have l2 := decimalInt_len e' 6 (by omega) (by omega) (by omega) (by omega)
    simp only [strerror, snprintf, intText_eq, List.append_assoc] at heq
    have heq : (NumSpec.decimalInt e ++ [10]).take 6 = (NumSpec.decimalInt e' ++ [10]).take 6 := by simpa using heq
    exact decimalInt_inj e e' (line_inj _ _ 6 l1 l2 (decimalInt_no_newline e) (decimalInt_no_newline e') heq)

/-- **C170**, a finding. Longer numbers are cut: these two errors have the same text, and it has no newline. -/
theorem C170_strerror_cuts_negated : strerror 1234567 = strerror 1234568 ∧ strerror 123456 = bytes! "Error number 123456" := by
  decide +kernel

/-- **C170**. The replacement of `strsignal` gives the number in full for numbers of up to seven characters, more than there are signals. -/
theorem C170_strsignal (n : Int) (h : -999999 ≤ n ∧ n ≤ 9999999) : strsignal n = bytes! "Signal #" ++ NumSpec.decimalInt n := by
  have := decimalInt_len n 7 (by omega) (by omega) (by omega) (by omega)
  rw [strsignal, snprintf, intText_eq, List.take_of_length_le]
  simp; omega

/-- **C170**. When `StringToLongExitOnError` or `StringToInt64ExitOnError` ends the program, the message gives the true reason: no digits exactly if the text has
no numeral, overflow exactly if it has one that does not fit, not terminated exactly if it has one that fits and is followed by something else. -/
theorem C170_reason_for_long (s : Bytes) (h0 : 0 ∉ s) (code logged : Int)
    (h : Str.stringToLongExit s = some (.exits code logged) ∨ Str.stringToInt64Exit s = some (.exits code logged)) :
    (conversionError logged = bytes! "No digits" ∧ ¬ ∃ neg mag rest, NumSpec.Numeral s neg mag rest) ∨
    (∃ neg mag rest, NumSpec.Numeral s neg mag rest ∧
      ((conversionError logged = bytes! "Overflow" ∧ ¬ (-2 ^ 63 ≤ NumSpec.signed neg mag ∧ NumSpec.signed neg mag < 2 ^ 63)) ∨
        (conversionError logged = bytes! "Not terminated" ∧ -2 ^ 63 ≤ NumSpec.signed neg mag ∧ NumSpec.signed neg mag < 2 ^ 63 ∧ ¬ NumSpec.Terminated rest))) := by
  obtain ⟨hno, hyes⟩ := C40_toLong s h0
  have hh : ∀ e, Str.stringToLong s = some (.error e) → logged = e := by
    intro e he
    rcases h with h | h <;> simp [Str.stringToLongExit, Str.stringToInt64Exit, he] at h <;> exact h.2.symm
  by_cases hn : ∃ neg mag rest, NumSpec.Numeral s neg mag rest
  · right
    obtain ⟨neg, mag, rest, hn⟩ := hn
    refine ⟨neg, mag, rest, hn, ?_⟩
    by_cases hr : -2 ^ 63 ≤ NumSpec.signed neg mag ∧ NumSpec.signed neg mag < 2 ^ 63
    · by_cases ht : NumSpec.Terminated rest
      · have := (hyes _ _ _ hn).2.2 hr.1 hr.2 ht
        rcases h with h | h <;> simp [Str.stringToLongExit, Str.stringToInt64Exit, this] at h
      · right
        rw [hh _ ((hyes _ _ _ hn).2.1 hr.1 hr.2 ht)]
        exact ⟨by decide, hr.1, hr.2, ht⟩
    · left
      rw [hh _ ((hyes _ _ _ hn).1 hr)]
      exact ⟨by decide, hr⟩
  · left
    rw [hh _ (hno hn)]
    exact ⟨by decide, hn⟩

/-- **C170**. The same for `StringToUlongExitOnError`. -/
theorem C170_reason_for_ulong (s : Bytes) (h0 : 0 ∉ s) (code logged : Int) (h : Str.stringToUlongExit s = some (.exits code logged)) :
    (conversionError logged = bytes! "No digits" ∧ ¬ ∃ neg mag rest, NumSpec.Numeral s neg mag rest) ∨
    (∃ neg mag rest, NumSpec.Numeral s neg mag rest ∧
      ((conversionError logged = bytes! "Overflow" ∧ ¬ (0 ≤ NumSpec.signed neg mag ∧ NumSpec.signed neg mag < 2 ^ 64)) ∨
        (conversionError logged = bytes! "Not terminated" ∧ 0 ≤ NumSpec.signed neg mag ∧ NumSpec.signed neg mag < 2 ^ 64 ∧ ¬ NumSpec.Terminated rest))) := by
  obtain ⟨hno, hyes⟩ := C40_toUlong s h0
  have hh : ∀ e, Str.stringToUlong s = some (.error e) → logged = e := by
    intro e he
    simp [Str.stringToUlongExit, he] at h; exact h.2.symm
  by_cases hn : ∃ neg mag rest, NumSpec.Numeral s neg mag rest
  · right
    obtain ⟨neg, mag, rest, hn⟩ := hn
    refine ⟨neg, mag, rest, hn, ?_⟩
    by_cases hr : 0 ≤ NumSpec.signed neg mag ∧ NumSpec.signed neg mag < 2 ^ 64
    · by_cases ht : NumSpec.Terminated rest
      · have := (hyes _ _ _ hn).2.2 hr.1 hr.2 ht
        simp [Str.stringToUlongExit, this] at h
      · right
        rw [hh _ ((hyes _ _ _ hn).2.1 hr.1 hr.2 ht)]
        exact ⟨by decide, hr.1, hr.2, ht⟩
    · left
      rw [hh _ ((hyes _ _ _ hn).1 hr)]
      exact ⟨by decide, hr⟩
  · left
    rw [hh _ (hno hn)]
    exact ⟨by decide, hn⟩

example : (getErrorStrFromCode (some (bytes! "Access is denied.\r\n"))).map (·.take 18) = some ((bytes! "Access is denied.").map some ++ [some 0]) := by decide +kernel
example : strerror (-2) = bytes! "Error number -2\n" ∧ strsignal 11 = bytes! "Signal #11" := by decide +kernel
example : Str.stringToLongExit (bytes! "12x") = some (.exits 1 (-83)) := rfl
