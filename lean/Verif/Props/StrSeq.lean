import Verif.Model.StrSeq
import Verif.Props.Io
import Verif.Props.StrCopy
import Verif.Props.StrNum
/-! # C30, C31, C69, C70: sequences of strings -/
open SeqStrSpec NumSpec TrimSpec

namespace StrSeq

theorem hasNul_ok (m : List UInt8) : ∀ (n i : Nat), (i + n ≤ m.length ∨ 0 ∈ (m.drop i).take n) → hasNul m i n = some (decide (0 ∈ (m.drop i).take n)) := by
  intro n
  induction n with
  | zero => intro i _; simp [hasNul]
  | succ n ih =>
    intro i h
    have hi : i < m.length := by
      rcases h with h | h
      · omega
      · apply Classical.byContradiction
        intro hc
        rw [List.drop_of_length_le (by omega)] at h; simp at h
    rw [hasNul, List.getElem?_eq_getElem hi]
    simp only [Option.bind_eq_bind, Option.bind_some]
    rw [show m.drop i = m[i] :: m.drop (i + 1) from List.drop_eq_getElem_cons hi, List.take_succ_cons] at h ⊢
    by_cases hz : m[i] = 0
    · rw [if_pos hz]; simp [hz]
    · rw [if_neg hz, ih (i + 1)]
      · congr 1
        have : (0 : UInt8) ≠ m[i] := fun e => hz e.symm
        simp [List.mem_cons, this]
      · rcases h with h | h
        · exact Or.inl (by omega)
        · right
          rcases List.mem_cons.1 h with h | h
          · exact absurd h.symm hz
          · exact h

theorem scan_digits (ds r : List UInt8) (hne : ds ≠ []) (hd : ds.all digit = true) (hr : ∀ c tl, r = c :: tl → digit c = false) (hrn : r ≠ []) :
    scanLong (ds ++ r) = some (some ((min (value ds) (2 ^ 63 - 1) : Nat) : Int)) := by
  have hn : Numeral (ds ++ r) false (value ds) r := ⟨[], [], ds, by simp, rfl, by simp, by simp, hne, hd, hr, rfl⟩
  have hp := Str.parse_numeral _ _ _ _ hn
  have hl : r.length > 0 := List.length_pos_iff.2 hrn
  rw [scanLong, hp]
  simp only
  rw [if_pos (by simp; omega), Str.strtol, hp]
  simp only [Bool.false_eq_true, if_false]
  rw [if_neg (by omega)]
  split
  · congr 2; omega
  · congr 2; simp only; omega

/-- A number of at most `k` digits is less than `10 ^ k`. -/
theorem value_lt (ds : List UInt8) (hd : ds.all digit = true) : value ds < 10 ^ ds.length := by
  have : ∀ (ds : List UInt8) (o : Nat), ds.all digit = true → ds.foldl (fun n c => 10 * n + (c.toNat - 48)) o < (o + 1) * 10 ^ ds.length := by
    intro ds
    induction ds with
    | nil => intro o _; simp
    | cons c ds ih =>
      intro o h
      simp only [List.all_cons, Bool.and_eq_true] at h
      have hc : c.toNat - 48 ≤ 9 := by have := h.1; simp [digit] at this; omega
      have h2 := ih (10 * o + (c.toNat - 48)) h.2
      rw [List.foldl_cons, List.length_cons, Nat.pow_succ]
      refine Nat.lt_of_lt_of_le h2 ?_
      rw [Nat.mul_comm (10 ^ ds.length) 10, ← Nat.mul_assoc]
      exact Nat.mul_le_mul_right _ (by omega)
  simpa [value] using this ds 0 hd

/-- What `GetLengthPrefix` can return, on memory with a NUL or at least ten bytes. -/
theorem prefix_cases (m : List UInt8) (h : 10 ≤ m.length ∨ 0 ∈ m.take 10) :
    lengthPrefix m = some (-1) ∨
    (10 ≤ m.length ∧ 0 ∉ m.take 10 ∧ m[9]? = some 32 ∧ ∃ ds c r, m = ds ++ c :: r ∧ ds.length ≤ 9 ∧ ds ≠ [] ∧ ds.all digit = true ∧ digit c = false ∧ lengthPrefix m = some ((value ds : Nat) : Int)) := by
  unfold lengthPrefix
  rw [hasNul_ok m 10 0 (by simpa using h)]
  simp only [List.drop_zero, Option.bind_eq_bind, Option.bind_some]
  by_cases hz : 0 ∈ m.take 10
  · left; simp [hz]
  · rw [if_neg (by simpa using hz)]
    have hl : 10 ≤ m.length := by rcases h with h | h; exact h; exact absurd h hz
    rw [List.getElem?_eq_getElem (show 0 < m.length by omega), List.getElem?_eq_getElem (show 9 < m.length by omega)]
    simp only [Option.bind_some]
    by_cases hd : Str.isdigit m[0] = true
    · rw [if_pos hd]
      by_cases h9 : m[9] = 32
      · rw [if_neg (by simp [h9])]
        right
        have hsplit : m = m.takeWhile digit ++ m.dropWhile digit := (List.takeWhile_append_dropWhile).symm
        have had := Str.all_takeWhile digit m
        have hhd := Str.head_dropWhile digit m
        generalize hds : m.takeWhile digit = ds at *
        generalize hr : m.dropWhile digit = r at *
        have hlen : ds.length ≤ 9 := by
          apply Classical.byContradiction
          intro hc
          have h1 : ds[9]'(by omega) = 32 := by
            have : (ds ++ r)[9]'(by simp; omega) = 32 := by rw [← h9]; congr 1; exact hsplit.symm
            rwa [List.getElem_append_left (by omega)] at this
          have := List.all_eq_true.1 had _ (List.getElem_mem (show 9 < ds.length by omega))
          rw [h1] at this; revert this; decide
        have hne : ds ≠ [] := by
          rintro rfl
          have hm0 : m = m[0] :: m.drop 1 := by
            have := List.drop_eq_getElem_cons (show 0 < m.length by omega)
            simpa using this
          have := hhd m[0] (m.drop 1) (by rw [← hm0]; simpa using hsplit.symm)
          rw [Str.isdigit_eq, this] at hd; cases hd
        have hrn : r ≠ [] := by rintro rfl; rw [hsplit] at hl; simp at hl; omega
        obtain ⟨c, r', rfl⟩ := List.exists_cons_of_ne_nil hrn
        have hv := value_lt ds had
        have hp9 : (10 : Nat) ^ ds.length ≤ 10 ^ 9 := Nat.pow_le_pow_right (by omega) hlen
        have hsc := scan_digits ds (c :: r') hne had (by intro c' tl h; cases h; exact hhd c r' rfl) (by simp)
        rw [← hsplit, show min (value ds) (2 ^ 63 - 1) = value ds by omega] at hsc
        have hpv : prefixValue m = some ((value ds : Nat) : Int) := by
          rw [prefixValue, hsc]
          simp only
          rw [if_neg (by omega)]
        exact ⟨hl, hz, by rw [h9], ds, c, r', hsplit, hlen, hne, had, hhd c r' rfl, hpv⟩
      · rw [if_pos h9]; exact Or.inl rfl
    · rw [if_neg hd]; exact Or.inl rfl

theorem validDup_ok (u rest : List UInt8) (n : Nat) (h0 : 0 ∉ u) :
    (u.length < n ∧ validDup (u ++ 0 :: rest) n = some none) ∨
    (n ≤ u.length ∧ ∃ dst, validDup (u ++ 0 :: rest) n = some (some dst) ∧ CMem.str dst = some (u.take n)) := by
  obtain ⟨m, h1, h2⟩ := C37_stringCopy u (List.replicate (n + 1) (some 0)) (n + 1) h0 (by omega) (by simp)
  have hs : CMem.str ((u ++ 0 :: rest).map some) = some u := by
    rw [List.map_append, List.map_cons]; exact CsvParser.str_ok u _ h0
  unfold validDup
  rw [hs]
  simp only [Option.bind_eq_bind, Option.bind_some]
  rw [h1]
  simp only [Option.bind_some]
  by_cases h : u.length < n
  · left
    refine ⟨h, ?_⟩
    rw [if_pos (by rw [if_pos (by omega)]; exact h)]
  · right
    refine ⟨by omega, m, ?_, ?_⟩
    · rw [if_neg (by split <;> omega)]
    · have := h2.string
      rw [show n + 1 - 1 = n by omega] at this
      exact CMem.str_holds this

/-- One step of the deserialiser on memory `t ++ [0]`: it fails cleanly, or takes a string lying inside. -/
theorem step_cases (t : List UInt8) (h0 : 0 ∉ t) :
    deserStep (t ++ [0]) = some none ∨
    ∃ k, 10 + k + 1 ≤ t.length ∧ deserStep (t ++ [0]) = some (some ((t.drop 10).take k, 10 + k + 1)) ∧ t[10 + k]? = some 10 := by
  unfold deserStep
  have hpre : 10 ≤ (t ++ [0]).length ∨ 0 ∈ (t ++ [0]).take 10 := by
    by_cases h : 10 ≤ (t ++ [0]).length
    · exact Or.inl h
    · right; rw [List.take_of_length_le (by omega)]; simp
  rcases prefix_cases (t ++ [0]) hpre with h | ⟨h10, hz, h9, ds, c, r, _, _, _, _, _, hp⟩
  · left; rw [h]; simp
  · rw [hp]
    simp only [Option.bind_eq_bind, Option.bind_some]
    rw [if_neg (by omega), h9]
    simp only [Option.bind_some, ne_eq, not_true_eq_false, if_false, Int.toNat_natCast]
    have htl : 10 ≤ t.length := by
      apply Classical.byContradiction
      intro hc
      have : t.length = 9 := by simp at h10; omega
      rw [List.getElem?_append_right (by omega), this] at h9
      simp at h9
    generalize value ds = k
    have hd : (t ++ [0]).drop 10 = t.drop 10 ++ [0] := by rw [List.drop_append_of_le_length htl]
    rw [hd]
    rcases validDup_ok (t.drop 10) [] k (fun h => h0 (List.mem_of_mem_drop h)) with ⟨_, h⟩ | ⟨hk, dst, h, hs⟩
    · left; rw [h]; simp
    · rw [h]
      simp only [Option.bind_some]
      have hk' : 10 + k ≤ t.length := by simp at hk; omega
      have he : (t.drop 10 ++ [0])[k]? = (t ++ [0])[10 + k]? := by rw [← hd, List.getElem?_drop]
      rw [he, List.getElem?_eq_getElem (by simp; omega)]
      simp only [Option.bind_some, hs]
      by_cases hn : (t ++ [0])[10 + k]'(by simp; omega) = 10
      · right
        have hlt : 10 + k < t.length := by
          apply Classical.byContradiction
          intro hc
          have : (t ++ [0])[10 + k]? = some 10 := by rw [List.getElem?_eq_getElem (by simp; omega), hn]
          rw [List.getElem?_append_right (by omega), show 10 + k - t.length = 0 by omega] at this
          simp at this
        refine ⟨k, by omega, ?_, ?_⟩
        · rw [if_neg (by simpa using hn)]
        · have : (t ++ [0])[10 + k]? = some 10 := by rw [List.getElem?_eq_getElem (by simp; omega), hn]
          rwa [List.getElem?_append_left hlt] at this
      · left; rw [if_pos hn]

theorem deser_safe : ∀ (n : Nat) (t : List UInt8) (seq : List (List UInt8)), t.length ≤ n → 0 ∉ t → ∃ r, deserLoop seq (t ++ [0]) = some r := by
  intro n
  induction n with
  | zero =>
    intro t seq h h0
    have : t = [] := List.length_eq_zero_iff.1 (by omega)
    subst this
    exact ⟨some seq, by rw [List.nil_append, deserLoop]; simp⟩
  | succ n ih =>
    intro t seq h h0
    cases t with
    | nil => exact ⟨some seq, by rw [List.nil_append, deserLoop]; simp⟩
    | cons c t =>
      have hc : c ≠ 0 := by rintro rfl; simp at h0
      rw [List.cons_append, deserLoop, if_neg hc]
      rcases step_cases (c :: t) h0 with hs | ⟨k, hk, hs, _⟩
      · rw [List.cons_append] at hs; rw [hs]; exact ⟨none, rfl⟩
      · rw [List.cons_append] at hs; rw [hs]
        simp only
        have hl : 10 + k + 1 - 1 ≤ t.length := by simp at hk; omega
        rw [List.drop_append_of_le_length hl]
        exact ih _ _ (by simp at h ⊢; omega) (fun hm => h0 (List.mem_cons_of_mem _ (List.mem_of_mem_drop hm)))

theorem prefix_text (n : Nat) (h : n < 10 ^ 9) : ∃ p, prefixText n = decimal n ++ 32 :: p ∧ (∀ x ∈ p, x = 32) ∧ (prefixText n).length = 10 := by
  have hl : (decimal n).length ≤ 9 := (decimal_length n 9 (by omega)).1 h
  refine ⟨List.replicate (9 - (decimal n).length) 32, ?_, ?_, ?_⟩
  · rw [prefixText, natText_eq, show 10 - (decimal n).length = (9 - (decimal n).length) + 1 by omega, List.replicate_succ]
  · intro x hx; exact (List.mem_replicate.1 hx).2
  · rw [prefixText, natText_eq]; simp; omega

theorem prefix_nonul (n : Nat) : 0 ∉ prefixText n := by
  rw [prefixText, natText_eq]
  intro h
  rcases List.mem_append.1 h with h | h
  · have := List.all_eq_true.1 (decimal_digits n).1 _ h
    revert this; decide
  · have := (List.mem_replicate.1 h).2; revert this; decide

/-- The memory starting with a record. -/
theorem lengthPrefix_record (n : Nat) (rest : List UInt8) (h : n < 10 ^ 9) : lengthPrefix (prefixText n ++ rest) = some (n : Int) := by
  obtain ⟨p, h1, h2, h3⟩ := prefix_text n h
  have h10 : 10 ≤ (prefixText n ++ rest).length := by simp; omega
  have hz : 0 ∉ (prefixText n ++ rest).take 10 := by
    rw [List.take_left' h3]; exact prefix_nonul n
  have hd := decimal_digits n
  have hl : (decimal n).length ≤ 9 := (decimal_length n 9 (by omega)).1 h
  unfold lengthPrefix
  rw [hasNul_ok _ 10 0 (by left; omega)]
  simp only [List.drop_zero, Option.bind_eq_bind, Option.bind_some]
  rw [if_neg (by simpa using hz)]
  have h0 : (prefixText n ++ rest)[0]? = (decimal n).head? := by
    rw [h1]
    obtain ⟨c, tl, hc⟩ := List.exists_cons_of_ne_nil hd.2
    rw [hc]; rfl
  have h9 : (prefixText n ++ rest)[9]? = some 32 := by
    rw [List.getElem?_append_left (by omega), h1]
    by_cases h9 : (decimal n).length = 9
    · rw [List.getElem?_append_right (by omega), h9]; rfl
    · rw [List.getElem?_append_right (by omega)]
      obtain ⟨j, hj⟩ : ∃ j, 9 - (decimal n).length = j + 1 := ⟨8 - (decimal n).length, by omega⟩
      have hjp : j < p.length := by rw [h1] at h3; simp at h3; omega
      rw [hj, List.getElem?_cons_succ, List.getElem?_eq_getElem hjp, h2 _ (List.getElem_mem hjp)]
  obtain ⟨c, tl, hc⟩ := List.exists_cons_of_ne_nil hd.2
  rw [h0, hc]
  simp only [List.head?_cons, Option.bind_some]
  have hdc : Str.isdigit c = true := by
    rw [Str.isdigit_eq]; have := hd.1; rw [hc] at this; simp at this; exact this.1
  rw [if_pos hdc, h9]
  simp only [Option.bind_some, ne_eq, not_true_eq_false, if_false]
  have hv := value_decimal n
  have := scan_digits (decimal n) (32 :: p ++ rest) hd.2 hd.1 (by intro c tl h; cases h; decide) (by simp)
  rw [← List.append_assoc, ← h1, hv, show min n (2 ^ 63 - 1) = n by omega] at this
  rw [prefixValue, this]
  simp only
  rw [if_neg (by omega)]

theorem step_record (s t : List UInt8) (hs : 0 ∉ s) (ht : 0 ∉ t) (hl : s.length < 10 ^ 9) :
    deserStep (prefixText s.length ++ s ++ [10] ++ t ++ [0]) = some (some (s, 10 + s.length + 1)) := by
  obtain ⟨p, _, _, h3⟩ := prefix_text s.length hl
  have hlp := lengthPrefix_record s.length (s ++ [10] ++ t ++ [0]) hl
  have e : prefixText s.length ++ s ++ [10] ++ t ++ [0] = prefixText s.length ++ (s ++ [10] ++ t ++ [0]) := by simp
  unfold deserStep
  rw [e, hlp]
  simp only [Option.bind_eq_bind, Option.bind_some]
  rw [if_neg (by omega)]
  have h9 : (prefixText s.length ++ (s ++ [10] ++ t ++ [0]))[9]? = some 32 := by
    rcases prefix_cases (prefixText s.length ++ (s ++ [10] ++ t ++ [0])) (by left; simp; omega) with h | ⟨_, _, h, _⟩
    · rw [hlp] at h; simp at h
    · exact h
  rw [h9]
  simp only [Option.bind_some, ne_eq, not_true_eq_false, if_false, Int.toNat_natCast]
  rw [List.drop_left' h3]
  have h00 : 0 ∉ s ++ [10] ++ t := by simp [hs, ht]
  rcases validDup_ok (s ++ [10] ++ t) [] s.length h00 with ⟨h, _⟩ | ⟨_, dst, h, hd⟩
  · simp at h; omega
  · rw [h]
    simp only [Option.bind_some]
    have : (s ++ [10] ++ t ++ [0])[s.length]? = some 10 := by simp
    rw [this]
    simp only [Option.bind_some, hd, ne_eq, not_true_eq_false, if_false]
    congr 3
    simp

theorem record_eq (s : List UInt8) : record s = prefixText s.length ++ s ++ [10] := by rw [record, prefixText, natText_eq]
theorem record_nonul (s : List UInt8) (h : 0 ∉ s) : 0 ∉ record s := by
  rw [record_eq]; simp [prefix_nonul, h]

theorem deser_records : ∀ (seq : List (List UInt8)) (acc : List (List UInt8)), (∀ s ∈ seq, 0 ∉ s ∧ s.length < 10 ^ 9) →
    deserLoop acc (seq.flatMap record ++ [0]) = some (some (acc ++ seq)) := by
  intro seq
  induction seq with
  | nil => intro acc _; simp [deserLoop]
  | cons s seq ih =>
    intro acc h
    have hs := h s (by simp)
    have hr : 0 ∉ seq.flatMap record := by
      intro hm
      obtain ⟨x, hx, hm⟩ := List.mem_flatMap.1 hm
      exact record_nonul x (h x (by simp [hx])).1 hm
    have hst := step_record s (seq.flatMap record) hs.1 hr hs.2
    obtain ⟨p, h1, _, h3⟩ := prefix_text s.length hs.2
    obtain ⟨c, tl, hc⟩ := List.exists_cons_of_ne_nil (decimal_digits s.length).2
    have hc0 : c ≠ 0 := by
      have := (decimal_digits s.length).1
      rw [hc] at this; simp at this
      rintro rfl; have := this.1; revert this; decide
    rw [List.flatMap_cons, record_eq]
    have hsh : ∃ m', prefixText s.length ++ s ++ [10] ++ seq.flatMap record ++ [0] = c :: m' := by rw [h1, hc]; exact ⟨_, rfl⟩
    obtain ⟨m', hm'⟩ := hsh
    rw [hm', deserLoop, if_neg hc0, ← hm', hst]
    simp only
    have hdrop : m'.drop (10 + s.length + 1 - 1) = seq.flatMap record ++ [0] := by
      have : (c :: m').drop (10 + s.length + 1) = seq.flatMap record ++ [0] := by
        rw [← hm', List.append_assoc]
        exact List.drop_left' (by simp; omega)
      rw [← this]; rfl
    rw [hdrop, ih _ (fun x hx => h x (by simp [hx]))]
    simp

theorem write_records : ∀ (seq : List (List UInt8)) (w : Writer.W) (xs : List UInt8), Writer.WRep w xs → (∀ s ∈ seq, 0 ∉ s ∧ s.length < 2000000000) →
    ∃ w', write w seq = some (w', true) ∧ Writer.WRep w' (xs ++ seq.flatMap record) := by
  intro seq
  induction seq with
  | nil => intro w xs h _; exact ⟨w, rfl, by simpa using h⟩
  | cons s seq ih =>
    intro w xs h hs
    have h1 := hs s (by simp)
    have hpl : (prefixText s.length).length ≤ 10 := by
      have := (decimal_length s.length 10 (by omega)).1 (by omega)
      rw [prefixText, natText_eq]; simp; omega
    obtain ⟨w1, hw1, hr1⟩ := Writer.exec_ok h (.writeF (record s)) ⟨record_nonul s h1.1, by rw [record_eq]; simp; omega⟩
    obtain ⟨w2, hw2, hr2⟩ := ih w1 _ hr1 (fun x hx => hs x (by simp [hx]))
    refine ⟨w2, ?_, by simpa [WriterSpec.added] using hr2⟩
    have hw1' : Writer.writeF w (prefixText s.length ++ s ++ [10]) = some (w1, (record s).length) := by rw [← record_eq]; exact hw1
    rw [write, writePrefixed, hw1']
    simp only [Option.bind_eq_bind, Option.bind_some]
    have : decide ((record s).length ≠ 0) = true := by rw [record_eq]; simp
    rw [if_pos this]; exact hw2

end StrSeq

/-- C30. `SeqStringSerialize` produces the records of the strings, one after the other. -/
theorem C30_serialized_text (seq : List (List UInt8)) (h : ∀ s ∈ seq, 0 ∉ s ∧ s.length < 2000000000) :
    StrSeq.serialize seq = some (seq.flatMap record ++ [0]) := by
  obtain ⟨w, h1, h2⟩ := StrSeq.write_records seq _ [] Writer.init_ok h
  rw [StrSeq.serialize, h1]
  simpa using Writer.dataZ_ok h2

/-- C30, partial. Deserialising a serialised sequence gives the same strings, whatever bytes they contain, as long as each is shorter than 10^9
bytes. Missing: longer strings, for which the claim is false (next theorem). -/
theorem C30_round_trip_partial (seq : List (List UInt8)) (h : ∀ s ∈ seq, 0 ∉ s ∧ s.length < 10 ^ 9) :
    ∃ t, StrSeq.serialize seq = some t ∧ StrSeq.deserialize t = some (some seq) := by
  refine ⟨_, C30_serialized_text seq (fun s hs => ⟨(h s hs).1, by have := (h s hs).2; omega⟩), ?_⟩
  have := StrSeq.deser_records seq [] h
  simpa [StrSeq.deserialize] using this

example : StrSeq.serialize [[97, 10, 53], []] = some ([51] ++ List.replicate 9 32 ++ [97, 10, 53, 10, 48] ++ List.replicate 9 32 ++ [10, 0]) ∧
    StrSeq.deserialize ([51] ++ List.replicate 9 32 ++ [97, 10, 53, 10, 48] ++ List.replicate 9 32 ++ [10, 0]) = some (some [[97, 10, 53], []]) := by
  decide +kernel

/-- Finding: a sequence whose first string has 10^9 bytes or more is written, but cannot be read back: the prefix leaves no room for the blank. -/
theorem C30_long_string_lost (s : List UInt8) (seq : List (List UInt8)) (h0 : 0 ∉ s) (h1 : 10 ^ 9 ≤ s.length) (h2 : s.length < 2000000000)
    (hs : ∀ s ∈ seq, 0 ∉ s ∧ s.length < 2000000000) :
    ∃ t, StrSeq.serialize (s :: seq) = some t ∧ StrSeq.deserialize t = some none := by
  refine ⟨_, C30_serialized_text (s :: seq) (by intro x hx; rcases List.mem_cons.1 hx with rfl | hx; exact ⟨h0, h2⟩; exact hs x hx), ?_⟩
  have hl : (decimal s.length).length = 10 := by
    have a := (decimal_length s.length 10 (by omega)).1 (by omega)
    have b : ¬ (decimal s.length).length ≤ 9 := fun h => by
      have := (decimal_length s.length 9 (by omega)).2 h; omega
    omega
  have hd := decimal_digits s.length
  have e : (s :: seq).flatMap record ++ [0] = decimal s.length ++ (s ++ [10] ++ seq.flatMap record ++ [0]) := by
    rw [List.flatMap_cons, record, hl]; simp
  obtain ⟨c, tl, hc⟩ := List.exists_cons_of_ne_nil hd.2
  have hc0 : c ≠ 0 := by
    have := hd.1
    rw [hc] at this; simp at this
    rintro rfl; have := this.1; revert this; decide
  have hp : StrSeq.lengthPrefix (decimal s.length ++ (s ++ [10] ++ seq.flatMap record ++ [0])) = some (-1) := by
    rcases StrSeq.prefix_cases (decimal s.length ++ (s ++ [10] ++ seq.flatMap record ++ [0])) (by left; simp; omega) with h | ⟨_, _, h9, _⟩
    · exact h
    · exfalso
      rw [List.getElem?_append_left (by omega), List.getElem?_eq_getElem (by omega)] at h9
      have := List.all_eq_true.1 hd.1 _ (List.getElem_mem (show 9 < (decimal s.length).length by omega))
      simp at h9
      rw [h9] at this; revert this; decide
  rw [e, StrSeq.deserialize]
  have hst : StrSeq.deserStep (decimal s.length ++ (s ++ [10] ++ seq.flatMap record ++ [0])) = some none := by
    unfold StrSeq.deserStep; rw [hp]; rfl
  rw [hc] at hst ⊢
  rw [List.cons_append] at hst ⊢
  rw [StrSeq.deserLoop, if_neg hc0, hst]

/-- C31. On every NUL-terminated text `SeqStringDeserialize` stays inside it and returns a sequence or NULL. -/
theorem C31_memory_safe (t : List UInt8) (h : 0 ∉ t) : ∃ r, StrSeq.deserialize (t ++ [0]) = some r :=
  StrSeq.deser_safe t.length t [] (Nat.le_refl _) h

example : StrSeq.deserialize ([57, 57, 57] ++ List.replicate 7 32 ++ [97, 0]) = some none ∧ StrSeq.deserialize [57, 0] = some none := by decide +kernel

/-! ## Files -/
namespace StrSeq

theorem allInit_map (s : List UInt8) : allInit (s.map some) = some s := by
  induction s with
  | nil => rfl
  | cons c s ih => simp [allInit, ih]

theorem store_full (n : Nat) (xs : List UInt8) (h : xs.length = n) (b : List (Option UInt8)) (hb : CMem.store (List.replicate n none) 0 xs = some b) : b = xs.map some := by
  unfold CMem.store at hb
  rw [if_pos (by simp; omega)] at hb
  cases hb
  simp [h]

theorem body_ok (s t : List UInt8) (sched : List Io.Ev) :
    readBody (s.length : Int) ⟨s ++ [10] ++ t, sched⟩ = some .pending ∨
    (Io.Ev.err ∈ sched ∧ ∃ fd, readBody (s.length : Int) ⟨s ++ [10] ++ t, sched⟩ = some (.done (-1, [], fd))) ∨
    (∃ sched' pre, sched = pre ++ sched' ∧ readBody (s.length : Int) ⟨s ++ [10] ++ t, sched⟩ = some (.done (1, s, ⟨t, sched'⟩))) := by
  unfold readBody
  simp only [show ((s.length : Int) + 1).toNat = s.length + 1 by omega]
  have hr : s ++ [10] ++ t = (s ++ [10]) ++ t := rfl
  rcases Io.fullRead_ok sched (List.replicate (s.length + 1) none) 0 (s.length + 1) 0 (s ++ [10] ++ t) (by simp) with
    h | ⟨m, b, sc, h1, h2, h3, h4, h5⟩ | ⟨b, sc, h1, h2, pre, h3⟩
  · left; rw [h]; rfl
  · right; left
    refine ⟨h5, ⟨List.drop m (s ++ [10] ++ t), sc⟩, ?_⟩
    rw [h3]
    simp only [Option.bind_eq_bind, Option.bind_some]
    rw [if_pos (by omega)]
  · right; right
    refine ⟨sc, pre, h3, ?_⟩
    rw [h1]
    simp only [Option.bind_eq_bind, Option.bind_some]
    rw [List.take_left' (by simp)] at h2
    have hb := store_full _ _ (by simp) b h2
    subst hb
    rw [if_neg (by simp), if_neg (by omega)]
    have hg : CMem.get ((s ++ [10]).map some) ((s.length : Int)).toNat = some 10 := by
      simp [CMem.get]
    rw [hg]
    simp only [Option.bind_some, ne_eq, not_true_eq_false, if_false]
    rw [CMem.write_eq (by simp)]
    simp only [Option.bind_some, Int.toNat_natCast]
    have : (((s ++ [10]).map some).set s.length (some 0)).take s.length = s.map some := by
      rw [List.take_set_of_le (Nat.le_refl _)]
      simp
    rw [this, allInit_map]
    simp only [Option.bind_some]
    rw [List.drop_left' (by simp)]

theorem readPrefixed_record (s t : List UInt8) (sched : List Io.Ev) (hl : s.length < 10 ^ 9) :
    readPrefixed ⟨record s ++ t, sched⟩ = some .pending ∨
    (Io.Ev.err ∈ sched ∧ ∃ fd, readPrefixed ⟨record s ++ t, sched⟩ = some (.done (-1, [], fd))) ∨
    (∃ sched' pre, sched = pre ++ sched' ∧ readPrefixed ⟨record s ++ t, sched⟩ = some (.done (1, s, ⟨t, sched'⟩))) := by
  obtain ⟨p, hp1, _, hp3⟩ := prefix_text s.length hl
  have e : record s ++ t = prefixText s.length ++ (s ++ [10] ++ t) := by rw [record_eq]; simp
  unfold readPrefixed
  simp only [e]
  rcases Io.fullRead_ok sched (List.replicate 10 none) 0 10 0 (prefixText s.length ++ (s ++ [10] ++ t)) (by simp) with
    h | ⟨m, b, sc, h1, h2, h3, h4, h5⟩ | ⟨b, sc, h1, h2, pre, h3⟩
  · left; rw [h]; rfl
  · right; left
    refine ⟨h5, ⟨List.drop m (prefixText s.length ++ (s ++ [10] ++ t)), sc⟩, ?_⟩
    rw [h3]
    simp only [Option.bind_eq_bind, Option.bind_some]
    rw [if_neg (by omega), if_pos (by omega)]
  · rw [h1]
    simp only [Option.bind_eq_bind, Option.bind_some]
    rw [List.take_left' hp3] at h2
    have hb := store_full _ _ hp3 b h2
    subst hb
    rw [if_neg (by simp), if_neg (by omega), List.drop_left' hp3]
    have hg : CMem.get ((prefixText s.length).map some) 9 = some 32 := by
      have h9 : (prefixText s.length ++ [])[9]? = some 32 := by
        rcases prefix_cases (prefixText s.length ++ []) (by left; simp; omega) with h | ⟨_, _, h, _⟩
        · rw [lengthPrefix_record _ _ hl] at h; simp at h
        · exact h
      rw [List.append_nil] at h9
      simp [CMem.get, List.getElem?_map, h9]
    rw [hg]
    simp only [Option.bind_some, ne_eq, not_true_eq_false, if_false, allInit_map]
    have hlp := lengthPrefix_record s.length [] hl
    rw [List.append_nil] at hlp
    rw [hlp]
    simp only [Option.bind_some]
    rcases body_ok s t sc with h | ⟨h4, fd, h5⟩ | ⟨sc', pre', h4, h5⟩
    · exact Or.inl h
    · exact Or.inr (Or.inl ⟨by rw [h3]; simp [h4], fd, h5⟩)
    · exact Or.inr (Or.inr ⟨sc', pre ++ pre', by rw [h3, h4]; simp, h5⟩)

theorem readPrefixed_eof (sched : List Io.Ev) :
    readPrefixed ⟨[], sched⟩ = some .pending ∨
    (Io.Ev.err ∈ sched ∧ ∃ fd, readPrefixed ⟨[], sched⟩ = some (.done (-1, [], fd))) ∨
    (∃ fd, readPrefixed ⟨[], sched⟩ = some (.done (0, [], fd))) := by
  unfold readPrefixed
  rcases Io.fullRead_ok sched (List.replicate 10 none) 0 10 0 [] (by simp) with h | ⟨m, b, sc, h1, h2, h3, h4, h5⟩ | ⟨b, sc, h1, h2, pre, h3⟩
  · left; simp only [h]; rfl
  · right; left
    refine ⟨h5, ⟨List.drop m ([]), sc⟩, ?_⟩
    simp only [h3, Option.bind_eq_bind, Option.bind_some]
    rw [if_neg (by omega), if_pos (by omega)]
  · right; right
    refine ⟨⟨List.drop 10 [], sc⟩, ?_⟩
    simp only [h1, Option.bind_eq_bind, Option.bind_some]
    rw [if_pos (by simp)]

theorem readFile_ok : ∀ (seq acc : List (List UInt8)) (sched : List Io.Ev) (fuel : Nat), (∀ s ∈ seq, s.length < 10 ^ 9) →
    readFile acc ⟨seq.flatMap record, sched⟩ fuel = some .pending ∨
    (Io.Ev.err ∈ sched ∧ readFile acc ⟨seq.flatMap record, sched⟩ fuel = some (.done none)) ∨
    readFile acc ⟨seq.flatMap record, sched⟩ fuel = some (.done (some (acc ++ seq))) := by
  intro seq
  induction seq with
  | nil =>
    intro acc sched fuel _
    cases fuel with
    | zero => exact Or.inl rfl
    | succ fuel =>
      rw [List.flatMap_nil, readFile]
      rcases readPrefixed_eof sched with h | ⟨h1, fd, h2⟩ | ⟨fd, h⟩
      · rw [h]; exact Or.inl rfl
      · rw [h2]; exact Or.inr (Or.inl ⟨h1, rfl⟩)
      · rw [h]; exact Or.inr (Or.inr (by simp))
  | cons s seq ih =>
    intro acc sched fuel hs
    cases fuel with
    | zero => exact Or.inl rfl
    | succ fuel =>
      rw [List.flatMap_cons, readFile]
      rcases readPrefixed_record s (seq.flatMap record) sched (hs s (by simp)) with h | ⟨h1, fd, h2⟩ | ⟨sc, pre, h1, h2⟩
      · rw [h]; exact Or.inl rfl
      · rw [h2]; exact Or.inr (Or.inl ⟨h1, rfl⟩)
      · rw [h2]
        simp only [show ¬ ((1 : Int) < 0) by omega, if_false, show ¬ ((1 : Int) = 0) by omega]
        rcases ih (acc ++ [s]) sc fuel (fun x hx => hs x (by simp [hx])) with h | ⟨h3, h4⟩ | h
        · exact Or.inl h
        · exact Or.inr (Or.inl ⟨by rw [h1]; simp [h3], h4⟩)
        · exact Or.inr (Or.inr (by rw [h]; simp))

end StrSeq

/-- C69. A file holding the records that `SeqStringWrite` produced for `seq` is read back by `SeqStringReadFile` as `seq`, for every schedule of short
reads and interruptions; only a failing `read` makes it return NULL. (`fuel` bounds the records read so far; `pending`: not finished yet.) -/
theorem C69_file_round_trip (seq : List (List UInt8)) (sched : List Io.Ev) (fuel : Nat) (h : ∀ s ∈ seq, s.length < 10 ^ 9) :
    StrSeq.readFile [] ⟨seq.flatMap record, sched⟩ fuel = some .pending ∨
    (Io.Ev.err ∈ sched ∧ StrSeq.readFile [] ⟨seq.flatMap record, sched⟩ fuel = some (.done none)) ∨
    StrSeq.readFile [] ⟨seq.flatMap record, sched⟩ fuel = some (.done (some seq)) := by
  have := StrSeq.readFile_ok seq [] sched fuel h
  simpa using this

example : StrSeq.readFile [] ⟨[[97, 98], []].flatMap record, [.got 3, .eintr, .got 20, .got 2, .got 4, .got 100, .got 1, .got 1]⟩ 5 = some (.done (some [[97, 98], []])) := by
  decide +kernel

/-- Finding: a record whose prefix is not a number makes `ReadLenPrefixedString` access `data[-1]`. -/
theorem C69_bad_prefix_undefined : StrSeq.readPrefixed ⟨[120] ++ List.replicate 9 32 ++ [97, 10], [.got 10, .got 10]⟩ = none := by decide +kernel
/-- Finding: a file that ends inside a prefix fails an assertion (or, without assertions, uses uninitialised bytes). -/
theorem C69_short_prefix_undefined : StrSeq.readPrefixed ⟨[49, 32], [.got 10, .got 10]⟩ = none := by decide +kernel

/-! ## Splitting -/
namespace StrSeq

theorem split_ok (d : UInt8) : ∀ (str : List UInt8) (seq : List (List UInt8)) (piece : List UInt8), d ∉ piece → (∀ p ∈ seq, d ∉ p) →
    Fields d (seq.flatMap (· ++ [d]) ++ piece ++ str) (splitLoop d seq piece str) := by
  intro str
  induction str with
  | nil =>
    intro seq piece hp hs
    rw [splitLoop]
    by_cases h : piece.length > 0
    · rw [if_pos h]
      refine ⟨?_, Or.inr ⟨seq, piece, rfl, ?_, by simp⟩⟩
      · intro p hm
        rcases List.mem_append.1 hm with h | h
        · exact hs p h
        · simp at h; rw [h]; exact hp
      · exact List.length_pos_iff.1 h
    · rw [if_neg h]
      have : piece = [] := List.length_eq_zero_iff.1 (by omega)
      subst this
      exact ⟨hs, Or.inl (by simp)⟩
  | cons c str ih =>
    intro seq piece hp hs
    rw [splitLoop]
    by_cases h : c = d
    · rw [if_pos h]
      have := ih (seq ++ [piece]) [] (by simp) (by
        intro p hm
        rcases List.mem_append.1 hm with h | h
        · exact hs p h
        · simp at h; rw [h]; exact hp)
      simpa [h] using this
    · rw [if_neg h]
      have := ih seq (piece ++ [c]) (by simp [hp]; exact fun e => h e.symm) hs
      simpa using this

theorem contains_ok (str : List UInt8) (seq : List (List UInt8)) : contains str seq = true ↔ str ∈ seq := by
  induction seq with
  | nil => simp [contains]
  | cons s seq ih => rw [contains]; by_cases h : str = s <;> simp [h, ih]

theorem total_ok : ∀ (seq : List (List UInt8)) (n : Nat), n + (seq.map List.length).sum ≤ 2147483647 → totalLength n seq = some (n + (seq.map List.length).sum) := by
  intro seq
  induction seq with
  | nil => intro n _; simp [totalLength]
  | cons s seq ih =>
    intro n h
    simp only [List.map_cons, List.sum_cons] at h ⊢
    rw [totalLength, if_pos (by omega), ih _ (by omega)]; congr 1; omega

end StrSeq

/-- C70. `SeqStringFromString` splits a string at each delimiter: the pieces contain no delimiter and joined by it give back the string; an empty piece
after the last delimiter is dropped. -/
theorem C70_split (str : List UInt8) (d : UInt8) : Fields d str (StrSeq.fromString str d) := by
  have := StrSeq.split_ok d str [] [] (by simp) (by simp)
  simpa [StrSeq.fromString] using this

/-- C70. This determines the pieces: no other sequence has these properties. -/
theorem C70_split_unique (d : UInt8) (str : List UInt8) (a b : List (List UInt8)) (ha : Fields d str a) (hb : Fields d str b) : a = b := by
  have main : ∀ (n : Nat) (str : List UInt8) (a b : List (List UInt8)), str.length ≤ n → Fields d str a → Fields d str b → a = b := by
    intro n
    induction n using Nat.strongRecOn with
    | _ n ih =>
    intro str a b hn ha hb
    -- the empty string has no fields
    have hnil : ∀ c, Fields d [] c → c = [] := by
      intro c hc
      rcases hc.2 with h | ⟨i, l, h1, h2, h3⟩
      · cases c with
        | nil => rfl
        | cons x c => simp at h
      · have := (List.append_eq_nil_iff.1 h3.symm).2; exact absurd this h2
    -- the first field
    have hfirst : ∀ c, Fields d str c → str ≠ [] → ∃ p c', c = p :: c' ∧ d ∉ p ∧ ((d ∉ str ∧ p = str ∧ c' = []) ∨ (∃ r, str = p ++ d :: r ∧ Fields d r c')) := by
      intro c hc hne
      cases c with
      | nil =>
        rcases hc.2 with h | ⟨i, l, h1, _⟩
        · exact absurd (by simpa using h) hne
        · simp at h1
      | cons p c =>
        have hp := hc.1 p (by simp)
        refine ⟨p, c, rfl, hp, ?_⟩
        rcases hc.2 with h | ⟨i, l, h1, h2, h3⟩
        · right
          refine ⟨c.flatMap (· ++ [d]), by rw [h]; simp, fun q hq => hc.1 q (by simp [hq]), Or.inl rfl⟩
        · cases i with
          | nil =>
            simp at h1
            left
            refine ⟨?_, ?_, h1.2⟩
            · rw [h3, ← h1.1]; simpa using hp
            · rw [h3, h1.1]; simp
          | cons x i =>
            simp at h1
            right
            refine ⟨i.flatMap (· ++ [d]) ++ l, by rw [h3, h1.1]; simp, fun q hq => hc.1 q (by simp [hq]), Or.inr ⟨i, l, h1.2, h2, rfl⟩⟩
    cases hstr : str with
    | nil => rw [hstr] at ha hb; rw [hnil a ha, hnil b hb]
    | cons c0 s0 =>
      have hne : str ≠ [] := by rw [hstr]; simp
      obtain ⟨p, a', rfl, hp, h1⟩ := hfirst a ha hne
      obtain ⟨q, b', rfl, hq, h2⟩ := hfirst b hb hne
      rcases h1 with ⟨h1, rfl, rfl⟩ | ⟨r, hr, hf⟩ <;> rcases h2 with ⟨h3, h4, rfl⟩ | ⟨r', hr', hf'⟩
      · rw [h4]
      · exact absurd (by rw [hr']; simp) h1
      · exact absurd (by rw [hr]; simp) h3
      · have hpq : p = q ∧ r = r' := by
          have e : p ++ d :: r = q ++ d :: r' := by rw [← hr, ← hr']
          have key : ∀ (p q : List UInt8), d ∉ p → d ∉ q → p ++ d :: r = q ++ d :: r' → p = q ∧ r = r' := by
            intro p
            induction p with
            | nil =>
              intro q _ hq e
              cases q with
              | nil => simpa using e
              | cons y q => simp at e; exact absurd e.1 (by simp at hq; exact hq.1)
            | cons x p ihp =>
              intro q hp hq e
              cases q with
              | nil => simp at e; exact absurd e.1.symm (by simp at hp; exact hp.1)
              | cons y q =>
                simp at e hp hq
                obtain ⟨h1, h2⟩ := ihp q hp.2 hq.2 e.2
                exact ⟨by rw [e.1, h1], h2⟩
          exact key p q hp hq e
        obtain ⟨rfl, rfl⟩ := hpq
        rw [ih r.length (by rw [hr] at hn; simp at hn; omega) r a' b' (Nat.le_refl _) hf hf']
  exact main str.length str a b (Nat.le_refl _) ha hb

/-- C70. `SeqStringContains` is membership and `SeqStringLength` the sum of the lengths, as long as that is at most INT_MAX. -/
theorem C70_contains_length (str : List UInt8) (seq : List (List UInt8)) :
    (StrSeq.contains str seq = true ↔ str ∈ seq) ∧
    ((seq.map List.length).sum ≤ 2147483647 → StrSeq.totalLength 0 seq = some (seq.map List.length).sum) :=
  ⟨StrSeq.contains_ok str seq, fun h => by simpa using StrSeq.total_ok seq 0 (by omega)⟩

example : StrSeq.fromString [97, 44, 44, 98, 44] 44 = [[97], [], [98]] ∧ StrSeq.contains [98] [[97], [], [98]] = true ∧ StrSeq.totalLength 0 [[97], [], [98]] = some 2 := by decide
