import Verif.Props.Trim
/-! # C49 (escaping a character), C67 (replacing characters) -/
open StrSpec CMem EscapeSpec

namespace Str

theorem escaped_length (esc w : UInt8) (s : List UInt8) : (escaped esc w s).length = s.length + s.count esc := by
  induction s with
  | nil => rfl
  | cons c s ih =>
    have : escaped esc w (c :: s) = (if c = esc then [w, c] else [c]) ++ escaped esc w s := rfl
    rw [this, List.length_append, ih]
    by_cases h : c = esc
    · simp [h]; omega
    · simp [h]; omega

theorem escapeLoop_ok (esc w : UInt8) : ∀ (s : List UInt8) (m : List (Option UInt8)) (o : Nat), o ≤ m.length → escapeLoop esc w m o s = store m o (escaped esc w s) := by
  intro s
  induction s with
  | nil => intro m o h; simp [escapeLoop, escaped, store_nil m o h]
  | cons c s ih =>
    intro m o h
    have hsp : escaped esc w (c :: s) = (if c = esc then [w, c] else [c]) ++ escaped esc w s := rfl
    simp only [escapeLoop]
    by_cases hc : c = esc
    · rw [if_pos hc, hsp, if_pos hc]
      simp only [List.cons_append, List.nil_append]
      rw [← store_cons]
      by_cases h1 : o < m.length
      · rw [write_eq h1]
        simp only [Option.bind_eq_bind, Option.bind_some]
        rw [← store_cons]
        by_cases h2 : o + 1 < m.length
        · rw [write_eq (by simpa using h2)]
          simp only [Option.bind_some]
          rw [ih _ _ (by simp; omega)]
        · rw [write_oob (by simp; omega)]; rfl
      · rw [write_oob (by omega)]; rfl
    · rw [if_neg hc, hsp, if_neg hc]
      simp only [List.cons_append, List.nil_append]
      rw [← store_cons]
      by_cases h1 : o < m.length
      · rw [write_eq h1]
        simp only [Option.bind_eq_bind, Option.bind_some]
        rw [ih _ _ (by simp; omega)]
      · rw [write_oob (by omega)]; rfl

theorem countChar_le (sep : UInt8) : ∀ (n : Nat) (s : List UInt8), s.length ≤ n → countChar sep s ≤ s.count sep ∧
    (countChar sep s = s.count sep ↔ ¬ [92, sep] <:+: s) := by
  intro n
  induction n with
  | zero =>
    intro s hs
    have : s = [] := List.length_eq_zero_iff.1 (by omega)
    subst this; simp [countChar]
  | succ n ih =>
    intro s hs
    match s with
    | [] => simp [countChar]
    | [c] =>
      have hno : ¬ [92, sep] <:+: [c] := by
        intro h; have := h.length_le; simp at this
      simp only [countChar, List.count_cons, List.count_nil, beq_iff_eq]
      exact ⟨by simp, by simp [hno]⟩
    | c :: d :: s =>
      simp only [List.length_cons] at hs
      simp only [countChar]
      by_cases h : c = 92 ∧ d = sep
      · rw [if_pos h]
        obtain ⟨h1, h2⟩ := h
        have hi := ih s (by omega)
        have hin : [92, sep] <:+: c :: d :: s := ⟨[], s, by simp [h1, h2]⟩
        have hcnt : s.count sep < (c :: d :: s).count sep := by
          rw [List.count_cons, List.count_cons, h2]; simp; omega
        exact ⟨by omega, by constructor; · intro e; omega
                            · intro e; exact absurd hin e⟩
      · rw [if_neg h]
        obtain ⟨i1, i2⟩ := ih (d :: s) (by simp; omega)
        have hin : [92, sep] <:+: c :: d :: s ↔ [92, sep] <:+: d :: s := by
          rw [List.infix_cons_iff]
          constructor
          · rintro (hp | hp)
            · rw [List.cons_prefix_cons, List.cons_prefix_cons] at hp
              exact absurd ⟨hp.1.symm, hp.2.1.symm⟩ h
            · exact hp
          · exact Or.inr
        rw [hin, ← i2]
        rw [List.count_cons (a := sep) (b := c)]
        by_cases hc : c = sep
        · simp only [hc, if_true, beq_self_eq_true]; omega
        · simp only [hc, if_false, beq_iff_eq]; omega

end Str

/-- C49. Without a backslash directly in front of a character to be escaped, `EscapeCharCopy` returns the string with every occurrence escaped. -/
theorem C49_escapeCharCopy_partial (str : List UInt8) (esc w : UInt8) (h0 : 0 ∉ str) (hw : w ≠ 0) (hb : ¬ [92, esc] <:+: str) :
    Str.escapeCharCopy str esc w = some ((escaped esc w str ++ [0]).map some) := by
  have hc := ((Str.countChar_le esc str.length str (Nat.le_refl _)).2).2 hb
  rw [Str.escapeCharCopy, Str.escapeLoop_ok _ _ _ _ _ (by omega), hc]
  have hl := Str.escaped_length esc w str
  rw [store_eq (by simp; omega)]
  congr 1
  simp only [List.take_zero, List.nil_append, List.drop_replicate, List.map_append]
  congr 1
  rw [show str.length + str.count esc + 1 - (0 + (escaped esc w str).length) = 1 by omega]
  rfl

example : ¬ [92, 44] <:+: [(97 : UInt8), 44, 98] ∧ Str.escapeCharCopy [97, 44, 98] 44 92 = some [some 97, some 92, some 44, some 98, some 0] := by decide

/-- Finding: with such a pair anywhere in the string, the buffer is too small: `EscapeCharCopy` either writes beyond it or returns a block without
terminator. In no case is the result a C string. -/
theorem C49_escaped_pair_overflows (str : List UInt8) (esc w : UInt8) (h0 : 0 ∉ str) (hw : w ≠ 0) (hb : [92, esc] <:+: str) :
    ∀ m, Str.escapeCharCopy str esc w = some m → ∀ s, ¬ HoldsStr m s := by
  intro m hm s hs
  have hc := Str.countChar_le esc str.length str (Nat.le_refl _)
  have hlt : Str.countChar esc str < str.count esc := by
    rcases Nat.lt_or_ge (Str.countChar esc str) (str.count esc) with h | h
    · exact h
    · exact absurd hb (hc.2.1 (by omega))
  rw [Str.escapeCharCopy, Str.escapeLoop_ok _ _ _ _ _ (by omega)] at hm
  have hl := Str.escaped_length esc w str
  have hcond : 0 + (escaped esc w str).length ≤ (List.replicate (str.length + Str.countChar esc str + 1) (some (0 : UInt8))).length := by
    simp only [store] at hm
    split at hm
    · assumption
    · simp at hm
  rw [store_eq hcond] at hm
  simp only [List.length_replicate] at hcond
  simp only [List.take_zero, List.nil_append, List.drop_replicate, Option.some.injEq] at hm
  rw [show str.length + Str.countChar esc str + 1 - (0 + (escaped esc w str).length) = 0 by omega] at hm
  simp only [List.replicate_zero, List.append_nil] at hm
  obtain ⟨_, rest, hr⟩ := hs
  have : some (0 : UInt8) ∈ m := by rw [hr]; simp
  rw [← hm] at this
  obtain ⟨c, hc, he⟩ := List.mem_map.1 this
  simp only [Option.some.injEq] at he
  subst he
  obtain ⟨d, hd, hcd⟩ := List.mem_flatMap.1 hc
  split at hcd
  · simp only [List.mem_cons, List.not_mem_nil, or_false] at hcd
    rcases hcd with h | h
    · exact hw h.symm
    · exact h0 (h ▸ hd)
  · simp only [List.mem_cons, List.not_mem_nil, or_false] at hcd
    exact h0 (hcd ▸ hd)

example : Str.escapeCharCopy [92, 44] 44 92 = some [some 92, some 92, some 44] ∧ Str.escapeCharCopy [92, 44, 92, 44] 44 92 = none := by decide

/-- C67. `ReplaceChar` copies at most `outSz - 1` bytes with every `from` replaced by `to`, terminated inside the buffer. -/
theorem C67_replaceChar (src : List UInt8) (m : List (Option UInt8)) (outSz : Nat) (a b : UInt8) (h0 : 0 ∉ src) (hb : b ≠ 0) (h1 : 1 ≤ outSz)
    (hl : outSz ≤ m.length) :
    ∃ m', Str.replaceChar src m outSz a b = some m' ∧ Stored m m' outSz ((src.map fun c => if c = a then b else c).take (outSz - 1)) := by
  have hms : memset m 0 0 outSz = some (List.replicate outSz (some 0) ++ m.drop outSz) := by simp [memset, hl]
  have key : ∀ (s : List UInt8) (m : List (Option UInt8)) (i : Nat), i < outSz → outSz ≤ m.length →
      Str.replaceCharLoop m i outSz a b s = store m i ((s.map fun c => if c = a then b else c).take (outSz - 1 - i)) := by
    intro s
    induction s with
    | nil => intro m i h1 h2; simp [Str.replaceCharLoop, store_nil m i (by omega)]
    | cons c s ih =>
      intro m i h1 h2
      simp only [Str.replaceCharLoop]
      by_cases hi : i + 1 < outSz
      · rw [if_pos hi]
        obtain ⟨k, hk⟩ : ∃ k, outSz - 1 - i = k + 1 := ⟨outSz - 1 - i - 1, by omega⟩
        rw [hk, List.map_cons, List.take_succ_cons, ← store_cons, write_eq (by omega)]
        simp only [Option.bind_eq_bind, Option.bind_some]
        rw [ih _ _ hi (by simpa using h2), show outSz - 1 - (i + 1) = k by omega]
      · rw [if_neg hi, show outSz - 1 - i = 0 by omega]
        simp [store_nil m i (by omega)]
  simp only [Str.replaceChar, hms, Option.bind_eq_bind, Option.bind_some]
  rw [key _ _ 0 (by omega) (by simp), Nat.sub_zero]
  generalize hout : (src.map fun c => if c = a then b else c).take (outSz - 1) = out
  have hol : out.length ≤ outSz - 1 := by rw [← hout]; simp; omega
  have ho0 : 0 ∉ out := by
    rw [← hout]; intro h
    obtain ⟨c, hc, he⟩ := List.mem_map.1 (List.mem_of_mem_take h)
    by_cases hca : c = a
    · rw [if_pos hca] at he; exact hb he
    · rw [if_neg hca] at he; exact h0 (he ▸ hc)
  rw [store_eq (by simp; omega)]
  refine ⟨_, rfl, ?_, ?_, by omega, ho0, List.replicate (outSz - out.length - 1) (some 0) ++ m.drop outSz, ?_⟩
  · simp; omega
  · rw [List.drop_append, List.drop_of_length_le (by simp; omega), List.nil_append]
    rw [List.drop_drop, List.drop_append, List.drop_of_length_le (by simp; omega), List.nil_append]
    simp
    rw [show out.length + (outSz - out.length) - outSz = 0 by omega]
    simp
  · simp only [List.take_zero, List.nil_append, Nat.zero_add]
    rw [List.drop_append_of_le_length (by simp; omega), List.drop_replicate]
    obtain ⟨k, hk⟩ : ∃ k, outSz - out.length = k + 1 := ⟨outSz - out.length - 1, by omega⟩
    rw [hk]; simp [List.replicate_succ]

example : Str.replaceChar [97, 44, 98] [none, none, none, some 7] 3 44 59 = some [some 97, some 59, some 0, some 7] := by decide

/-- C67. `ReplaceTrailingChar` replaces the last character if it is `from`, and changes nothing else. -/
theorem C67_replaceTrailingChar (m : List (Option UInt8)) (s : List UInt8) (a b : UInt8) (hm : HoldsStr m s) (hb : b ≠ 0) :
    ∃ m', Str.replaceTrailingChar m a b = some m' ∧
      Stored m m' (s.length + 1) (if s.getLast? = some a then s.dropLast ++ [b] else s) := by
  have hm0 := hm
  have hlen := strlen_holds hm
  obtain ⟨h0, rest, rfl⟩ := hm
  rcases List.eq_nil_or_concat s with e | ⟨t, c, e⟩
  · subst e
    refine ⟨_, by simp only [Str.replaceTrailingChar, hlen, Option.bind_eq_bind, Option.bind_some, List.length_nil, if_true], rfl, rfl, by simp, ?_⟩
    simpa using hm0
  · rw [List.concat_eq_append] at e
    subst e
    have hg : get ((t ++ [c]).map some ++ some 0 :: rest) t.length = some c := by
      have := get_map (t ++ [c]) (some 0 :: rest) t.length (by simp)
      rw [this]; simp
    simp only [Str.replaceTrailingChar, hlen, Option.bind_eq_bind, Option.bind_some, List.length_append, List.length_cons, List.length_nil, Nat.zero_add,
      Nat.add_sub_cancel, hg, Nat.succ_ne_zero, Nat.add_eq_zero_iff, Nat.one_ne_zero, and_false, if_false]
    by_cases hc : c = a
    · rw [if_pos hc, write_eq (by simp)]
      have hset : ((t ++ [c]).map some ++ some 0 :: rest).set t.length (some b) = (t ++ [b]).map some ++ some 0 :: rest := by
        rw [List.set_append_left _ _ (by simp), List.map_append, List.set_append_right _ _ (by simp)]; simp
      rw [hset]
      simp only [List.mem_append, List.mem_singleton, not_or] at h0
      refine ⟨_, rfl, by simp, ?_, ?_, ?_, rest, ?_⟩
      · rw [List.drop_append, List.drop_append, List.drop_of_length_le (by simp), List.drop_of_length_le (l := (t ++ [c]).map some) (by simp)]; simp
      · simp [hc]
      · simp [hc, h0.1, Ne.symm hb]
      · simp [hc]
    · rw [if_neg hc]
      refine ⟨_, rfl, rfl, rfl, ?_, ?_⟩
      · simp [hc]
      · simpa [hc] using hm0

example : Str.replaceTrailingChar [some 97, some 47, some 0] 47 46 = some [some 97, some 46, some 0] := by decide

/-- C67. `memcchr` finds the first byte that differs from `c`: everything before it is `c`. -/
theorem C67_memcchr (c : UInt8) (buf : List UInt8) :
    match Str.memcchr c buf 0 with
    | some i => ∃ b tl, buf = List.replicate i c ++ b :: tl ∧ b ≠ c
    | none => buf = List.replicate buf.length c := by
  have key : ∀ (buf : List UInt8) (i : Nat), match Str.memcchr c buf i with
      | some j => i ≤ j ∧ ∃ b tl, buf = List.replicate (j - i) c ++ b :: tl ∧ b ≠ c
      | none => buf = List.replicate buf.length c := by
    intro buf
    induction buf with
    | nil => intro i; simp [Str.memcchr]
    | cons b bs ih =>
      intro i
      simp only [Str.memcchr]
      by_cases hb : b = c
      · simp only [hb, ne_eq, not_true_eq_false, if_false]
        have := ih (i + 1)
        split at this
        · rename_i j hj
          obtain ⟨h1, d, tl, h2, h3⟩ := this
          refine ⟨by omega, d, tl, ?_, h3⟩
          rw [show j - i = (j - (i + 1)) + 1 by omega, List.replicate_succ, h2]; simp
        · rename_i hj
          simp only [List.length_cons, List.replicate_succ]
          rw [← this]
      · simp only [hb, ne_eq, not_false_eq_true, if_true]
        exact ⟨Nat.le_refl _, b, bs, by simp, hb⟩
  have := key buf 0
  split at this
  · rename_i j hj; obtain ⟨_, h⟩ := this; simpa using h
  · rename_i hj; exact this

example : Str.memcchr 0 [0, 0, 5, 0] 0 = some 2 ∧ Str.memcchr 0 [0, 0] 0 = none := by decide

/-- C67. `ScanPastChars` skips exactly the longest prefix made of the given characters. -/
theorem C67_scanPastChars (set input : List UInt8) :
    (∀ c ∈ input.take (Str.scanPastChars set input), c ∈ set) ∧ Str.scanPastChars set input ≤ input.length ∧
    ∀ c tl, input.drop (Str.scanPastChars set input) = c :: tl → c ∉ set := by
  induction input with
  | nil => simp [Str.scanPastChars]
  | cons b bs ih =>
    simp only [Str.scanPastChars]
    by_cases hb : b ∈ set
    · simp only [List.contains_iff_mem, hb, if_true, List.take_succ_cons, List.mem_cons, List.drop_succ_cons, List.length_cons]
      exact ⟨fun c h => h.elim (fun e => e ▸ hb) (ih.1 c), by omega, ih.2.2⟩
    · simp only [List.contains_iff_mem, hb, if_false, List.take_zero, List.drop_zero, List.cons.injEq]
      exact ⟨by simp, by omega, by rintro c tl ⟨rfl, _⟩; exact hb⟩

example : Str.scanPastChars [32, 9] [32, 9, 32, 97, 32] = 3 := by decide
