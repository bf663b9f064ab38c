import Verif.Model.Base64
import Verif.Spec.Base64
import Verif.Lemmas.Buffer
import Mathlib.Data.List.SplitOn
/-! # Property C145: base64 -/
open Base64Spec

namespace Base64

theorem value_char64 : ∀ v < 64, value (char64 v) = some v := by decide +kernel
theorem char64_ne : ∀ v < 64, char64 v ≠ 0x0a ∧ char64 v ≠ 0x3d ∧ char64 v ≠ 0 := by decide +kernel

theorem mem_encodeBlock : ∀ (s : Bytes) (c : UInt8), c ∈ encodeBlock s → c ≠ 0x0a ∧ c ≠ 0 := by
  intro s
  fun_induction encodeBlock s with
  | case1 => simp
  | case2 a =>
    have := a.toNat_lt
    intro c hc
    simp only [List.mem_cons, List.not_mem_nil, or_false] at hc
    rcases hc with rfl | rfl | rfl | rfl
    · have := char64_ne (a.toNat / 4) (by omega); exact ⟨this.1, this.2.2⟩
    · have := char64_ne (a.toNat % 4 * 16) (by omega); exact ⟨this.1, this.2.2⟩
    · decide
    · decide
  | case3 a b =>
    have := a.toNat_lt; have := b.toNat_lt
    intro c hc
    simp only [List.mem_cons, List.not_mem_nil, or_false] at hc
    rcases hc with rfl | rfl | rfl | rfl
    · have := char64_ne (a.toNat / 4) (by omega); exact ⟨this.1, this.2.2⟩
    · have := char64_ne (a.toNat % 4 * 16 + b.toNat / 16) (by omega); exact ⟨this.1, this.2.2⟩
    · have := char64_ne (b.toNat % 16 * 4) (by omega); exact ⟨this.1, this.2.2⟩
    · decide
  | case4 a b c rest ih =>
    have := a.toNat_lt; have := b.toNat_lt; have := c.toNat_lt
    intro x hx
    simp only [List.mem_cons] at hx
    rcases hx with rfl | rfl | rfl | rfl | hx
    · have := char64_ne (a.toNat / 4) (by omega); exact ⟨this.1, this.2.2⟩
    · have := char64_ne (a.toNat % 4 * 16 + b.toNat / 16) (by omega); exact ⟨this.1, this.2.2⟩
    · have := char64_ne (b.toNat % 16 * 4 + c.toNat / 64) (by omega); exact ⟨this.1, this.2.2⟩
    · have := char64_ne (c.toNat % 64) (by omega); exact ⟨this.1, this.2.2⟩
    · exact ih x hx

theorem length_encodeBlock (s : Bytes) : (encodeBlock s).length = (s.length + 2) / 3 * 4 := by
  fun_induction encodeBlock s with
  | case1 => rfl
  | case2 => simp
  | case3 => simp
  | case4 a b c rest ih => simp only [List.length_cons, ih]; omega

/-- The `decodeLine` of four characters that are no padding. -/
theorem decodeLine_step (a b c d : UInt8) (rest : Bytes) (hc : d ≠ 0x3d) :
    decodeLine (a :: b :: c :: d :: rest) = (do
      let a ← value a; let b ← value b; let c ← value c; let d ← value d
      let r ← decodeLine rest
      some (UInt8.ofNat (a * 4 + b / 16) :: UInt8.ofNat (b % 16 * 16 + c / 4) :: UInt8.ofNat (c % 4 * 64 + d) :: r)) := by
  rw [decodeLine.eq_def]
  split
  · simp at *
  · simp_all
  · simp_all
  · simp_all
  · rename_i h
    exact absurd rfl (h a b c d rest)

theorem decodeLine_encodeBlock (x : Bytes) : ∀ (s : Bytes), s.length % 3 = 0 →
    decodeLine (encodeBlock s ++ encodeBlock x) = some (s ++ x) := by
  intro s
  fun_induction encodeBlock s with
  | case1 =>
    intro _
    simp only [List.nil_append]
    fun_induction encodeBlock x with
    | case1 => rfl
    | case2 a =>
      have := a.toNat_lt
      rw [decodeLine, value_char64 _ (by omega), value_char64 _ (by omega)]
      simp only [Option.bind_eq_bind, Option.bind_some, Option.some.injEq, List.cons.injEq, and_true]
      rw [show a.toNat / 4 * 4 + a.toNat % 4 * 16 / 16 = a.toNat by omega]; simp
    | case3 a b =>
      have := a.toNat_lt; have := b.toNat_lt
      have hne := char64_ne (b.toNat % 16 * 4) (by omega)
      rw [decodeLine.eq_def]
      split
      · simp at *
      · simp_all
      · rename_i h
        simp only [List.cons.injEq, and_true] at h
        obtain ⟨rfl, rfl, rfl⟩ := h
        rw [value_char64 _ (by omega), value_char64 _ (by omega), value_char64 _ (by omega)]
        simp only [Option.bind_eq_bind, Option.bind_some, Option.some.injEq, List.cons.injEq, and_true]
        refine ⟨?_, ?_⟩
        · rw [show a.toNat / 4 * 4 + (a.toNat % 4 * 16 + b.toNat / 16) / 16 = a.toNat by omega]; simp
        · rw [show (a.toNat % 4 * 16 + b.toNat / 16) % 16 * 16 + b.toNat % 16 * 4 / 4 = b.toNat by omega]; simp
      · simp_all
      · simp_all
    | case4 a b c rest ih =>
      have := a.toNat_lt; have := b.toNat_lt; have := c.toNat_lt
      rw [decodeLine_step _ _ _ _ _ (char64_ne _ (by omega)).2.1, value_char64 _ (by omega), value_char64 _ (by omega), value_char64 _ (by omega), value_char64 _ (by omega), ih]
      simp only [Option.bind_eq_bind, Option.bind_some, Option.some.injEq, List.cons.injEq, and_true]
      refine ⟨?_, ?_, ?_⟩
      · rw [show a.toNat / 4 * 4 + (a.toNat % 4 * 16 + b.toNat / 16) / 16 = a.toNat by omega]; simp
      · rw [show (a.toNat % 4 * 16 + b.toNat / 16) % 16 * 16 + (b.toNat % 16 * 4 + c.toNat / 64) / 4 = b.toNat by omega]; simp
      · rw [show (b.toNat % 16 * 4 + c.toNat / 64) % 4 * 64 + c.toNat % 64 = c.toNat by omega]; simp
  | case2 a => simp
  | case3 a b => simp
  | case4 a b c rest ih =>
    intro h
    have := a.toNat_lt; have := b.toNat_lt; have := c.toNat_lt
    simp only [List.cons_append]
    rw [decodeLine_step _ _ _ _ _ (char64_ne _ (by omega)).2.1, value_char64 _ (by omega), value_char64 _ (by omega), value_char64 _ (by omega), value_char64 _ (by omega),
      ih (by simp at h; omega)]
    simp only [Option.bind_eq_bind, Option.bind_some, Option.some.injEq, List.cons.injEq, and_true]
    refine ⟨?_, ?_, ?_⟩
    · rw [show a.toNat / 4 * 4 + (a.toNat % 4 * 16 + b.toNat / 16) / 16 = a.toNat by omega]; simp
    · rw [show (a.toNat % 4 * 16 + b.toNat / 16) % 16 * 16 + (b.toNat % 16 * 4 + c.toNat / 64) / 4 = b.toNat by omega]; simp
    · rw [show (b.toNat % 16 * 4 + c.toNat / 64) % 4 * 64 + c.toNat % 64 = c.toNat by omega]; simp

theorem encodeBlock_append : ∀ (s x : Bytes), s.length % 3 = 0 → encodeBlock (s ++ x) = encodeBlock s ++ encodeBlock x := by
  intro s
  fun_induction encodeBlock s with
  | case1 => intro x _; rfl
  | case2 => intro x h; simp at h
  | case3 => intro x h; simp at h
  | case4 a b c rest ih =>
    intro x h
    simp only [List.cons_append, encodeBlock]
    rw [ih x (by simp at h; omega)]

/-- Without its newlines the output is the encoding of the whole. -/
theorem filter_bio (s : Bytes) : (bioOutput s).filter (· ≠ 0x0a) = encodeBlock s := by
  fun_induction bioOutput s with
  | case1 => rfl
  | case2 s hs ih =>
    rw [List.filter_append, List.filter_append, ih]
    have h1 : (encodeBlock (s.take 48)).filter (· ≠ 0x0a) = encodeBlock (s.take 48) := by
      apply List.filter_eq_self.mpr
      intro c hc; simpa using (mem_encodeBlock _ c hc).1
    rw [h1]
    simp only [List.filter_cons, List.filter_nil]
    by_cases hl : 48 ≤ s.length
    · have := encodeBlock_append (s.take 48) (s.drop 48) (by simp; omega)
      rw [List.take_append_drop] at this
      rw [this]; simp
    · rw [List.take_of_length_le (by omega), List.drop_of_length_le (by omega)]; simp [encodeBlock]

/-- The lines of the output. -/
def pieces (s : Bytes) : List Bytes :=
  if s = [] then [] else encodeBlock (s.take 48) :: pieces (s.drop 48)
  termination_by s.length
  decreasing_by
    have : s.length ≠ 0 := by simpa using ‹¬s = []›
    simp only [List.length_drop]; omega

theorem bio_pieces (s : Bytes) : bioOutput s = (pieces s).flatMap (· ++ [0x0a]) := by
  fun_induction bioOutput s with
  | case1 => simp [pieces]
  | case2 s hs ih => rw [pieces, if_neg hs, List.flatMap_cons, ih]

theorem pieces_ne {s : Bytes} (h : s ≠ []) : pieces s ≠ [] := by rw [pieces, if_neg h]; simp

theorem join_lines : ∀ (ls : List Bytes), ls ≠ [] → ls.flatMap (· ++ [0x0a]) = (List.intercalate [0x0a] ls) ++ [0x0a] := by
  intro ls
  induction ls with
  | nil => simp
  | cons l ls ih =>
    intro _
    cases ls with
    | nil => simp [List.intercalate]
    | cons m ms =>
      rw [List.flatMap_cons, ih (by simp)]
      simp [List.intercalate]

/-- The text `StringEncodeBase64` gives. -/
def text (s : Bytes) : Bytes := List.intercalate [0x0a] (pieces s)

theorem nul_free (s : Bytes) : 0 ∉ bioOutput s := by
  fun_induction bioOutput s with
  | case1 => simp
  | case2 s hs ih =>
    simp only [List.mem_append, List.mem_singleton, not_or]
    exact ⟨⟨fun h => (mem_encodeBlock _ _ h).2 rfl, by decide⟩, ih⟩

theorem encode_eq (str : Bytes) (len : Nat) (h : len ≤ str.length) : encode str len = some ((text (str.take len) ++ [0]).map some) := by
  unfold encode
  by_cases h0 : len = 0
  · rw [if_pos h0, h0]; simp [text, pieces, List.intercalate]
  · rw [if_neg h0, if_neg (by omega)]
    have hne : str.take len ≠ [] := by
      intro hh; have := congrArg List.length hh; simp only [List.length_take, List.length_nil] at this; omega
    have hb : bioOutput (str.take len) = text (str.take len) ++ [0x0a] := by
      rw [bio_pieces, join_lines _ (pieces_ne hne), text]
    simp only [Option.bind_eq_bind]
    rw [hb]
    generalize text (str.take len) = t
    have hm : CMem.memcpy (List.replicate (t ++ [0x0a]).length (some 0)) 0 ((t ++ [0x0a]).map some) 0 ((t ++ [0x0a]).length - 1) =
        some (t.map some ++ [some (0 : UInt8)]) := by
      unfold CMem.memcpy
      simp
    rw [hm, Option.bind_some]
    simp [CMem.write]

/-- C145. Decoding the result of `StringEncodeBase64` gives the bytes back, whatever they are; the result is a terminated string without NUL. -/
theorem C145_round_trip (str : Bytes) (len : Nat) (h : len ≤ str.length) :
    ∃ t, encode str len = some ((t ++ [0]).map some) ∧ 0 ∉ t ∧ decode t = some (str.take len) := by
  refine ⟨_, encode_eq str len h, ?_, ?_⟩
  · by_cases hne : str.take len = []
    · rw [hne]; simp [text, pieces, List.intercalate]
    · intro hh
      apply nul_free (str.take len)
      rw [bio_pieces, join_lines _ (pieces_ne hne)]
      simp only [List.mem_append]; left; exact hh
  · by_cases hne : str.take len = []
    · rw [hne]; simp [text, pieces, List.intercalate, decode, decodeLine]
    · have hf := filter_bio (str.take len)
      rw [bio_pieces, join_lines _ (pieces_ne hne), List.filter_append] at hf
      unfold decode text
      have : ([0x0a] : Bytes).filter (· ≠ 0x0a) = [] := by decide
      rw [this, List.append_nil] at hf
      rw [hf]
      have := decodeLine_encodeBlock (str.take len) [] rfl
      simpa [encodeBlock] using this

theorem pieces_lengths (s : Bytes) : ∀ i (hi : i < (pieces s).length),
    ((pieces s)[i].length = 64 ∨ (i + 1 = (pieces s).length ∧ (pieces s)[i].length = ((s.length - 48 * i + 2) / 3 * 4))) ∧ 0 < (pieces s)[i].length ∧ (pieces s)[i].length ≤ 64 := by
  fun_induction pieces s with
  | case1 => intro i hi; simp at hi
  | case2 s hs ih =>
    have hpos : 0 < s.length := List.length_pos_iff.mpr hs
    intro i hi
    cases i with
    | zero =>
      simp only [List.getElem_cons_zero, length_encodeBlock, List.length_take, List.length_cons, Nat.mul_zero, Nat.sub_zero]
      by_cases hl : 48 ≤ s.length
      · rw [Nat.min_eq_left hl]; omega
      · rw [Nat.min_eq_right (by omega)]
        refine ⟨Or.inr ⟨?_, rfl⟩, by omega, by omega⟩
        rw [List.drop_of_length_le (by omega)]; simp [pieces]
    | succ i =>
      simp only [List.getElem_cons_succ, List.length_cons]
      obtain ⟨h1, h2, h3⟩ := ih i (by simpa using hi)
      refine ⟨?_, h2, h3⟩
      rcases h1 with h1 | ⟨h1, h1'⟩
      · exact Or.inl h1
      · right
        refine ⟨by omega, ?_⟩
        rw [h1']; simp only [List.length_drop]
        congr 2; omega

/-- C145. The result has lines of 64 characters, the last one shorter if need be but never empty; the newline at the end is not part of it. -/
theorem C145_lines (str : Bytes) (len : Nat) (h : len ≤ str.length) (hpos : 0 < len) :
    ∃ t, encode str len = some ((t ++ [0]).map some) ∧
      (∀ l ∈ (lines t).dropLast, l.length = 64) ∧ (∀ l ∈ lines t, 0 < l.length ∧ l.length ≤ 64) ∧ t.getLast? ≠ some 0x0a := by
  have hne : str.take len ≠ [] := by
    intro hh; have := congrArg List.length hh; simp only [List.length_take, List.length_nil] at this; omega
  have hlines : lines (text (str.take len)) = pieces (str.take len) := by
    unfold lines text
    apply List.splitOn_intercalate
    · intro l hl hh
      have : ∀ s : Bytes, ∀ l ∈ pieces s, (0x0a : UInt8) ∉ l := by
        intro s
        fun_induction pieces s with
        | case1 => simp
        | case2 s hs ih =>
          intro l hl
          rcases List.mem_cons.mp hl with rfl | hl
          · intro hh; exact (mem_encodeBlock _ _ hh).1 rfl
          · exact ih l hl
      exact this _ l hl hh
    · exact pieces_ne hne
  refine ⟨_, encode_eq str len h, ?_, ?_, ?_⟩
  · rw [hlines]
    intro l hl
    obtain ⟨i, hi, rfl⟩ := List.mem_iff_getElem.mp hl
    have hi' := hi
    rw [List.length_dropLast] at hi'
    rw [List.getElem_dropLast]
    rcases (pieces_lengths (str.take len) i (by omega)).1 with h1 | ⟨h1, -⟩
    · exact h1
    · omega
  · rw [hlines]
    intro l hl
    obtain ⟨i, hi, rfl⟩ := List.mem_iff_getElem.mp hl
    exact (pieces_lengths _ i hi).2
  · intro hh
    obtain ⟨ps, p, hp⟩ : ∃ ps p, pieces (str.take len) = ps ++ [p] := by
      rcases List.eq_nil_or_concat (pieces (str.take len)) with h | ⟨ps, p, h⟩
      · exact absurd h (pieces_ne hne)
      · exact ⟨ps, p, by simpa using h⟩
    have hpl := pieces_lengths (str.take len) ps.length (by rw [hp]; simp)
    have hpp : (pieces (str.take len))[ps.length]'(by rw [hp]; simp) = p := by simp [hp]
    rw [hpp] at hpl
    have hmem : p ∈ lines (text (str.take len)) := by rw [hlines, hp]; simp
    have : ∃ a, text (str.take len) = a ++ p := by
      unfold text; rw [hp]
      cases ps with
      | nil => exact ⟨[], by simp [List.intercalate]⟩
      | cons q qs =>
        refine ⟨List.intercalate [0x0a] (q :: qs) ++ [0x0a], ?_⟩
        have h1 := join_lines ((q :: qs) ++ [p]) (by simp)
        rw [List.flatMap_append, join_lines (q :: qs) (by simp)] at h1
        simp only [List.flatMap_cons, List.flatMap_nil, List.append_nil] at h1
        have := List.append_cancel_right (by simpa [List.append_assoc] using h1 : (List.intercalate [0x0a] (q :: qs) ++ 0x0a :: p) ++ [0x0a] = List.intercalate [0x0a] ((q :: qs) ++ [p]) ++ [0x0a])
        rw [← this]; simp
    obtain ⟨a, ha⟩ := this
    rw [ha, List.getLast?_append_of_ne_nil _ (by intro h; rw [h] at hpl; simp at hpl)] at hh
    have hx := List.mem_of_getLast? hh
    have : p ∈ pieces (str.take len) := by rw [hp]; simp
    have hno : ∀ s : Bytes, ∀ l ∈ pieces s, (0x0a : UInt8) ∉ l := by
      intro s
      fun_induction pieces s with
      | case1 => simp
      | case2 s hs ih =>
        intro l hl
        rcases List.mem_cons.mp hl with rfl | hl
        · intro hh; exact (mem_encodeBlock _ _ hh).1 rfl
        · exact ih l hl
    exact hno _ p this hx

example : encode [0x61, 0x62, 0x63, 0x64] 4 = some (([0x59, 0x57, 0x4a, 0x6a, 0x5a, 0x41, 0x3d, 0x3d, 0] : Bytes).map some) := by decide +kernel
example : encode [] 0 = some [some 0] := by decide +kernel
example : decode [0x59, 0x57, 0x4a, 0x6a, 0x5a, 0x41, 0x3d, 0x3d] = some [0x61, 0x62, 0x63, 0x64] := by decide +kernel

/-- Finding: what is longer than 48 bytes has newlines inside: the result is not the plain base64 text of one line. -/
theorem C145_newline_inside_negated : ∃ t, encode (List.replicate 49 0x61) 49 = some ((t ++ [0]).map some) ∧ (0x0a : UInt8) ∈ t := by
  refine ⟨_, encode_eq _ _ (by simp), ?_⟩
  decide +kernel

end Base64
