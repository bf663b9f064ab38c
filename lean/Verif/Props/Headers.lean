import Verif.Model.Headers
import Verif.Spec.Headers
import Verif.Spec.Strings
import Verif.Lemmas.StrCopy
import Verif.Props.StrNum
import Mathlib.Tactic.Ring
import Mathlib.Tactic.Linarith
/-! # C171 to C174: macros and inline functions of the headers -/
namespace HdrSpec
open Hdr NumSpec

/-! ## C171: PRINTSIZE -/

theorem pow_bound (n : Nat) : 2 ^ (8 * n) ≤ 10 ^ (53 * n / 22 + 1) := by
  have h1 : (2 ^ (8 * n)) ^ 22 ≤ (10 ^ (53 * n / 22 + 1)) ^ 22 := by
    calc (2 ^ (8 * n)) ^ 22 = (2 ^ 176) ^ n := by rw [← pow_mul, ← pow_mul]; congr 1; ring
      _ ≤ (10 ^ 53) ^ n := Nat.pow_le_pow_left (by norm_num) n
      _ = 10 ^ (53 * n) := by rw [← pow_mul]
      _ ≤ 10 ^ ((53 * n / 22 + 1) * 22) := Nat.pow_le_pow_right (by norm_num) (by omega)
      _ = _ := by rw [pow_mul]
  exact (Nat.pow_le_pow_iff_left (by norm_num)).mp h1

theorem printsize_eq (n : Nat) (h : n < 2 ^ 58) : printsize n = 3 + 53 * n / 22 := by
  unfold printsize
  rw [Nat.mod_eq_of_lt (a := 53 * n) (by omega), Nat.mod_eq_of_lt (by omega)]

theorem decimal_ne0 (n : Nat) : 0 ∉ decimal n := by
  intro h
  have := List.all_eq_true.mp (decimal_digits n).1 0 h
  revert this; decide

theorem natText_len (v n : Nat) (h : v < 2 ^ (8 * n)) : (Str.natText v).length ≤ 53 * n / 22 + 1 := by
  rw [natText_eq]
  exact (decimal_length v _ (by omega)).mp (lt_of_lt_of_le h (pow_bound n))

theorem store_new (k : Nat) (bs : List UInt8) (h0 : 0 ∉ bs) (h : bs.length < k) :
    ∃ m', CMem.store (List.replicate k none) 0 (bs ++ [0]) = some m' ∧ StrSpec.Stored (List.replicate k none) m' k bs := by
  simpa using CMem.stored_of_store (m := List.replicate k none) (t := []) (rest := List.replicate k none) (by simp) bs k (by simpa using h) (by simp) (by simp) h0

/-- C171. A buffer of `PRINTSIZE(x)` bytes always takes the decimal text of `x` with its terminating NUL, whatever the size `n` in bytes of
the type of `x`: every signed value under `%d`, with its sign under `%+d`, and every unsigned value under `%u`. -/
theorem C171_printsize (n : Nat) (hn : 0 < n) (hs : n < 2 ^ 58) :
    (∀ v : Int, -2 ^ (8 * n - 1) ≤ v → v < 2 ^ (8 * n - 1) →
      (∃ m, printSigned n false v = some m ∧ m.length = printsize n ∧ StrSpec.HoldsStr m (decimalInt v)) ∧
      ∃ m, printSigned n true v = some m ∧ m.length = printsize n ∧
        StrSpec.HoldsStr m (if v < 0 then decimalInt v else 43 :: decimalInt v)) ∧
    ∀ v : Nat, v < 2 ^ (8 * n) → ∃ m, printUnsigned n v = some m ∧ m.length = printsize n ∧ StrSpec.HoldsStr m (decimal v) := by
  have hp := printsize_eq n hs
  refine ⟨fun v h1 h2 => ?_, fun v hv => ?_⟩
  · have hpow : (2 : Int) ^ (8 * n - 1) = ((2 ^ (8 * n - 1) : Nat) : Int) := by simp
    have hle : 2 ^ (8 * n - 1) < 2 ^ (8 * n) := Nat.pow_lt_pow_right (by norm_num) (by omega)
    have hva : v.natAbs < 2 ^ (8 * n) := by omega
    have hl := natText_len v.natAbs n hva
    have h0 : 0 ∉ Str.natText v.natAbs := by rw [natText_eq]; exact decimal_ne0 _
    constructor
    · unfold printSigned decimalInt
      by_cases hneg : v < 0
      · obtain ⟨m, e, st⟩ := store_new (printsize n) (45 :: Str.natText v.natAbs) (by simp [h0]) (by simp; omega)
        exact ⟨m, by simpa [hneg] using e, by simpa using st.size, by rw [if_pos hneg, ← natText_eq]; exact st.string⟩
      · obtain ⟨m, e, st⟩ := store_new (printsize n) (Str.natText v.natAbs) h0 (by omega)
        exact ⟨m, by simpa [hneg] using e, by simpa using st.size, by rw [if_neg hneg, ← natText_eq]; exact st.string⟩
    · unfold printSigned decimalInt
      by_cases hneg : v < 0
      · obtain ⟨m, e, st⟩ := store_new (printsize n) (45 :: Str.natText v.natAbs) (by simp [h0]) (by simp; omega)
        exact ⟨m, by simpa [hneg] using e, by simpa using st.size, by rw [if_pos hneg, if_pos hneg, ← natText_eq]; exact st.string⟩
      · obtain ⟨m, e, st⟩ := store_new (printsize n) (43 :: Str.natText v.natAbs) (by simp [h0]) (by simp; omega)
        exact ⟨m, by simpa [hneg] using e, by simpa using st.size, by rw [if_neg hneg, if_neg hneg, ← natText_eq]; exact st.string⟩
  · have hl := natText_len v n hv
    have h0 : 0 ∉ Str.natText v := by rw [natText_eq]; exact decimal_ne0 _
    obtain ⟨m, e, st⟩ := store_new (printsize n) (Str.natText v) h0 (by omega)
    exact ⟨m, e, by simpa using st.size, by rw [← natText_eq]; exact st.string⟩

/-- For one byte the macro is exact: -128 fills the five bytes. -/
example : printsize 1 = 5 ∧ printSigned 1 false (-128) = some [some 45, some 49, some 50, some 56, some 0] ∧
    printsize 4 = 12 ∧ printsize 8 = 22 ∧ printsize 16 = 41 := by decide

/-! ## C172: little-endian words -/

theorem swap_val (big : Bool) (v : UInt32) : byteSwap32 big v = wordOf big (wordBytes big v).reverse := by
  cases big <;> rfl

theorem wordOf_bytes (big : Bool) (v : UInt32) : wordOf big (wordBytes big v) = some v := by
  have h : (UInt32.ofNat ((UInt8.ofNat v.toNat).toNat + 256 * (UInt8.ofNat (v.toNat / 256)).toNat +
      65536 * (UInt8.ofNat (v.toNat / 65536)).toNat + 16777216 * (UInt8.ofNat (v.toNat / 16777216)).toNat)) = v := by
    apply UInt32.toNat_inj.mp
    have := v.toNat_lt
    simp only [UInt32.toNat_ofNat', UInt8.toNat_ofNat']
    omega
  cases big <;> simp only [wordOf, wordBytes] <;> simpa using h

theorem bytes_inj (big : Bool) (v w : UInt32) (h : wordBytes big v = wordBytes big w) : v = w := by
  have := wordOf_bytes big v
  rw [h, wordOf_bytes big w] at this
  exact (Option.some.inj this).symm

theorem bytes_wordOf (big : Bool) (m : List UInt8) (h : m.length = 4) : ∃ v, wordOf big m = some v ∧ wordBytes big v = m := by
  match m, h with
  | [a, b, c, d], _ =>
    have ha := a.toNat_lt
    have hb := b.toNat_lt
    have hc := c.toNat_lt
    have hd := d.toNat_lt
    cases big
    · refine ⟨_, rfl, ?_⟩
      simp only [wordBytes]
      simp only [Bool.false_eq_true, if_false, List.cons.injEq, and_true]
      refine ⟨?_, ?_, ?_, ?_⟩ <;> (apply UInt8.toNat_inj.mp; simp only [UInt8.toNat_ofNat', UInt32.toNat_ofNat']; omega)
    · refine ⟨_, rfl, ?_⟩
      simp only [wordBytes]
      simp only [if_true, List.reverse_cons, List.reverse_nil, List.nil_append, List.cons_append, List.cons.injEq, and_true]
      refine ⟨?_, ?_, ?_, ?_⟩ <;> (apply UInt8.toNat_inj.mp; simp only [UInt8.toNat_ofNat', UInt32.toNat_ofNat']; omega)

theorem bytes_len (big : Bool) (v : UInt32) : (wordBytes big v).length = 4 := by cases big <;> rfl

theorem le_bytes (v : UInt32) : LittleEndian v.toNat (wordBytes false v) := by
  refine ⟨rfl, fun i hi => ?_⟩
  have h : i = 0 ∨ i = 1 ∨ i = 2 ∨ i = 3 := by omega
  rcases h with rfl | rfl | rfl | rfl <;> simp [wordBytes]

theorem le_unique (v : UInt32) (m : List UInt8) (h : LittleEndian v.toNat m) : m = wordBytes false v := by
  have h' := le_bytes v
  apply List.ext_getElem?
  intro i
  by_cases hi : i < 4
  · have e := (h.2 i hi).trans (h'.2 i hi).symm
    have hl := h.1
    have hl' := h'.1
    rw [List.getElem?_eq_getElem (by omega), List.getElem?_eq_getElem (by omega)] at e ⊢
    simpa [UInt8.toNat_inj] using e
  · rw [List.getElem?_eq_none (by have := h.1; omega), List.getElem?_eq_none (by have := h'.1; omega)]

theorem rev_bytes (v : UInt32) : (wordBytes true v).reverse = wordBytes false v := by simp [wordBytes]

/-- C172. On a machine of either byte order: `htole32(v)` always succeeds and lies in memory as the little-endian text of `v`, whoever
writes it; reading a word whose memory is the little-endian text of `v` and passing it through `le32toh` gives `v`; and `ByteSwap32`
applied twice gives the number back. -/
theorem C172_little_endian (big : Bool) (v : UInt32) :
    (∃ w, htole32 big v = some w ∧ LittleEndian v.toNat (wordBytes big w)) ∧
    (∀ w m, wordOf big m = some w → LittleEndian v.toNat m → le32toh big w = some v) ∧
    (∃ w, byteSwap32 big v = some w ∧ wordBytes big w = (wordBytes big v).reverse ∧ byteSwap32 big w = some v) := by
  obtain ⟨sw, hsw, hbsw⟩ := bytes_wordOf big (wordBytes big v).reverse (by simp [bytes_len])
  have hs : byteSwap32 big v = some sw := by rw [swap_val, hsw]
  refine ⟨?_, ?_, sw, hs, hbsw, ?_⟩
  · cases big
    · exact ⟨v, rfl, le_bytes v⟩
    · exact ⟨sw, by simpa [htole32] using hs, by rw [hbsw, rev_bytes]; exact le_bytes v⟩
  · intro w m hw hm
    have e := le_unique v m hm
    subst e
    cases big
    · rw [wordOf_bytes] at hw
      simpa [le32toh] using hw.symm
    · simp only [le32toh, if_true, swap_val]
      obtain ⟨u, hu, hbu⟩ := bytes_wordOf true (wordBytes false v) rfl
      rw [hu] at hw
      cases hw
      rw [hbu, ← rev_bytes, List.reverse_reverse, wordOf_bytes]
  · rw [swap_val, hbsw, List.reverse_reverse, wordOf_bytes]

example : byteSwap32 true 0x01020304 = some 0x04030201 ∧ wordBytes true 0x01020304 = [1, 2, 3, 4] ∧
    wordBytes false 0x01020304 = [4, 3, 2, 1] ∧ wordOf true [4, 3, 2, 1] = some 0x04030201 := by decide

/-! ## C173: NULL-tolerant string helpers -/

theorem toInt_eq (n : Nat) (h : n < 2 ^ 31) : toInt n = n := by
  unfold toInt
  rw [BitVec.toInt_eq_toNat_bmod, BitVec.toNat_ofNat, Nat.mod_eq_of_lt (by omega), Int.bmod_eq_of_le (by omega) (by omega)]

/-- C173. The NULL-tolerant helpers.  A duplicate of NULL is NULL; a duplicate of a string is a new block with exactly its bytes (at most
`size` of them) and a NUL; NULL counts as empty, is shown as "(null)" by `SAFENULL` and as "" by `NULL_TO_EMPTY_STRING` and
`NULLStringToEmpty`, while every other string passes unchanged.  `EMPTY_STRING_TO_NULL` maps exactly NULL and "" to NULL and
`SafeStringLength` is the length, for strings shorter than 2^31 bytes (missing: longer ones, see the negated theorem). -/
theorem C173_null_partial (s : Option (List UInt8)) (size : Nat) (h0 : ∀ t, s = some t → 0 ∉ t) :
    (∃ r, safeStringDuplicate s = some r ∧ (r = none ↔ s = none) ∧
      ∀ m, r = some m → ∃ t, s = some t ∧ m = t.map some ++ [some 0]) ∧
    (∃ r, safeStringNDuplicate size s = some r ∧ (r = none ↔ s = none) ∧
      ∀ m, r = some m → ∃ t, s = some t ∧ m = (t.take size).map some ++ [some 0]) ∧
    nullOrEmpty s = some (decide (s = none ∨ s = some [])) ∧
    notNullAndEmpty s = some (decide (s = some [])) ∧
    safeNull s = s.getD [40, 110, 117, 108, 108, 41] ∧ nullToEmpty s = s.getD [] ∧ nullStringToEmpty s = s.getD [] ∧
    ((∀ t, s = some t → t.length < 2 ^ 31) →
      safeStringLength s = (s.getD []).length ∧ emptyToNull s = if s = some [] then none else s) := by
  cases s with
  | none => exact ⟨⟨none, rfl, by simp, by simp⟩, ⟨none, rfl, by simp, by simp⟩, rfl, rfl, rfl, rfl, rfl, fun _ => ⟨rfl, rfl⟩⟩
  | some t =>
    have h := h0 t rfl
    have e0 : ((t ++ [0])[0]? : Option UInt8).bind (fun c => some (c == 0)) = some (decide (t = [])) := by
      cases t with
      | nil => rfl
      | cons c t => simp at h ⊢; exact fun e => h.1 e.symm
    refine ⟨?_, ?_, ?_, ?_, rfl, rfl, rfl, fun hl => ?_⟩
    · exact ⟨some (t.map some ++ [some 0]), by simp [safeStringDuplicate, CMem.store], by simp, fun m hm => ⟨t, rfl, by simpa using hm.symm⟩⟩
    · exact ⟨some ((t.take size).map some ++ [some 0]), by simp [safeStringNDuplicate, CMem.store], by simp, fun m hm => ⟨t, rfl, by simpa using hm.symm⟩⟩
    · simpa [nullOrEmpty] using e0
    · simpa [notNullAndEmpty] using e0
    · have hs : safeStringLength (some t) = t.length := toInt_eq _ (hl t rfl)
      refine ⟨by simpa using hs, ?_⟩
      unfold emptyToNull
      rw [hs]
      cases t <;> simp <;> omega

/-- C173, the full statement is false: for a string of 2^32 bytes `SafeStringLength` is 0 and `EMPTY_STRING_TO_NULL` makes it NULL, and for
2^31 bytes the length is negative. -/
theorem C173_length_negated :
    ¬ (∀ t : List UInt8, 0 ∉ t → safeStringLength (some t) = t.length ∧ emptyToNull (some t) = if t = [] then none else some t) := by
  intro h
  obtain ⟨N, hN⟩ : ∃ N, N = 2 ^ 32 := ⟨_, rfl⟩
  have := (h (List.replicate N 97) (by simp [List.mem_replicate])).1
  simp only [safeStringLength, List.length_replicate] at this
  rw [hN] at this
  revert this; decide

theorem C173_length_extremes (t : List UInt8) :
    (t.length = 2 ^ 32 → safeStringLength (some t) = 0 ∧ emptyToNull (some t) = none) ∧
    (t.length = 2 ^ 31 → safeStringLength (some t) = -2 ^ 31) := by
  refine ⟨fun h => ?_, fun h => ?_⟩
  · have : safeStringLength (some t) = 0 := by simp only [safeStringLength, h]; decide
    exact ⟨this, by simp [emptyToNull, this]⟩
  · simp only [safeStringLength, h]; decide

theorem strncmp_prefix (p : List UInt8) : ∀ (s : List UInt8), 0 ∉ p → 0 ∉ s →
    ∃ r, strncmp p.length (s ++ [0]) (p ++ [0]) = some r ∧ (r = 0 ↔ p <+: s) := by
  induction p with
  | nil => intro s _ _; exact ⟨0, rfl, by simp⟩
  | cons c p ih =>
    intro s hp hs
    have hc : c ≠ 0 := by rintro rfl; simp at hp
    cases s with
    | nil =>
      refine ⟨(0 : Int) - c.toNat, ?_, ?_⟩
      · simp [strncmp, Ne.symm hc]
      · have : c.toNat ≠ 0 := by intro e; exact hc (UInt8.toNat_inj.mp (by simpa using e))
        simp; omega
    | cons d s =>
      by_cases e : d = c
      · subst e
        obtain ⟨r, h1, h2⟩ := ih s (by simp at hp; exact hp.2) (by simp at hs; exact hs.2)
        exact ⟨r, by simpa [strncmp, hc] using h1, by rw [h2]; simp [List.cons_prefix_cons]⟩
      · refine ⟨(d.toNat : Int) - c.toNat, by simp [strncmp, e], ?_⟩
        have : d.toNat ≠ c.toNat := fun h => e (UInt8.toNat_inj.mp h)
        simp [List.cons_prefix_cons, Ne.symm e]; omega

theorem matchAt_iff (n : List UInt8) : ∀ h, matchAt n h = true ↔ n <+: h := by
  induction n with
  | nil => simp [matchAt]
  | cons c n ih =>
    intro h
    cases h with
    | nil => simp [matchAt]
    | cons d h => simp [matchAt, ih, List.cons_prefix_cons]

theorem strstr_isSome (n h : List UInt8) : (strstr n h).isSome = true ↔ n <:+: h := by
  induction h with
  | nil =>
    rw [strstr]
    split
    · rename_i hm; have := (matchAt_iff n []).mp hm; simp_all
    · rename_i hm; have := mt (matchAt_iff n []).mpr hm; simp_all
  | cons c h ih =>
    rw [strstr, List.infix_cons_iff, ← matchAt_iff, ← ih]
    split <;> simp_all

/-- C173. `STARTSWITH` says whether the first string begins with the second, `StringContains` whether the second occurs anywhere in the
first (the empty string always does), and `StringContainsChar` whether the byte occurs; the NUL byte is always reported as contained. -/
theorem C173_contains (s t : List UInt8) (c : UInt8) (hs : 0 ∉ s) (ht : 0 ∉ t) :
    startsWith s t = some (decide (t <+: s)) ∧ (stringContains s t = true ↔ t <:+: s) ∧
    (stringContainsChar s c = true ↔ c ∈ s ∨ c = 0) := by
  refine ⟨?_, strstr_isSome t s, ?_⟩
  · obtain ⟨r, h1, h2⟩ := strncmp_prefix t s ht hs
    simp only [startsWith, h1, Option.bind_eq_bind, Option.bind_some, Option.some.injEq]
    by_cases hr : r = 0
    · simp [hr, h2.mp hr]
    · simp [hr, mt h2.mpr hr]
  · simp only [stringContainsChar, strchr]
    rw [Option.isSome_iff_ne_none, ne_eq, List.findIdx?_eq_none_iff]
    simp

/-- C173. `CharIsPrintableAscii` is true exactly for the 95 bytes from blank to tilde, whether plain `char` is signed or not. -/
theorem C173_printable (signed : Bool) (c : UInt8) : charIsPrintableAscii signed c = true ↔ 32 ≤ c.toNat ∧ c.toNat ≤ 126 := by
  have := c.toNat_lt
  unfold charIsPrintableAscii charVal
  cases signed <;> simp <;> split <;> omega

example : startsWith [97, 98, 99] [97, 98] = some true ∧ startsWith [97] [97, 98] = some false ∧ stringContains [97, 98, 99] [98, 99] = true ∧
    stringContains [97] [97, 98] = false ∧ stringContainsChar [97] 0 = true ∧ stringContainsChar [97] 98 = false ∧
    safeStringNDuplicate 1 (some [97, 98]) = some (some [some 97, some 0]) ∧ nullOrEmpty (some []) = some true := by decide

/-! ## C174: ABS and the size macros -/

/-- C174. `ABS` of a single operand (an identifier, a literal or something in parentheses) is its absolute value; the one exception is the
smallest `int`, for which the negation overflows.  Missing from the full statement: that exception and unparenthesised arguments, see the
negated theorem. -/
theorem C174_abs_partial (v : Int) (h1 : -2 ^ 31 ≤ v) (h2 : v < 2 ^ 31) :
    absM (.atom v) = if v = -2 ^ 31 then none else some (v.natAbs : Int) := by
  simp only [absM, Arg.val, Arg.negated, int32, h1, h2, and_self, if_true, Option.bind_eq_bind, Option.bind_some]
  have hv : (v.natAbs : Int) = if v < 0 then -v else v := by split <;> omega
  rw [hv]
  split <;> split <;> simp <;> omega

/-- C174. `ABS(a - b)`, written without inner parentheses: when the difference is negative the macro computes `-a - b`, which is the
absolute value only if `b` is 0. -/
theorem C174_abs_difference (a b r : Int) (hneg : a - b < 0) (h : absM (.sub a b) = some r) : r = -a - b ∧ (r = (a - b).natAbs ↔ b = 0) := by
  simp only [absM, Arg.val, Arg.negated, int32, Option.bind_eq_bind] at h
  have : r = -a - b := by
    split at h <;> simp at h
    rw [if_pos (by omega)] at h
    split at h <;> simp at h
    exact h.2.symm
  exact ⟨this, by omega⟩

/-- C174, the full statement is false: `ABS(1 - 3)` is -4, and `ABS(INT_MIN)` overflows. -/
theorem C174_abs_negated :
    ¬ (∀ a b : Int, (∃ v, int32 a = some v) → (∃ v, int32 b = some v) → absM (.sub a b) = some ((a - b).natAbs : Int)) ∧
    ¬ (∀ v : Int, (∃ w, int32 v = some w) → absM (.atom v) = some (v.natAbs : Int)) := by
  refine ⟨fun h => ?_, fun h => ?_⟩
  · exact absurd (h 1 3 ⟨1, rfl⟩ ⟨3, rfl⟩) (by decide)
  · exact absurd (h (-2 ^ 31) ⟨-2 ^ 31, by decide⟩) (by decide)

/-- C174. The size macros multiply a single operand exactly as long as the product fits: `KIBIBYTE` and `MEBIBYTE` in `unsigned long`
(32 or 64 bits), the others in 64 bits. -/
theorem C174_sizes_partial (w : Nat) (n : Nat) :
    (n * 1024 < 2 ^ w → kibibyte w (.atom n) = n * 1024) ∧ (n * 1024 ^ 2 < 2 ^ w → mebibyte w (.atom n) = n * 1024 ^ 2) ∧
    (n * 1024 ^ 3 < 2 ^ 64 → gibibyte (.atom n) = n * 1024 ^ 3) ∧ (n * 1024 ^ 4 < 2 ^ 64 → tebibyte (.atom n) = n * 1024 ^ 4) := by
  have key : ∀ (w k : Nat), n * k < 2 ^ w → (((n : Int) * k) % 2 ^ w).toNat = n * k := by
    intro w k h
    have : ((2 : Int) ^ w) = ((2 ^ w : Nat) : Int) := by simp
    rw [this, ← Int.natCast_mul, ← Int.natCast_emod, Int.toNat_natCast, Nat.mod_eq_of_lt h]
  refine ⟨fun h => ?_, fun h => ?_, fun h => ?_, fun h => ?_⟩
  · exact key w 1024 h
  · exact key w (1024 ^ 2) h
  · exact key 64 (1024 ^ 3) h
  · exact key 64 (1024 ^ 4) h

/-- C174, the full statement is false: where `unsigned long` has 32 bits `MEBIBYTE(4096)` is 0, and `KIBIBYTE(1 + 1)` is 1025. -/
theorem C174_sizes_negated :
    ¬ (∀ w n : Nat, (w = 32 ∨ w = 64) → mebibyte w (.atom n) = n * 1024 ^ 2) ∧ ¬ (∀ a b : Nat, a + b < 2 ^ 22 → kibibyte 64 (.add a b) = (a + b) * 1024) := by
  refine ⟨fun h => absurd (h 32 4096 (.inl rfl)) (by decide), fun h => absurd (h 1 1 (by decide)) (by decide)⟩

example : absM (.atom (-7)) = some 7 ∧ absM (.sub 1 3) = some (-4) ∧ absM (.atom (-2 ^ 31)) = none ∧ kibibyte 32 (.atom 4) = 4096 ∧
    gibibyte (.atom 5) = 5368709120 := by decide

end HdrSpec
