import Verif.Model.Dirent
/-! # C158: directory entries have room for their names -/
namespace Dirent

/-- What a reader finds in the field `d_name`. -/
def nameIn (blk : List (Option UInt8)) (off : Nat) : Option (List UInt8) := CMem.str (blk.drop off)

theorem str_zero (s : List UInt8) (h : 0 ∉ s) (rest : List (Option UInt8)) : CMem.str (s.map some ++ some 0 :: rest) = some s := by
  induction s with
  | nil => rfl
  | cons c s ih =>
    have hc : c ≠ 0 := fun e => h (by simp [e])
    have := ih (fun e => h (by simp [e]))
    simp_all [CMem.str]

theorem toSize_nat (n : Nat) (h : n < 18446744073709551616) : toSize (n : Int) = n := by
  rw [toSize]; omega

theorem bufferSize_ge (off size n : Nat) (h : off + n + 1 < 18446744073709551616) : off + n + 1 ≤ bufferSize off size n ∧ size ≤ bufferSize off size n := by
  rw [bufferSize, Nat.mod_eq_of_lt h]
  exact ⟨Nat.le_max_left _ _, Nat.le_max_right _ _⟩

theorem memcpy_name (k off : Nat) (s : List UInt8) (h0 : 0 ∉ s) (hk : off + (s.length + 1) ≤ k) :
    ∃ blk, CMem.memcpy (List.replicate k (some (0 : UInt8))) off ((s ++ [0]).map some) 0 (s.length + 1) = some blk ∧ blk.length = k ∧ nameIn blk off = some s := by
  rw [CMem.memcpy, if_pos (by simp; omega)]
  refine ⟨_, rfl, by simp; omega, ?_⟩
  have : (List.take off (List.replicate k (some (0 : UInt8)))).length = off := by simp; omega
  rw [nameIn, List.append_assoc, List.drop_append_of_le_length (by omega), List.drop_eq_nil_of_le (by omega), List.nil_append, List.drop_zero,
    List.take_of_length_le (by simp)]
  rw [List.map_append, List.append_assoc]
  exact str_zero s h0 _

/-- **C158** `AllocateDirentForFilename` of any name of fewer than 2^31 - 1 bytes, whatever the layout of `struct dirent`: a block that is at least as large as the structure, in which the field
`d_name` holds the name. -/
theorem C158_entry_holds_the_name (off size : Nat) (name : List UInt8) (h0 : 0 ∉ name) (hl : name.length < 2147483647) (ho : off < 4294967296) :
    ∃ blk, allocate off size name = some blk ∧ size ≤ blk.length ∧ nameIn blk off = some name := by
  have hi : asInt name.length = (name.length : Int) := by
    rw [asInt, BitVec.toInt_eq_toNat_cond, BitVec.toNat_ofNat]; omega
  have hs := toSize_nat name.length (by omega)
  have hs1 : toSize ((name.length : Int) + 1) = name.length + 1 := toSize_nat (name.length + 1) (by omega)
  obtain ⟨b1, b2⟩ := bufferSize_ge off size name.length (by omega)
  simp only [allocate, hi, hs, hs1]
  rw [if_neg (by omega)]
  obtain ⟨blk, e1, e2, e3⟩ := memcpy_name _ off name h0 (show off + (name.length + 1) ≤ bufferSize off size name.length by omega)
  exact ⟨blk, e1, by omega, e3⟩

/-- **C158** The buffer of `DirOpen`: every name the system allows in the directory (at most what `fpathconf` says; without an answer, at most `NAME_MAX`) fits, for every layout. -/
theorem C158_buffer_fits (off size : Nat) (pathconf : Option Int) (nameMax : Option Nat) (name : List UInt8) (h0 : 0 ∉ name) (ho : off < 4294967296)
    (hn : (∃ n : Int, pathconf = some n ∧ 0 ≤ n ∧ n < 4294967296 ∧ (name.length : Int) ≤ n) ∨
      ((pathconf = some (-1) ∨ pathconf = none) ∧ ∃ m, nameMax = some m ∧ m < 4294967296 ∧ name.length ≤ m)) :
    ∃ blk, readdirR (entryBuf off size pathconf nameMax) off name = some blk ∧ nameIn blk off = some name := by
  have hg : name.length ≤ getNameMax pathconf nameMax ∧ getNameMax pathconf nameMax < 4294967296 := by
    rcases hn with ⟨n, rfl, h1, h2, h3⟩ | ⟨hp, m, rfl, h1, h2⟩
    · obtain ⟨k, rfl⟩ := Int.eq_ofNat_of_zero_le h1
      simp only [getNameMax]
      rw [if_pos (by omega), toSize_nat k (by omega)]
      omega
    · rcases hp with rfl | rfl <;> simp only [getNameMax, ne_eq, not_true, if_false] <;> split <;> omega
  obtain ⟨b1, _⟩ := bufferSize_ge off size (getNameMax pathconf nameMax) (by omega)
  obtain ⟨blk, e1, _, e3⟩ := memcpy_name _ off name h0 (show off + (name.length + 1) ≤ bufferSize off size (getNameMax pathconf nameMax) by omega)
  exact ⟨blk, e1, e3⟩

/-- Linux (offset 19, size 280): a name of 300 bytes gets a block of 320. -/
example : bufferSize 19 280 300 = 320 ∧ bufferSize 19 280 5 = 280 ∧ (allocate 19 280 [97, 98]).bind (fun b => nameIn b 19) = some [97, 98] := by decide +kernel

/-- Finding: where there is no limit (`fpathconf` returns -1) and no `NAME_MAX`, the value -1 that should say "cannot be done" is used as a length: one is added, and the buffer is no larger
than the structure. If that ends with `char d_name[1]`, every name of one byte or more is written outside. -/
theorem C158_no_limit_negated (off : Nat) (ho : off < 4294967296) (name : List UInt8) (hn : name ≠ []) :
    (entryBuf off (off + 1) (some (-1)) none).length = off + 1 ∧ readdirR (entryBuf off (off + 1) (some (-1)) none) off name = none := by
  have h1 : getNameMax (some (-1)) none = 18446744073709551615 := by decide
  have h2 : bufferSize off (off + 1) 18446744073709551615 = off + 1 := by
    rw [bufferSize, show off + 18446744073709551615 + 1 = off + 18446744073709551616 by omega, Nat.add_mod_right, Nat.mod_eq_of_lt (by omega)]
    exact Nat.max_eq_right (by omega)
  have h3 : 1 ≤ name.length := by cases name <;> simp_all
  refine ⟨by rw [entryBuf, h1, h2, List.length_replicate], ?_⟩
  rw [readdirR, entryBuf, h1, h2, CMem.memcpy, if_neg (by simp; omega)]

/-- Finding: small answers of `fpathconf` are used although the comment says that values below 255 are not trusted. -/
theorem C158_small_limit_negated : getNameMax (some 14) (some 255) = 14 ∧ getNameMax none (some 14) = 255 := by decide

end Dirent
