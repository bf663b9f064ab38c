import Verif.Props.StrNum
/-! # C39 (substrings)

`StringSubstring(s, strlen(s), start, len)`: a non-negative `start` counts from the front, a negative one from the end; a positive `len` is the number
of characters, a negative one drops characters from the end. -/
open StrSpec CMem SubSpec

namespace Str

theorem toSSize_id {x : Int} (h1 : -2 ^ 63 ≤ x) (h2 : x < 2 ^ 63) : toSSize x = x := by
  rw [toSSize, Int.bmod_eq_of_le] <;> omega
theorem toInt_id {x : Int} (h1 : -2 ^ 31 ≤ x) (h2 : x < 2 ^ 31) : toInt x = x := by
  rw [toInt, Int.bmod_eq_of_le] <;> omega
theorem toSize_id {x : Int} (h1 : 0 ≤ x) (h2 : x < 2 ^ 64) : toSize x = x := by rw [toSize]; omega

/-- The copy once the bounds are known. -/
theorem substring_copy (m : List (Option UInt8)) (s : List UInt8) (hm : HoldsStr m s) (a b : Nat) (hab : a + 1 < b) (hb : b ≤ s.length) :
    (CMem.memcpy (List.replicate ((b - 1 : Int) - a + 2).toNat (some 0)) 0 m ((a : Int)).toNat ((b - 1 : Int) - a + 1).toNat) =
      some ((between s a b ++ [0]).map some) := by
  obtain ⟨h0, rest, rfl⟩ := hm
  have e1 : ((b - 1 : Int) - a + 2).toNat = b - a + 1 := by omega
  have e2 : ((b - 1 : Int) - a + 1).toNat = b - a := by omega
  have e3 : ((a : Int)).toNat = a := by omega
  rw [e1, e2, e3, CMem.memcpy, if_pos (by simp; omega)]
  congr 1
  simp only [List.take_zero, List.nil_append, Nat.zero_add, List.drop_replicate, between]
  rw [List.drop_append_of_le_length (by simp; omega), List.take_append_of_le_length (by simp; omega)]
  rw [show b - a + 1 - (b - a) = 1 by omega]
  simp

/-- The result of the model from the two bounds it computes. -/
theorem substring_bounds (m : List (Option UInt8)) (s : List UInt8) (hm : HoldsStr m s) (hn : s.length < 2 ^ 31) (start len e : Int) (hl : len ≠ 0)
    (hs1 : -2 ^ 31 ≤ start) (hs2 : start < 2 ^ 31)
    (he : substringEnd s.length start len = some e) (a b : Nat) (ha : pos s.length start = a)
    (hb : toSSize (min (toSize e) (toSize (s.length - 1))) = (b : Int) - 1) (hbn : b ≤ s.length) :
    Str.substring m s.length start len = some (if a + 1 < b then some ((between s a b ++ [0]).map some) else none) := by
  have hst : (if start < 0 then toInt (s.length + start) else start) = a := by
    rw [pos] at ha
    by_cases h : start < 0
    · rw [if_pos h] at ha ⊢; rw [toInt_id (by omega) (by omega)]; exact ha
    · rw [if_neg h] at ha ⊢; exact ha
  rw [substring, if_neg hl, he]
  simp only [Option.bind_eq_bind, Option.bind_some, hb, hst]
  by_cases hab : a + 1 < b
  · rw [if_neg (by omega), if_neg (by omega), if_pos hab, substring_copy m s hm a b hab hbn]; rfl
  · rw [if_pos (by omega), if_neg hab]

end Str

/-- C39, partial. For a C string `s` of fewer than 2^31 bytes passed with its own length, and `start` within it, the result is the
block holding exactly the wanted slice, provided the slice has at least two characters, and NULL if it has fewer:
* `start ≥ 0`, `len > 0`: positions `start` up to `start + len`, cut at the end of the string;
* `len < 0`, `-len < |s|`: positions `start` (counted from the end when negative) up to `|s| + len`;
* `len = 0`: the empty string.
Missing: one-character slices, negative `start` with positive `len`, `-len ≥ |s|`, and `start` before the beginning, for which the code does something
else (next theorems). -/
theorem C39_substring_partial (m : List (Option UInt8)) (s : List UInt8) (hm : HoldsStr m s) (hn : s.length < 2 ^ 31) :
    (∀ start len : Nat, 0 < len → start < s.length → start + len < 2 ^ 31 →
      Str.substring m s.length start len = some (if start + 1 < min (start + len) s.length then
        some ((between s start (min (start + len) s.length) ++ [0]).map some) else none)) ∧
    (∀ (start : Int) (k a : Nat), 0 < k → k < s.length → -2 ^ 31 ≤ start → start < 2 ^ 31 → pos s.length start = a →
      Str.substring m s.length start (-k) = some (if a + 1 < s.length - k then some ((between s a (s.length - k) ++ [0]).map some) else none)) ∧
    (∀ start : Int, Str.substring m s.length start 0 = some (some [some 0])) := by
  refine ⟨?_, ?_, ?_⟩
  · intro start len h1 h2 h3
    have hfi : Str.fitsInt ((start : Int) + len) = true ∧ Str.fitsInt ((start : Int) + len - 1) = true := by
      simp only [Str.fitsInt, Bool.and_eq_true, decide_eq_true_eq]; omega
    refine Str.substring_bounds m s hm hn start len ((start : Int) + len - 1) (by omega) (by omega) (by omega) ?_ start _ ?_ ?_ (by omega)
    · rw [Str.substringEnd, if_neg (by omega), hfi.1, hfi.2]; rfl
    · rw [pos, if_neg (by omega)]
    · rw [Str.toSize_id (by omega) (by omega), Str.toSize_id (by omega) (by omega), Str.toSSize_id (by omega) (by omega)]; omega
  · intro start k a h1 h2 h3 h4 h5
    refine Str.substring_bounds m s hm hn start (-k) ((s.length : Int) - k - 1) (by omega) h3 h4 ?_ a _ h5 ?_ (by omega)
    · rw [Str.substringEnd, if_pos (by omega), Str.toSize_id (x := (s.length : Int) + -(k : Int)) (by omega) (by omega), Str.toSize_id (by omega) (by omega), Str.toSSize_id (by omega) (by omega)]
      congr 1
    · rw [Str.toSize_id (by omega) (by omega), Str.toSize_id (by omega) (by omega), Str.toSSize_id (by omega) (by omega)]; omega
  · intro start; rfl

example : HoldsStr [some 97, some 98, some 99, some 0] [97, 98, 99] ∧
    Str.substring [some 97, some 98, some 99, some 0] 3 0 2 = some (some [some 97, some 98, some 0]) ∧
    Str.substring [some 97, some 98, some 99, some 0] 3 (-3) (-1) = some (some [some 97, some 98, some 0]) := ⟨⟨by decide, [], rfl⟩, by decide, by decide⟩

/-- Finding: a one-character substring is never returned: for every string and every position the result is NULL. -/
theorem C39_single_character_is_null (m : List (Option UInt8)) (s : List UInt8) (hm : HoldsStr m s) (hn : s.length < 2 ^ 30) (start : Nat) (h : start < s.length) :
    Str.substring m s.length start 1 = some none := by
  have := (C39_substring_partial m s hm (by omega)).1 start 1 (by omega) h (by omega)
  rw [if_neg (by omega)] at this
  exact this

/-- Finding: with a negative `start` and `start + len` at most 0, the length is ignored: the whole tail is returned. -/
theorem C39_negative_start_ignores_length (m : List (Option UInt8)) (s : List UInt8) (hm : HoldsStr m s) (hn : s.length < 2 ^ 31)
    (k len : Nat) (h1 : 2 ≤ k) (h2 : k ≤ s.length) (h3 : 0 < len) (h4 : len ≤ k) :
    Str.substring m s.length (-k) len = some (some ((between s (s.length - k) s.length ++ [0]).map some)) := by
  have hfi : Str.fitsInt (-(k : Int) + len) = true ∧ Str.fitsInt (-(k : Int) + len - 1) = true := by
    simp only [Str.fitsInt, Bool.and_eq_true, decide_eq_true_eq]; omega
  have := Str.substring_bounds m s hm hn (-k) len (-(k : Int) + len - 1) (by omega) (by omega) (by omega)
    (by rw [Str.substringEnd, if_neg (by omega), hfi.1, hfi.2]; rfl) (s.length - k) s.length
    (by rw [pos, if_pos (by omega)]; omega)
    (by
      rw [Str.toSize_id (x := (s.length : Int) - 1) (by omega) (by omega)]
      have : Str.toSize (-(k : Int) + len - 1) = 2 ^ 64 + (-(k : Int) + len - 1) := by rw [Str.toSize]; omega
      rw [this, Str.toSSize_id (by omega) (by omega)]; omega) (by omega)
  rw [if_pos (by omega)] at this
  exact this

/-- Finding: dropping more characters than there are returns the tail instead of nothing: `StringSubstring("abc", 3, 0, -4)` is "abc". -/
theorem C39_dropping_too_much : Str.substring [some 97, some 98, some 99, some 0] 3 0 (-4) = some (some [some 97, some 98, some 99, some 0]) := by decide

/-- Finding: a negative `start` beyond the beginning of the string reads before the buffer (undefined), whatever the string. -/
theorem C39_start_before_string (m : List (Option UInt8)) (s : List UInt8) (_hm : HoldsStr m s) (hn : s.length < 2 ^ 31) (h2 : 2 ≤ s.length) (k : Nat)
    (hk : s.length < k) (hk2 : k < 2 ^ 31) : Str.substring m s.length (-k) (-1) = none := by
  have he : Str.substringEnd s.length (-k) (-1) = some ((s.length : Int) - 2) := by
    rw [Str.substringEnd, if_pos (by omega), Str.toSize_id (x := (s.length : Int) + -1) (by omega) (by omega), Str.toSize_id (by omega) (by omega), Str.toSSize_id (by omega) (by omega)]
    congr 1; omega
  rw [Str.substring, if_neg (by omega), he]
  simp only [Option.bind_eq_bind, Option.bind_some]
  rw [if_pos (show -(k : Int) < 0 by omega), Str.toInt_id (by omega) (by omega)]
  rw [Str.toSize_id (x := (s.length : Int) - 2) (by omega) (by omega), Str.toSize_id (by omega) (by omega), Str.toSSize_id (by omega) (by omega)]
  rw [if_neg (by omega), if_pos (by omega)]
