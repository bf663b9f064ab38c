import Verif.Props.Substring

/-! C39 for every call: what `StringSubstring` does for each string, start and length. -/

namespace SubSpec
/-- One beyond the last position the code copies: the end asked for, cut at the end of the string; an end at or before the beginning counts as the end of the
string; for the empty string the end asked for is not cut. -/
def stop (n : Nat) (start len : Int) : Int :=
  let e := if len < 0 then n + len else start + len
  if n = 0 then e else if e ≤ 0 then n else min e n
end SubSpec

open StrSpec CMem SubSpec

namespace Str
theorem substring_stop {n : Nat} (hn : n < 2 ^ 31) {start len : Int} (hs1 : -2 ^ 31 ≤ start) (hs2 : start < 2 ^ 31) (hl1 : -2 ^ 31 ≤ len) (hl : len ≠ 0)
    (hov : 0 < len → start + len < 2 ^ 31) :
    ∃ e, substringEnd n start len = some e ∧ toSSize (min (toSize e) (toSize ((n : Int) - 1))) = stop n start len - 1 := by
  have key : ∀ x : Int, -2 ^ 32 ≤ x → x < 2 ^ 32 → toSSize (min (toSize x) (toSize ((n : Int) - 1))) = (if n = 0 then x + 1 else if x + 1 ≤ 0 then n else min (x + 1) n) - 1 := by
    intro x h1 h2
    by_cases h0 : n = 0
    · subst h0
      have e : toSize (((0 : Nat) : Int) - 1) = 2 ^ 64 - 1 := by rw [toSize]; omega
      rw [e, if_pos rfl]
      by_cases hx : 0 ≤ x
      · rw [toSize_id hx (by omega), show min x (2 ^ 64 - 1) = x by omega, toSSize_id (by omega) (by omega)]; omega
      · have : toSize x = 2 ^ 64 + x := by rw [toSize]; omega
        rw [this, show min (2 ^ 64 + x) (2 ^ 64 - 1) = 2 ^ 64 + x by omega]
        rw [toSSize, Int.bmod_def]
        omega
    · rw [toSize_id (x := (n : Int) - 1) (by omega) (by omega), if_neg h0]
      by_cases hx : 0 ≤ x
      · rw [toSize_id hx (by omega), toSSize_id (by omega) (by omega), if_neg (by omega)]; omega
      · have : toSize x = 2 ^ 64 + x := by rw [toSize]; omega
        rw [this, toSSize_id (by omega) (by omega), if_pos (by omega)]; omega
  by_cases hneg : len < 0
  · refine ⟨(n : Int) + len - 1, ?_, ?_⟩
    · rw [substringEnd, if_pos hneg]
      congr 1
      rw [toSSize, toSize, toSize, Int.bmod_def]
      omega
    · rw [key _ (by omega) (by omega), stop, if_pos hneg]
      simp
  · have hfi : fitsInt (start + len) = true ∧ fitsInt (start + len - 1) = true := by
      simp only [fitsInt, Bool.and_eq_true, decide_eq_true_eq]; omega
    refine ⟨start + len - 1, by rw [substringEnd, if_neg hneg, hfi.1, hfi.2]; rfl, ?_⟩
    rw [key _ (by omega) (by omega), stop, if_neg hneg]
    simp
end Str

/-- C39, every call. For every C string `s` of fewer than 2^31 bytes in a block of just its size, and all `int`s `start` and `len`, with `pos` the position
`start` stands for and `stop` as above, `StringSubstring` returns
* for `len = 0` the empty string;
* NULL if there are fewer than two characters from `pos` to `stop`, also where one was asked for;
* otherwise exactly the characters from `pos` to `stop`, if `pos` is not before the beginning and the string is not empty; else, and where `start + len`
  overflows, the behaviour is undefined (the code reads outside the string). -/
theorem C39_every_call (s : List UInt8) (h0 : 0 ∉ s) (hn : s.length < 2 ^ 31) (start len : Int) (hs1 : -2 ^ 31 ≤ start) (hs2 : start < 2 ^ 31)
    (hl1 : -2 ^ 31 ≤ len) (hl2 : len < 2 ^ 31) :
    Str.substring (s.map some ++ [some 0]) s.length start len =
      if len = 0 then some (some [some 0])
      else if 0 < len ∧ 2 ^ 31 ≤ start + len then none
      else if stop s.length start len ≤ pos s.length start + 1 then some none
      else if pos s.length start < 0 ∨ s = [] then none
      else some (some ((between s (pos s.length start).toNat (stop s.length start len).toNat ++ [0]).map some)) := by
  by_cases hl : len = 0
  · subst hl; rfl
  rw [if_neg hl]
  by_cases hov : 0 < len ∧ 2 ^ 31 ≤ start + len
  · rw [if_pos hov, Str.substring, if_neg hl]
    have : Str.substringEnd s.length start len = none := by
      rw [Str.substringEnd, if_neg (by omega), if_neg]
      simp only [Str.fitsInt, Bool.and_eq_true, decide_eq_true_eq]; omega
    rw [this]; rfl
  rw [if_neg hov]
  obtain ⟨e, he, hb⟩ := Str.substring_stop hn hs1 hs2 hl1 hl (fun h => by omega)
  have hst : (if start < 0 then Str.toInt (s.length + start) else start) = pos s.length start := by
    rw [pos]
    by_cases h : start < 0
    · rw [if_pos h, if_pos h, Str.toInt_id (by omega) (by omega)]
    · rw [if_neg h, if_neg h]
  by_cases hlt : stop s.length start len ≤ pos s.length start + 1
  · rw [if_pos hlt, Str.substring, if_neg hl, he]
    simp only [Option.bind_eq_bind, Option.bind_some, hb, hst]
    rw [if_pos (by omega)]
  rw [if_neg hlt]
  by_cases hp : pos s.length start < 0
  · rw [if_pos (Or.inl hp), Str.substring, if_neg hl, he]
    simp only [Option.bind_eq_bind, Option.bind_some, hb, hst]
    rw [if_neg (by omega), if_pos hp]
  by_cases hs : s = []
  · subst hs
    rw [if_pos (Or.inr rfl), Str.substring, if_neg hl, he]
    simp only [Option.bind_eq_bind, Option.bind_some, hb, hst]
    rw [if_neg (by omega), if_neg hp, CMem.memcpy, if_neg]
    · rfl
    · simp only [List.map_nil, List.nil_append, List.length_singleton, List.length_replicate]
      omega
  · rw [if_neg (by simp [hp, hs])]
    have hpos : 0 < s.length := List.length_pos_iff.2 hs
    have hle : stop s.length start len ≤ s.length := by
      simp only [stop]
      split <;> split <;> (try split) <;> omega
    rw [Str.substring_bounds (s.map some ++ [some 0]) s ⟨h0, [], rfl⟩ hn start len e hl hs1 hs2 he (pos s.length start).toNat
      (stop s.length start len).toNat (by omega) (by rw [hb]; omega) (by omega), if_pos (by omega)]

/-- Finding: for the empty string the end is not cut: `StringSubstring("", 0, 0, 2)` copies two bytes of the one there is. -/
theorem C39_empty_string_read_beyond_negated : Str.substring [some 0] 0 0 2 = none := by decide

example : stop 3 0 5 = 3 ∧ stop 3 0 (-1) = 2 ∧ stop 3 (-3) 2 = 3 ∧ stop 0 0 2 = 2 ∧ pos 3 (-3) = 0 := by decide
