import Verif.Model.Unicode
import Verif.Spec.Unicode
/-! # Property C144: conversion between char and 16-bit strings -/
open UnicodeSpec

namespace Unicode

theorem store_append {α : Type} (a b : List α) (y x : α) (i : Nat) (hi : i = a.length) : store (a ++ y :: b) i x = some (a ++ x :: b) := by
  subst hi
  simp [store]

theorem toWideLoop_ok (size : Nat) : ∀ (text : List UInt8) (tail : List UInt8) (done rest : List Int) (_ : 0 ∉ text)
    (_ : done.length ≤ size) (_ : size + 1 ≤ done.length + rest.length ),
    toWideLoop size done.length (done ++ rest) (text ++ 0 :: tail) =
      some (done ++ (text.take (size - done.length)).map widen ++ rest.drop (min text.length (size - done.length)),
            done.length + min text.length (size - done.length)) := by
  intro text
  induction text with
  | nil =>
    intro tail done rest _ h1 h2
    rw [toWideLoop.eq_def]
    by_cases h : done.length < size
    · simp [h]
    · simp [h]
  | cons x text ih =>
    intro tail done rest h0 h1 h2
    rw [toWideLoop.eq_def]
    have hx : x ≠ 0 := fun h => h0 (by simp [h])
    by_cases h : done.length < size
    · obtain ⟨r, rest', rfl⟩ : ∃ r rest', rest = r :: rest' := by
        match rest, h2 with
        | r :: rest', _ => exact ⟨r, rest', rfl⟩
        | [], h2 => simp at h2; omega
      simp only [h, if_true, List.cons_append, hx, if_false]
      rw [store_append done rest' r (widen x) done.length rfl]
      have := ih tail (done ++ [widen x]) rest' (fun hh => h0 (by simp [hh])) (by simp; omega) (by simp at h2 ⊢; omega)
      rw [show (done ++ [widen x]).length = done.length + 1 by simp, List.append_assoc] at this
      simp only [List.singleton_append] at this
      simp only
      rw [this]
      obtain ⟨k, hk⟩ : ∃ k, size - done.length = k + 1 := ⟨size - done.length - 1, by omega⟩
      rw [hk, show size - (done.length + 1) = k by omega]
      simp only [List.length_cons, List.take_succ_cons, List.map_cons, Nat.add_min_add_right, List.drop_succ_cons, List.append_assoc,
        List.cons_append, List.nil_append, Option.some.injEq, Prod.mk.injEq, true_and]
      omega
    · simp only [h, if_false]
      have : size - done.length = 0 := by omega
      simp [this]

/-- C144. `ConvertFromCharToWChar` stores as many characters of the string as fit in `size` elements, and a terminator; nothing else is written or read. -/
theorem C144_to_wide (dst : List Int) (text tail : List UInt8) (size : Nat) (h0 : 0 ∉ text) (hs : 0 < size) (hd : size ≤ dst.length) :
    toWide dst (text ++ 0 :: tail) size = some (put 0 dst (text.map signed) size) := by
  have hdec : dec size = size - 1 := by simp [dec]; omega
  have := toWideLoop_ok (size - 1) text tail [] dst h0 (by simp) (by simp; omega)
  simp only [List.length_nil, List.nil_append, Nat.sub_zero, Nat.zero_add] at this
  simp only [toWide, hdec, this]
  have hlen : min text.length (size - 1) = ((text.take (size - 1)).map widen).length := by simp; omega
  have hlt : min text.length (size - 1) < dst.length := by omega
  rw [List.drop_eq_getElem_cons hlt, store_append _ _ _ _ _ hlen]
  simp only [put, Option.some.injEq]
  have hmap : (text.map signed).take (size - 1) = (text.take (size - 1)).map widen := by
    rw [← List.map_take]; rfl
  rw [hmap, ← hlen]

theorem narrow_eq (x : Int) : (narrow x).1 = latin1 x ∧ (narrow x).2 = decide (0 ≤ x ∧ x < 256) := by
  unfold narrow latin1
  by_cases h : x < 0 ∨ x ≥ 0x100
  · rw [if_pos h, if_neg (by omega)]; simp; omega
  · rw [if_neg h, if_pos (by omega)]; simp; omega

theorem toCharLoop_ok (size : Nat) : ∀ (text : List Int) (tail : List Int) (done rest : List UInt8) (clean : Bool) (_ : 0 ∉ text)
    (_ : done.length ≤ size) (_ : size + 1 ≤ done.length + rest.length ),
    toCharLoop size done.length (done ++ rest) clean (text ++ 0 :: tail) =
      some (done ++ (text.take (size - done.length)).map latin1 ++ rest.drop (min text.length (size - done.length)),
            done.length + min text.length (size - done.length),
            clean && (text.take (size - done.length)).all fun x => decide (0 ≤ x ∧ x < 256)) := by
  intro text
  induction text with
  | nil =>
    intro tail done rest clean _ h1 h2
    rw [toCharLoop.eq_def]
    by_cases h : done.length < size
    · simp [h]
    · simp [h]
  | cons x text ih =>
    intro tail done rest clean h0 h1 h2
    rw [toCharLoop.eq_def]
    have hx : x ≠ 0 := fun h => h0 (by simp [h])
    by_cases h : done.length < size
    · obtain ⟨r, rest', rfl⟩ : ∃ r rest', rest = r :: rest' := by
        match rest, h2 with
        | r :: rest', _ => exact ⟨r, rest', rfl⟩
        | [], h2 => simp at h2; omega
      simp only [h, if_true, List.cons_append, hx, if_false]
      rw [store_append done rest' r _ done.length rfl, (narrow_eq x).1, (narrow_eq x).2]
      have := ih tail (done ++ [latin1 x]) rest' (clean && decide (0 ≤ x ∧ x < 256)) (fun hh => h0 (by simp [hh])) (by simp; omega) (by simp at h2 ⊢; omega)
      rw [show (done ++ [latin1 x]).length = done.length + 1 by simp, List.append_assoc] at this
      simp only [List.singleton_append] at this
      simp only
      rw [this]
      obtain ⟨k, hk⟩ : ∃ k, size - done.length = k + 1 := ⟨size - done.length - 1, by omega⟩
      rw [hk, show size - (done.length + 1) = k by omega]
      simp only [List.length_cons, List.take_succ_cons, List.map_cons, Nat.add_min_add_right, List.drop_succ_cons, List.append_assoc,
        List.cons_append, List.nil_append, Option.some.injEq, Prod.mk.injEq, true_and, List.all_cons, Bool.and_assoc, and_true]
      omega
    · simp only [h, if_false]
      have : size - done.length = 0 := by omega
      simp [this]

/-- C144. `ConvertFromWCharToChar` stores as many characters as fit, with an underscore for those that are not Latin-1, and a terminator;
the result says whether all characters stored are the ones of the source. -/
theorem C144_to_char (dst : List UInt8) (text tail : List Int) (size : Nat) (h0 : 0 ∉ text) (hs : 0 < size) (hd : size ≤ dst.length) :
    toChar dst (text ++ 0 :: tail) size =
      some (put 0 dst (text.map latin1) size, (text.take (size - 1)).all fun x => 0 ≤ x ∧ x < 256) := by
  have hdec : dec size = size - 1 := by simp [dec]; omega
  have := toCharLoop_ok (size - 1) text tail [] dst true h0 (by simp) (by simp; omega)
  simp only [List.length_nil, List.nil_append, Nat.sub_zero, Nat.zero_add, Bool.true_and] at this
  simp only [toChar, hdec, this]
  have hlen : min text.length (size - 1) = ((text.take (size - 1)).map latin1).length := by simp; omega
  have hlt : min text.length (size - 1) < dst.length := by omega
  rw [List.drop_eq_getElem_cons hlt, store_append _ _ _ _ _ hlen]
  simp only [put, Option.map_some, Option.some.injEq, Prod.mk.injEq]
  exact ⟨by rw [← List.map_take, ← hlen], trivial⟩

/-- C144. ASCII text comes back unchanged, and is reported clean, when it fits. -/
theorem C144_ascii_round_trip (text : List UInt8) (hA : ∀ c ∈ text, c ≠ 0 ∧ c.toNat < 128) (wide : List Int) (back : List UInt8) (tail : List UInt8)
    (h1 : text.length < wide.length) (h2 : text.length < back.length) :
    ∃ w, toWide wide (text ++ 0 :: tail) wide.length = some w ∧
      ∃ b, toChar back w back.length = some (b, true) ∧ (text ++ [0]) <+: b := by
  have h0 : 0 ∉ text := fun h => (hA 0 h).1 rfl
  refine ⟨_, C144_to_wide wide text tail _ h0 (by omega) (Nat.le_refl _), ?_⟩
  have hput : put 0 wide (text.map signed) wide.length = text.map signed ++ 0 :: wide.drop (text.length + 1) := by
    simp only [put]
    rw [List.take_of_length_le (by simp; omega)]
    simp
  rw [hput]
  have h0' : 0 ∉ text.map signed := by
    intro h
    obtain ⟨c, hc, he⟩ := List.mem_map.mp h
    have := hA c hc
    simp only [signed, this.2, if_true] at he
    exact this.1 (UInt8.toNat_inj.mp (by simpa using he))
  have h3 := C144_to_char back (text.map signed) (wide.drop (text.length + 1)) back.length h0' (by omega) (Nat.le_refl _)
  refine ⟨put 0 back ((text.map signed).map latin1) back.length, ?_, ?_⟩
  · rw [h3]
    congr 2
    simp only [List.all_eq_true, decide_eq_true_eq]
    intro x hx
    obtain ⟨c, hc, he⟩ := List.mem_map.mp (List.mem_of_mem_take hx)
    have := hA c hc
    simp only [signed, this.2, if_true] at he
    omega
  · simp only [put]
    rw [List.take_of_length_le (by simp; omega)]
    have : (text.map signed).map latin1 = text := by
      rw [List.map_map]
      conv_rhs => rw [← List.map_id text]
      apply List.map_congr_left
      intro c hc
      have := hA c hc
      simp only [Function.comp, signed, this.2, if_true, latin1, id]
      rw [if_pos (by omega)]
      simp
    rw [this]
    exact ⟨back.drop (text.length + 1), by simp⟩

example : ∀ c ∈ [(0x61 : UInt8), 0x62, 0x7f], c ≠ 0 ∧ c.toNat < 128 := by decide
example : toWide [7, 7, 7, 7] [0x61, 0x62, 0x63, 0] 3 = some [0x61, 0x62, 0, 7] := by decide +kernel

/-- Finding: a character above 127 is widened to a negative number, which does not come back. -/
theorem C144_latin1_lost_negated : toWide [7, 7] [0xe9, 0] 2 = some [-23, 0] ∧ toChar [7, 7] [-23, 0] 2 = some ([0x5f, 0], false) := by
  constructor <;> decide +kernel

/-- Finding: a size of 0 is taken for the largest size: the call writes past a destination that holds no element. -/
theorem C144_size_zero_negated : toWide [] [0x61, 0] 0 = none ∧ toChar [] [0x61, 0] 0 = none := by
  constructor <;> decide +kernel

end Unicode
