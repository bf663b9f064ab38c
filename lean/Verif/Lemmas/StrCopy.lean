import Verif.Model.StrCopy
import Verif.Spec.Strings
import Verif.Lemmas.Csv
/-! # Lemmas about storing into blocks -/
namespace CMem

theorem store_eq {m : List (Option UInt8)} {off : Nat} {bs : List UInt8} (h : off + bs.length ≤ m.length) :
    store m off bs = some (m.take off ++ bs.map some ++ m.drop (off + bs.length)) := by simp [store, h]

theorem store_cons (m : List (Option UInt8)) (off : Nat) (c : UInt8) (bs : List UInt8) :
    (write m off (some c)).bind (fun m => store m (off + 1) bs) = store m off (c :: bs) := by
  by_cases h : off < m.length
  · rw [write_eq h, Option.bind_some]
    by_cases h2 : off + (bs.length + 1) ≤ m.length
    · rw [store_eq (by simp; omega), store_eq (by simpa using h2)]
      congr 1
      apply List.ext_getElem
      · simp; omega
      · intro i h1 h3
        simp only [List.getElem_append, List.length_append, List.length_take, List.length_map, List.getElem_map, List.getElem_take, List.getElem_drop,
          List.getElem_set, List.length_set, List.length_cons]
        grind
    · simp only [store, List.length_set, List.length_cons]
      rw [if_neg (by omega), if_neg (by omega)]
  · rw [write_oob (by omega), Option.bind_none]
    simp only [store, List.length_cons]
    rw [if_neg (by omega)]

theorem store_nil (m : List (Option UInt8)) (off : Nat) (h : off ≤ m.length) : store m off [] = some m := by
  rw [store_eq (by simpa using h)]; simp

theorem write_store (m : List (Option UInt8)) (off : Nat) (c : UInt8) : write m off (some c) = store m off [c] := by
  have := store_cons m off c []
  rw [← this]
  by_cases h : off < m.length
  · rw [write_eq h, Option.bind_some, store_nil _ _ (by simp; omega)]
  · rw [write_oob (by omega)]; rfl

theorem store_append (m : List (Option UInt8)) (off : Nat) (a b : List UInt8) :
    (store m off a).bind (fun m => store m (off + a.length) b) = store m off (a ++ b) := by
  induction a generalizing m off with
  | nil =>
    by_cases h : off ≤ m.length
    · rw [store_nil _ _ h]; simp
    · simp only [store, List.length_nil, List.nil_append]
      rw [if_neg (by omega), if_neg (by omega)]; rfl
  | cons c a ih =>
    rw [List.cons_append, ← store_cons, ← store_cons]
    cases h : write m off (some c) with
    | none => rfl
    | some m' =>
      simp only [Option.bind_some]
      rw [← ih]
      simp [Nat.add_assoc, Nat.add_comm 1]

theorem memcpy_store (m : List (Option UInt8)) (off : Nat) (src : List UInt8) (n : Nat) (h : n ≤ src.length) :
    memcpy m off (src.map some) 0 n = store m off (src.take n) := by
  simp only [memcpy, store, List.length_map, Nat.zero_add, List.length_take, Nat.min_eq_left h, List.drop_zero]
  by_cases h2 : off + n ≤ m.length
  · rw [if_pos ⟨h2, h⟩, if_pos h2]; simp
  · rw [if_neg (by omega), if_neg h2]

theorem strlen_holds {m : List (Option UInt8)} {s : List UInt8} (h : StrSpec.HoldsStr m s) : strlen m 0 = some s.length := by
  obtain ⟨h0, rest, hm⟩ := h
  simp [strlen, hm, CsvParser.str_ok s rest h0]

theorem str_holds {m : List (Option UInt8)} {s : List UInt8} (h : StrSpec.HoldsStr m s) : str m = some s := by
  obtain ⟨h0, rest, hm⟩ := h
  rw [hm, CsvParser.str_ok s rest h0]

theorem holds_of_str {m : List (Option UInt8)} {s : List UInt8} (h : str m = some s) : StrSpec.HoldsStr m s := by
  refine ⟨?_, CsvParser.str_len m s h⟩
  induction m generalizing s with
  | nil => simp [str] at h
  | cons a m ih =>
    cases a with
    | none => simp [str] at h
    | some c =>
      by_cases hc : c = 0
      · simp [str, hc] at h; subst h; simp
      · simp only [str, hc, if_false] at h
        cases hm : str m with
        | none => simp [hm] at h
        | some t =>
          simp [hm] at h
          rw [← h]
          simp only [List.mem_cons, not_or]
          exact ⟨fun e => hc e.symm, ih hm⟩

/-- Storing `bs` followed by NUL behind an initialised prefix. -/
theorem stored_of_store {m : List (Option UInt8)} {t : List UInt8} {rest : List (Option UInt8)} (hm : m = t.map some ++ rest) (bs : List UInt8)
    (n : Nat) (hn : t.length + bs.length < n) (hl : n ≤ m.length) (h0 : 0 ∉ t) (h1 : 0 ∉ bs) :
    ∃ m', store m t.length (bs ++ [0]) = some m' ∧ StrSpec.Stored m m' n (t ++ bs) := by
  have hlen : t.length + (bs ++ [(0 : UInt8)]).length ≤ m.length := by simp; omega
  refine ⟨_, store_eq hlen, ?_, ?_, by simpa using hn, by simp [h0, h1], m.drop (t.length + (bs ++ [(0 : UInt8)]).length), ?_⟩
  · simp only [List.length_append, List.length_take, List.length_map, List.length_drop, List.length_cons, List.length_nil] at hlen ⊢; omega
  · rw [List.drop_append, List.drop_of_length_le (by simp; omega), List.nil_append, List.drop_drop]
    congr 1
    simp; omega
  · have : m.take t.length = t.map some := by
      rw [hm, List.take_append_of_le_length (by simp), List.take_of_length_le (by simp)]
    rw [this]; simp

theorem get_map (t : List UInt8) (rest : List (Option UInt8)) (i : Nat) (h : i < t.length) : get (t.map some ++ rest) i = some t[i] := by
  simp [get, List.getElem?_append_left, h]

theorem get_nul (t : List UInt8) (rest : List (Option UInt8)) : get (t.map some ++ some 0 :: rest) t.length = some 0 := by
  simp [get]

end CMem

namespace Str
open StrSpec CMem

theorem scan_ok : ∀ (n i : Nat) (t : List UInt8) (rest : List (Option UInt8)), 0 ∉ t → i ≤ t.length →
    scan (t.map some ++ some 0 :: rest) i n = some (min t.length (i + n)) := by
  intro n
  induction n with
  | zero => intro i t rest _ hi; simp [scan]; omega
  | succ n ih =>
    intro i t rest h0 hi
    by_cases h : i < t.length
    · have hne : t[i] ≠ 0 := fun e => h0 (e ▸ List.getElem_mem h)
      simp only [scan, get_map t _ i h, Option.bind_eq_bind, Option.bind_some, if_neg hne]
      rw [ih (i + 1) t rest h0 (by omega)]
      congr 1; omega
    · have : i = t.length := by omega
      subst this
      simp only [scan, get_nul, Option.bind_eq_bind, Option.bind_some, if_true]
      congr 1; omega

theorem strlcpyLoop_ok : ∀ (n : Nat) (s : List UInt8) (m : List (Option UInt8)) (d k : Nat), d + n ≤ m.length →
    strlcpyLoop m d k s n =
      if s.length < n then (store m d (s ++ [0])).map fun m' => (m', d + s.length + 1, k + s.length + 1, [], n - s.length)
      else (store m d (s.take n)).map fun m' => (m', d + n, k + n, s.drop n, 0) := by
  intro n
  induction n with
  | zero => intro s m d k h; simp [strlcpyLoop, store_nil m d (by omega)]
  | succ n ih =>
    intro s m d k h
    cases s with
    | nil =>
      simp only [strlcpyLoop, write_store]
      simp
      cases h : store m d [0] <;> simp
    | cons c s =>
      simp only [strlcpyLoop, Option.bind_eq_bind]
      have hw : write m d (some c) = some (m.set d (some c)) := write_eq (by omega)
      rw [hw, Option.bind_some, ih s _ _ _ (by simp; omega)]
      have e1 := store_cons m d c (s ++ [0])
      have e2 := store_cons m d c (s.take n)
      rw [hw, Option.bind_some] at e1 e2
      rw [e1, e2]
      simp only [List.length_cons, Nat.add_lt_add_iff_right, List.take_succ_cons, List.drop_succ_cons, List.cons_append, Nat.add_sub_add_right]
      split
      · congr 1; funext m'; simp; omega
      · congr 1; funext m'; simp; omega

theorem strlcatLoop_ok : ∀ (s : List UInt8) (m : List (Option UInt8)) (d n : Nat), 1 ≤ n → d + n ≤ m.length →
    strlcatLoop m d n s = (store m d (s.take (n - 1))).map fun m' => (m', d + min s.length (n - 1)) := by
  intro s
  induction s with
  | nil => intro m d n hn h; simp [strlcatLoop, store_nil m d (by omega)]
  | cons c s ih =>
    intro m d n hn h
    by_cases h1 : n = 1
    · subst h1
      simp only [strlcatLoop, ne_eq, not_true_eq_false, if_false]
      rw [ih m d 1 (by omega) h]; simp
    · obtain ⟨k, rfl⟩ : ∃ k, n = k + 2 := ⟨n - 2, by omega⟩
      have hw : write m d (some c) = some (m.set d (some c)) := write_eq (by omega)
      simp only [strlcatLoop, ne_eq, h1, not_false_iff, if_true, hw, Option.bind_eq_bind, Option.bind_some]
      rw [ih _ _ _ (by omega) (by simp; omega)]
      have e2 := store_cons m d c (s.take k)
      rw [hw, Option.bind_some] at e2
      simp only [Nat.add_sub_cancel, show k + 2 - 1 - 1 = k by omega, show k + 2 - 1 = k + 1 by omega, List.take_succ_cons, e2]
      congr 1; funext m'; simp; omega

theorem appendLoop_ok : ∀ (s : List UInt8) (m : List (Option UInt8)) (i n : Nat), i ≤ n → n ≤ m.length →
    appendLoop m i n s = (store m i (s.take (n - i))).map fun m' => (m', i + min s.length (n - i), s.drop (n - i)) := by
  intro s
  induction s with
  | nil => intro m i n h h2; simp [appendLoop, store_nil m i (by omega)]
  | cons c s ih =>
    intro m i n h h2
    by_cases h1 : i < n
    · have hw : write m i (some c) = some (m.set i (some c)) := write_eq (by omega)
      simp only [appendLoop, if_pos h1, hw, Option.bind_eq_bind, Option.bind_some]
      rw [ih _ _ _ (by omega) (by simpa using h2)]
      obtain ⟨k, hk⟩ : ∃ k, n - i = k + 1 := ⟨n - i - 1, by omega⟩
      have e2 := store_cons m i c (s.take k)
      rw [hw, Option.bind_some] at e2
      rw [show n - (i + 1) = k by omega, hk, List.take_succ_cons, e2]
      congr 1; funext m'; simp; omega
    · have : n - i = 0 := by omega
      simp [appendLoop, if_neg h1, this, store_nil m i (by omega)]

theorem zeroFill_ok : ∀ (n j : Nat) (m : List (Option UInt8)), j + n ≤ m.length → zeroFill m j n = store m j (List.replicate n 0) := by
  intro n
  induction n with
  | zero => intro j m h; simp [zeroFill, store_nil m j (by omega)]
  | succ n ih =>
    intro j m h
    have hw : write m j (some 0) = some (m.set j (some 0)) := write_eq (by omega)
    simp only [zeroFill, hw, Option.bind_eq_bind, Option.bind_some]
    rw [ih _ _ (by simp; omega)]
    have e2 := store_cons m j 0 (List.replicate n 0)
    rw [hw, Option.bind_some] at e2
    rw [e2]; rfl

theorem stpncpyLoop_ok : ∀ (n : Nat) (s : List UInt8) (m : List (Option UInt8)) (i : Nat), i + n ≤ m.length →
    stpncpyLoop m i s n = (store m i (s.take n ++ List.replicate (n - s.length) 0)).map fun m' => (m', i + min s.length n) := by
  intro n
  induction n with
  | zero => intro s m i h; simp [stpncpyLoop, store_nil m i (by omega)]
  | succ n ih =>
    intro s m i h
    cases s with
    | nil =>
      have hw : write m i (some 0) = some (m.set i (some 0)) := write_eq (by omega)
      simp only [stpncpyLoop, hw, Option.bind_eq_bind, Option.bind_some]
      rw [zeroFill_ok _ _ _ (by simp; omega)]
      have e2 := store_cons m i 0 (List.replicate n 0)
      rw [hw, Option.bind_some] at e2
      rw [e2, ← List.replicate_succ]
      simp
      cases store m i (List.replicate (n + 1) 0) <;> simp
    | cons c s =>
      have hw : write m i (some c) = some (m.set i (some c)) := write_eq (by omega)
      simp only [stpncpyLoop, hw, Option.bind_eq_bind, Option.bind_some]
      rw [ih _ _ _ (by simp; omega)]
      have e2 := store_cons m i c (s.take n ++ List.replicate (n - s.length) 0)
      rw [hw, Option.bind_some] at e2
      rw [e2]
      simp only [List.take_succ_cons, List.length_cons, Nat.add_sub_add_right, List.cons_append]
      congr 1; funext m'; simp; omega

end Str
