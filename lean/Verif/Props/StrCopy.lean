import Verif.Lemmas.StrCopy
/-! # C37 (bounded string copy/append)

`Stored m m' n s`: the block keeps its size, nothing outside its first `n` cells changed, and it now holds the C string `s`,
terminated within the first `n` cells (so `s` has at most `n - 1` bytes).  The claimed text is always the longest prefix that fits. -/
open StrSpec CMem

namespace Str

theorem memset_all (to : List (Option UInt8)) (n : Nat) (h : n ≤ to.length) :
    memset to 0 0 n = store to 0 (List.replicate n 0) := by
  simp [memset, store, h]

theorem store_store (m : List (Option UInt8)) (a b : List UInt8) (hl : a.length = b.length) :
    (store m 0 a).bind (fun m => store m 0 b) = store m 0 b := by
  by_cases h : a.length ≤ m.length
  · rw [store_eq (by omega), Option.bind_some, store_eq (by simp; omega), store_eq (by omega)]
    simp only [Nat.zero_add, List.take_zero, List.nil_append]
    congr 2
    rw [List.drop_append, List.drop_of_length_le (by simp; omega)]
    simp [hl]
  · have : store m 0 a = none := by simp only [store]; rw [if_neg (by omega)]
    have h2 : store m 0 b = none := by simp only [store]; rw [if_neg (by omega)]
    rw [this, h2]; rfl

theorem not_mem_take {s : List UInt8} (h : 0 ∉ s) (n : Nat) : 0 ∉ s.take n := fun hm => h (List.mem_of_mem_take hm)

end Str
open Str

/-- C37. `StringCopy` into a buffer of `n ≥ 1` bytes: the longest prefix that fits; the result is the length of the source, or `n`
exactly when the source was truncated. -/
theorem C37_stringCopy (src : List UInt8) (to : List (Option UInt8)) (n : Nat) (h0 : 0 ∉ src) (hn : 1 ≤ n) (hl : n ≤ to.length) :
    ∃ m, Str.stringCopy src to n = some (m, if src.length < n then src.length else n) ∧ Stored to m n (src.take (n - 1)) := by
  have e1 : memset to 0 0 n = some (List.replicate n (some 0) ++ to.drop n) := by simp [memset, hl]
  have hlen : (src.take n ++ List.replicate (n - src.length) 0).length = n := by simp; omega
  have e2 : strncpy (List.replicate n (some 0) ++ to.drop n) 0 src n
      = some ((src.take n ++ List.replicate (n - src.length) 0).map some ++ to.drop n) := by
    simp only [strncpy]
    rw [store_eq (by rw [hlen]; simp)]
    rw [hlen]
    simp [List.drop_append]
  have hne : n ≠ 0 := by omega
  by_cases hs : src.length < n
  · have e3 : get ((src.take n ++ List.replicate (n - src.length) 0).map some ++ to.drop n) (n - 1) = some 0 := by
      rw [get_map _ _ _ (by omega)]
      rw [List.getElem_append_right (by simp; omega)]; simp
    have hst : ((src.take n ++ List.replicate (n - src.length) (0 : UInt8)).map some ++ to.drop n)
        = src.map some ++ some 0 :: (List.replicate (n - src.length - 1) (some 0) ++ to.drop n) := by
      rw [List.take_of_length_le (by omega)]
      obtain ⟨k, hk⟩ : ∃ k, n - src.length = k + 1 := ⟨n - src.length - 1, by omega⟩
      rw [hk]; simp [List.replicate_succ]
    have hh : HoldsStr ((src.take n ++ List.replicate (n - src.length) (0 : UInt8)).map some ++ to.drop n) src := ⟨h0, _, hst⟩
    refine ⟨(src.take n ++ List.replicate (n - src.length) (0 : UInt8)).map some ++ to.drop n, ?_, ?_, ?_, ?_, ?_⟩
    rotate_left
    · rw [List.length_append, List.length_map, hlen]; simp; omega
    · rw [List.drop_append, List.drop_of_length_le (by rw [List.length_map, hlen]; exact Nat.le_refl _), List.length_map, hlen]; simp
    · simp; omega
    · rw [List.take_of_length_le (show src.length ≤ n - 1 by omega)]; exact hh
    · simp only [Str.stringCopy, e1, e2, hne, if_false, e3, strlen_holds hh, hs, if_true, Option.bind_eq_bind, Option.bind_some,
        ne_eq, not_true_eq_false]
  · have hr : n - src.length = 0 := by omega
    rw [hr] at e2; simp only [List.replicate_zero, List.append_nil] at e2
    have htl : (src.take n).length = n := by simp; omega
    have e3 : get ((src.take n).map some ++ to.drop n) (n - 1) = some (src.take n)[n - 1] := get_map _ _ _ (by omega)
    have hnz : (src.take n)[n - 1]'(by omega) ≠ 0 := by
      intro e
      exact not_mem_take h0 n (e ▸ List.getElem_mem _)
    have e4 : write ((src.take n).map some ++ to.drop n) (n - 1) (some 0)
        = some ((src.take (n - 1)).map some ++ some 0 :: to.drop n) := by
      rw [write_eq (by simp; omega), List.set_append_left _ _ (by simp; omega)]
      congr 1
      apply List.ext_getElem
      · simp; omega
      · intro i h1 h2
        by_cases hi : i = n - 1
        · subst hi
          rw [List.getElem_append_left (by simp; omega), List.getElem_set_self, List.getElem_append_right (by simp; omega)]
          simp [show n - 1 - min (n - 1) src.length = 0 by omega]
        · by_cases hi2 : i < n - 1
          · rw [List.getElem_append_left (by simp; omega), List.getElem_append_left (by simp; omega)]
            simp [List.getElem_set, show ¬ n - 1 = i by omega]
          · rw [List.getElem_append_right (by simp; omega), List.getElem_append_right (by simp; omega)]
            simp only [List.length_set, List.length_map, List.length_take]
            have : i - min (n - 1) src.length = (i - min n src.length) + 1 := by omega
            simp [this]
    refine ⟨(src.take (n - 1)).map some ++ some 0 :: to.drop n, ?_, ?_, ?_, ?_, not_mem_take h0 _, to.drop n, rfl⟩
    · simp only [Str.stringCopy, e1, e2, hne, if_false, e3, hnz, hs, if_true, Option.bind_eq_bind, Option.bind_some,
        ne_eq, not_false_eq_true, e4]
    · simp; omega
    · rw [List.drop_append, List.drop_of_length_le (by simp; omega)]
      simp [show n - min (n - 1) src.length = 1 by omega]
    · simp; omega

example : (0 : UInt8) ∉ [104, 105, 33] ∧ 1 ≤ 3 ∧ 3 ≤ [none, none, none, some (9 : UInt8)].length ∧
    Str.stringCopy [104, 105, 33] [none, none, none, some 9] 3 = some ([some 104, some 105, some 0, some 9], 3) := by decide

/-- Finding: `StringCopy` with a zero-sized buffer accesses `to[SIZE_MAX]`, undefined behaviour for any real block. -/
theorem C37_stringCopy_zero_size_is_undefined (src : List UInt8) (to : List (Option UInt8)) (h : to.length ≤ Str.sizeMax) :
    Str.stringCopy src to 0 = none := by
  have : get to Str.sizeMax = none := by
    simp only [CMem.get, CMem.read]
    rw [List.getElem?_eq_none (by omega)]; rfl
  simp [Str.stringCopy, memset, strncpy, store, this]

/-- C37. `strlcpy` with `siz ≥ 1`: the longest prefix that fits; the result is the length of the source, so truncation is `≥ siz`. -/
theorem C37_strlcpy (src : List UInt8) (to : List (Option UInt8)) (siz : Nat) (h0 : 0 ∉ src) (hn : 1 ≤ siz) (hl : siz ≤ to.length) :
    ∃ m, Str.strlcpy to src siz = some (m, src.length) ∧ Stored to m siz (src.take (siz - 1)) := by
  have hne : siz ≠ 0 := by omega
  have hloop := strlcpyLoop_ok (siz - 1) src to 0 0 (by omega)
  by_cases hs : src.length < siz - 1
  · obtain ⟨m', e, hst⟩ := stored_of_store (m := to) (t := []) (rest := to) rfl src siz (by simp; omega) hl (by simp) h0
    simp only [List.length_nil, List.nil_append] at e hst
    rw [if_pos hs, e] at hloop
    refine ⟨m', ?_, by rw [List.take_of_length_le (by omega)]; exact hst⟩
    simp [Str.strlcpy, hne, hloop, show siz - 1 - src.length ≠ 0 by omega]
  · obtain ⟨m', e, hst⟩ := stored_of_store (m := to) (t := []) (rest := to) rfl (src.take (siz - 1)) siz (by simp; omega) hl (by simp)
      (not_mem_take h0 _)
    simp only [List.length_nil, List.nil_append] at e hst
    have htl : (src.take (siz - 1)).length = siz - 1 := by simp; omega
    rw [if_neg hs] at hloop
    have hsa := store_append to 0 (src.take (siz - 1)) [0]
    rw [e] at hsa
    obtain ⟨m1, e1, e2⟩ := Option.bind_eq_some_iff.1 hsa
    rw [e1] at hloop
    rw [← write_store, htl] at e2
    refine ⟨m', ?_, hst⟩
    simp only [Nat.zero_add] at e2 hloop
    have hlen : siz - 1 + (src.length - (siz - 1)) = src.length := by omega
    simp [Str.strlcpy, hne, hloop, e2]
    omega

/-- With size 0 `strlcpy` writes nothing and still reports the length. -/
theorem C37_strlcpy_zero (src : List UInt8) (to : List (Option UInt8)) : Str.strlcpy to src 0 = some (to, src.length) := by
  simp [Str.strlcpy]

example : Str.strlcpy [none, none, none, some 9] [104, 105, 33] 3 = some ([some 104, some 105, some 0, some 9], 3) := by decide
example : Str.strlcpy [none, none, none, some 9] [104] 3 = some ([some 104, some 0, none, some 9], 1) := by decide

/-- C37. `strlcat` onto a block holding `t`, when `t` lies within the first `siz` cells: the longest prefix of the concatenation that
fits; the result is the length of the whole concatenation. -/
theorem C37_strlcat (src t : List UInt8) (m : List (Option UInt8)) (siz : Nat) (hm : HoldsStr m t) (h0 : 0 ∉ src) (ht : t.length < siz)
    (hl : siz ≤ m.length) :
    ∃ m', Str.strlcat m src siz = some (m', t.length + src.length) ∧ Stored m m' siz ((t ++ src).take (siz - 1)) := by
  obtain ⟨ht0, rest, hm⟩ := hm
  have hsc : scan m 0 siz = some t.length := by
    rw [hm, scan_ok siz 0 t rest ht0 (by omega)]; congr 1; omega
  obtain ⟨m', e, hst⟩ := stored_of_store hm (src.take (siz - t.length - 1)) siz (by simp; omega) hl ht0 (not_mem_take h0 _)
  have hloop := strlcatLoop_ok src m t.length (siz - t.length) (by omega) (by omega)
  have hsa := store_append m t.length (src.take (siz - t.length - 1)) [0]
  rw [e] at hsa
  obtain ⟨m1, e1, e2⟩ := Option.bind_eq_some_iff.1 hsa
  rw [e1] at hloop
  rw [← write_store] at e2
  refine ⟨m', ?_, ?_⟩
  · have : (src.take (siz - t.length - 1)).length = min src.length (siz - t.length - 1) := by simp; omega
    rw [this] at e2
    simp [Str.strlcat, hsc, show siz - t.length ≠ 0 by omega, hloop, e2]
  · have : (t ++ src).take (siz - 1) = t ++ src.take (siz - t.length - 1) := by
      rw [List.take_append, List.take_of_length_le (by omega)]; congr 2; omega
    rw [this]; exact hst

/-- When the first `siz` cells hold no terminator, `strlcat` writes nothing. -/
theorem C37_strlcat_full (src t : List UInt8) (m : List (Option UInt8)) (siz : Nat) (hm : HoldsStr m t) (ht : siz ≤ t.length) :
    Str.strlcat m src siz = some (m, siz + src.length) := by
  obtain ⟨ht0, rest, hm⟩ := hm
  have hsc : scan m 0 siz = some siz := by
    rw [hm, scan_ok siz 0 t rest ht0 (by omega)]; congr 1; omega
  simp [Str.strlcat, hsc]

example : HoldsStr [some 104, some 0, none, some 9] [104] ∧
    Str.strlcat [some 104, some 0, none, some 9] [105, 33] 3 = some ([some 104, some 105, some 0, some 9], 3) :=
  ⟨⟨by decide, [none, some 9], rfl⟩, by decide⟩

/-- C37. `StringAppend` with buffer size `n ≥ 1`: the block holds the longest prefix of the concatenation that fits; the result is true
when all of the source is there. (A destination string longer than the size is itself cut to `n - 1` bytes.) -/
theorem C37_stringAppend (src t : List UInt8) (m : List (Option UInt8)) (n : Nat) (hm : HoldsStr m t) (h0 : 0 ∉ src) (hn : 1 ≤ n)
    (hl : n ≤ m.length) :
    ∃ m', Str.stringAppend m src n = some (m', decide (min t.length (n - 1) + src.length ≤ n - 1)) ∧
      Stored m m' n ((t ++ src).take (n - 1)) := by
  obtain ⟨ht0, rest, hm⟩ := hm
  have hsc : scan m 0 (n - 1) = some (min t.length (n - 1)) := by
    rw [hm, scan_ok (n - 1) 0 t rest ht0 (by omega)]; congr 1; omega
  obtain ⟨i, hi⟩ : ∃ i, i = min t.length (n - 1) := ⟨_, rfl⟩
  have hm2 : m = (t.take i).map some ++ ((t.drop i).map some ++ some 0 :: rest) := by
    rw [hm, ← List.append_assoc, ← List.map_append, List.take_append_drop]
  have hti : (t.take i).length = i := by simp; omega
  obtain ⟨m', e, hst⟩ := stored_of_store hm2 (src.take (n - 1 - i)) n (by simp; omega) hl (not_mem_take ht0 _) (not_mem_take h0 _)
  rw [hti] at e
  have hloop := appendLoop_ok src m i (n - 1) (by omega) (by omega)
  have hsa := store_append m i (src.take (n - 1 - i)) [0]
  rw [e] at hsa
  obtain ⟨m1, e1, e2⟩ := Option.bind_eq_some_iff.1 hsa
  rw [e1] at hloop
  rw [← write_store] at e2
  refine ⟨m', ?_, ?_⟩
  · have : (src.take (n - 1 - i)).length = min src.length (n - 1 - i) := by simp; omega
    rw [this] at e2
    simp only [Str.stringAppend, show n ≠ 0 by omega, if_false, hsc, ← hi, Option.bind_eq_bind, Option.bind_some, hloop, Option.map_some, e2,
      Option.some.injEq, Prod.mk.injEq, true_and]
    rw [Bool.eq_iff_iff]
    simp only [Bool.or_eq_true, decide_eq_true_eq, List.isEmpty_iff, List.drop_eq_nil_iff]
    omega
  · have : (t ++ src).take (n - 1) = t.take i ++ src.take (n - 1 - i) := by
      rw [List.take_append, hi]
      congr 1
      · rw [List.take_eq_take_iff]; omega
      · rw [List.take_eq_take_iff]; omega
    rw [this]; exact hst

example : HoldsStr [some 104, some 0, none, some 9] [104] ∧
    Str.stringAppend [some 104, some 0, none, some 9] [105, 33] 3 = some ([some 104, some 105, some 0, some 9], false) :=
  ⟨⟨by decide, [none, some 9], rfl⟩, by decide⟩

/-- Finding: with `n = 0` the bound wraps around and `StringAppend` is an unbounded `strcat`: it overflows any block too small for the
result instead of refusing. -/
theorem C37_stringAppend_zero_size_unbounded (src t : List UInt8) (m : List (Option UInt8)) (hm : HoldsStr m t)
    (hb : m.length ≤ t.length + src.length) (hs : t.length + src.length < Str.sizeMax) : Str.stringAppend m src 0 = none := by
  obtain ⟨ht0, rest, hm'⟩ := hm
  have hsc : scan m 0 Str.sizeMax = some t.length := by
    rw [hm', scan_ok _ 0 t rest ht0 (by omega)]; congr 1; omega
  have key : ∀ (s : List UInt8) (m : List (Option UInt8)) (i : Nat), i + s.length < Str.sizeMax → m.length ≤ i + s.length →
      ((appendLoop m i Str.sizeMax s).bind fun x => (write x.1 x.2.1 (some 0))) = none := by
    intro s
    induction s with
    | nil => intro m i h1 h2; simp [appendLoop, write_oob (m := m) (i := i) (by simpa using h2)]
    | cons c s ih =>
      intro m i h1 h2
      simp only [List.length_cons] at h1 h2
      simp only [appendLoop]
      rw [if_pos (by omega)]
      by_cases hi : i < m.length
      · simp only [write_eq hi, Option.bind_eq_bind, Option.bind_some]
        exact ih _ (i + 1) (by omega) (by simp; omega)
      · simp [write_oob (m := m) (i := i) (by omega)]
  have hk := key src m t.length hs hb
  simp only [Str.stringAppend, if_true, hsc, Option.bind_eq_bind, Option.bind_some]
  cases ha : appendLoop m t.length Str.sizeMax src with
  | none => rfl
  | some x => rw [ha] at hk; simp only [Option.bind_some] at hk ⊢; rw [hk]; rfl

example : HoldsStr [some 104, some 0] [104] ∧ [some (104 : UInt8), some 0].length ≤ [(104 : UInt8)].length + [(105 : UInt8)].length :=
  ⟨⟨by decide, [], rfl⟩, by decide⟩

/-- C37. `stpncpy`: like `strncpy`, exactly the first `len` cells are written (source bytes, then zeros); the result is the offset of the
first zero, or `len`. -/
theorem C37_stpncpy (src : List UInt8) (m : List (Option UInt8)) (len : Nat) (hl : len ≤ m.length) :
    Str.stpncpy m src len = some ((src.take len ++ List.replicate (len - src.length) 0).map some ++ m.drop len, min src.length len) := by
  have hlen : (src.take len ++ List.replicate (len - src.length) (0 : UInt8)).length = len := by simp; omega
  rw [Str.stpncpy, stpncpyLoop_ok len src m 0 (by omega), store_eq (by rw [hlen]; omega), hlen]
  simp

example : Str.stpncpy [none, none, none, some 9] [104] 3 = some ([some 104, some 0, some 0, some 9], 1) := by decide

/-- C37. `StringNotMatchingSetCapped` with `limit ≥ 1`: the longest prefix free of the excluded characters, cut to `limit - 1` bytes. The
result is true when that prefix has `limit - 1` bytes or more (so an exact fit is reported as capped as well). -/
theorem C37_notMatchingSetCapped (s excl : List UInt8) (m : List (Option UInt8)) (limit : Nat) (h0 : 0 ∉ s) (hn : 1 ≤ limit)
    (hl : limit ≤ m.length) :
    ∃ m', Str.notMatchingSetCapped s limit excl m =
        some (m', decide (limit ≤ (s.takeWhile fun c => !excl.contains c).length + 1)) ∧
      Stored m m' limit ((s.takeWhile fun c => !excl.contains c).take (limit - 1)) := by
  obtain ⟨pre, hpre⟩ : ∃ pre, pre = s.takeWhile fun c => !excl.contains c := ⟨_, rfl⟩
  rw [← hpre]
  have hp : pre <+: s := hpre ▸ List.takeWhile_prefix _
  obtain ⟨tl, rfl⟩ := hp
  have hp0 : 0 ∉ pre := fun h => h0 (by simp [h])
  have hsp : Str.strcspn (pre ++ tl) excl = pre.length := by rw [Str.strcspn, ← hpre]
  have step : ∀ (k : Nat), k ≤ pre.length → k < limit →
      ∃ m1 m', memcpy m 0 ((pre ++ tl ++ [0]).map some) 0 k = some m1 ∧ write m1 k (some 0) = some m' ∧ Stored m m' limit (pre.take k) := by
    intro k hk hk2
    have htk : ((pre ++ tl ++ [(0 : UInt8)]).take k) = pre.take k := by
      rw [List.append_assoc, List.take_append_of_le_length hk]
    obtain ⟨m', e, hst⟩ := stored_of_store (m := m) (t := []) (rest := m) rfl (pre.take k) limit (by simp; omega) hl (by simp)
      (not_mem_take hp0 _)
    simp only [List.length_nil, List.nil_append] at e hst
    have hsa := store_append m 0 (pre.take k) [0]
    rw [e] at hsa
    obtain ⟨m1, e1, e2⟩ := Option.bind_eq_some_iff.1 hsa
    rw [← write_store] at e2
    have hl2 : (pre.take k).length = k := by simp; omega
    rw [hl2, Nat.zero_add] at e2
    exact ⟨m1, m', by rw [memcpy_store _ _ _ _ (by simp; omega), htk, e1], e2, hst⟩
  by_cases hc : pre.length < limit - 1
  · obtain ⟨m1, m', e1, e2, hst⟩ := step pre.length (by omega) (by omega)
    refine ⟨m', ?_, ?_⟩
    · simp only [Str.notMatchingSetCapped, hsp, show limit ≠ 0 by omega, if_false, if_pos hc, e1, e2, Option.bind_eq_bind, Option.bind_some]
      rw [decide_eq_false (by omega)]
    · rw [List.take_of_length_le (show pre.length ≤ limit - 1 by omega)]; simpa using hst
  · obtain ⟨m1, m', e1, e2, hst⟩ := step (limit - 1) (by omega) (by omega)
    refine ⟨m', ?_, hst⟩
    simp only [Str.notMatchingSetCapped, hsp, show limit ≠ 0 by omega, if_false, if_neg hc, e1, e2, Option.bind_eq_bind, Option.bind_some]
    rw [decide_eq_true (by omega)]

example : Str.notMatchingSetCapped [104, 105, 33] 3 [33] [none, none, none, some 9] = some ([some 104, some 105, some 0, some 9], true) := by
  decide
