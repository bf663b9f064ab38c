import Verif.Model.Path
import Verif.Spec.Path
import Verif.Props.StrCopy
/-! # C48 (path and string joining), C52 (hash printing), C63 (copy or hash), C64 (base name and quoting), C65 (prefix and suffix tests) -/
open StrSpec CMem Str

namespace Path

theorem endsLoop_ok (cf : Bool) (str suf : List UInt8) (hl : suf.length ≤ str.length) :
    ∀ (k i : Nat), i + k = suf.length →
      ∃ b, endsLoop str suf cf i k = some b ∧ (b = true ↔ (∀ j, i ≤ j → (hj : j < suf.length) →
        (if cf then toLower (str[str.length - j - 1]'(by omega)) else str[str.length - j - 1]'(by omega))
          = (if cf then toLower (suf[suf.length - j - 1]'(by omega)) else suf[suf.length - j - 1]'(by omega)))) := by
  intro k
  induction k with
  | zero => intro i h; exact ⟨true, rfl, by simp only [true_iff]; intro j h1 h2; omega⟩
  | succ k ih =>
    intro i h
    simp only [endsLoop]
    rw [List.getElem?_eq_getElem (by omega), List.getElem?_eq_getElem (by omega)]
    simp only [Option.bind_eq_bind, Option.bind_some]
    by_cases he : (if cf then toLower (str[str.length - i - 1]'(by omega)) else str[str.length - i - 1]'(by omega))
          = (if cf then toLower (suf[suf.length - i - 1]'(by omega)) else suf[suf.length - i - 1]'(by omega))
    · rw [if_neg (by simpa using he)]
      obtain ⟨b, hb, hb2⟩ := ih (i + 1) (by omega)
      refine ⟨b, hb, ?_⟩
      rw [hb2]
      constructor
      · intro h2 j h3 h4
        by_cases hij : j = i
        · subst hij; exact he
        · exact h2 j (by omega) h4
      · intro h2 j h3 h4; exact h2 j (by omega) h4
    · rw [if_pos he]
      refine ⟨false, rfl, ?_⟩
      simp only [Bool.false_eq_true, false_iff]
      intro h2; exact he (h2 i (Nat.le_refl _) (by omega))

theorem endsWithCase_ok (cf : Bool) (str suf : List UInt8) :
    endsWithCase str suf cf = some (decide ((if cf then suf.map toLower else suf) <:+ (if cf then str.map toLower else str))) := by
  unfold endsWithCase
  by_cases hl : suf.length > str.length
  · rw [if_pos hl]; congr 1; symm; rw [decide_eq_false_iff_not]
    intro h
    have := h.length_le
    cases cf <;> simp at this <;> omega
  · obtain ⟨b, hb, hb2⟩ := endsLoop_ok cf str suf (by omega) _ 0 (Nat.zero_add _)
    rw [if_neg hl, hb]
    congr 1
    rw [Bool.eq_iff_iff, hb2, decide_eq_true_eq]
    have key : ∀ (f : UInt8 → UInt8), (∀ j, 0 ≤ j → (hj : j < suf.length) → f (str[str.length - j - 1]'(by omega)) = f (suf[suf.length - j - 1]'(by omega)))
        ↔ suf.map f <:+ str.map f := by
      intro f
      rw [List.suffix_iff_eq_drop]
      constructor
      · intro h
        apply List.ext_getElem
        · simp; omega
        · intro i h1 h2
          simp only [List.length_map] at h1
          have := h (suf.length - i - 1) (by omega) (by omega)
          simp only [List.getElem_map, List.getElem_drop, List.length_map]
          have e1 : suf[suf.length - (suf.length - i - 1) - 1]'(by omega) = suf[i] := by congr 1; omega
          rw [e1] at this
          rw [← this]
          congr 2; omega
      · intro h j _ hj
        have h1 : (suf.map f)[suf.length - j - 1]'(by simp; omega) = (List.drop ((str.map f).length - (suf.map f).length) (str.map f))[suf.length - j - 1]'(by simp; omega) :=
          List.getElem_of_eq h _
        simp only [List.getElem_map, List.getElem_drop, List.length_map] at h1
        rw [h1]
        congr 2; omega
    cases cf with
    | false => simpa using key id
    | true => simpa using key toLower

theorem startsLoop_ok (str pre : List UInt8) (hl : pre.length ≤ str.length) :
    ∀ (k i : Nat), i + k = pre.length →
      ∃ b, startsLoop str pre i k = some b ∧ (b = true ↔ (∀ j, i ≤ j → (hj : j < pre.length) → str[j]'(by omega) = pre[j])) := by
  intro k
  induction k with
  | zero => intro i h; exact ⟨true, rfl, by simp only [true_iff]; intro j h1 h2; omega⟩
  | succ k ih =>
    intro i h
    simp only [startsLoop]
    rw [List.getElem?_eq_getElem (by omega), List.getElem?_eq_getElem (by omega)]
    simp only [Option.bind_eq_bind, Option.bind_some]
    by_cases he : str[i]'(by omega) = pre[i]'(by omega)
    · rw [if_neg (by simpa using he)]
      obtain ⟨b, hb, hb2⟩ := ih (i + 1) (by omega)
      refine ⟨b, hb, ?_⟩
      rw [hb2]
      constructor
      · intro h2 j h3 h4
        by_cases hij : j = i
        · subst hij; exact he
        · exact h2 j (by omega) h4
      · intro h2 j h3 h4; exact h2 j (by omega) h4
    · rw [if_pos he]
      refine ⟨false, rfl, ?_⟩
      simp only [Bool.false_eq_true, false_iff]
      intro h2; exact he (h2 i (Nat.le_refl _) (by omega))

end Path

/-- C65. `StringEndsWith(s, suffix)` decides whether `s` ends with `suffix`. -/
theorem C65_endsWith (s suffix : List UInt8) : Path.endsWith s suffix = some (decide (suffix <:+ s)) := by
  simpa [Path.endsWith] using Path.endsWithCase_ok false s suffix

/-- C65. `StringEndsWithCase(s, suffix, true)` decides it up to ASCII case. -/
theorem C65_endsWithCase (s suffix : List UInt8) :
    Path.endsWithCase s suffix true = some (decide (suffix.map Path.toLower <:+ s.map Path.toLower)) := by
  simpa using Path.endsWithCase_ok true s suffix

/-- C65. `StringStartsWith(s, prefix)` decides whether `s` starts with `prefix`. -/
theorem C65_startsWith (s pre : List UInt8) : Path.startsWith s pre = some (decide (pre <+: s)) := by
  unfold Path.startsWith
  by_cases hl : pre.length > s.length
  · rw [if_pos hl]; congr 1; symm; rw [decide_eq_false_iff_not]
    intro h; have := h.length_le; omega
  · obtain ⟨b, hb, hb2⟩ := Path.startsLoop_ok s pre (by omega) _ 0 (Nat.zero_add _)
    rw [if_neg hl, hb]
    congr 1
    rw [Bool.eq_iff_iff, hb2, decide_eq_true_eq, List.prefix_iff_eq_take]
    constructor
    · intro h
      apply List.ext_getElem
      · simp; omega
      · intro i h1 h2
        rw [List.getElem_take, h i (by omega) h1]
    · intro h j _ hj
      have := List.getElem_of_eq h hj
      rw [List.getElem_take] at this
      exact this.symm

example : Path.endsWith [97, 46, 104] [46, 104] = some true ∧ Path.startsWith [97, 46, 104] [46] = some false ∧
    Path.endsWithCase [97, 46, 72] [46, 104] true = some true := by decide

/-! ## C48 -/

/-- C48. `PathAppend`: the joined path if it fits with its terminator, otherwise the block is untouched and the result is false. -/
theorem C48_pathAppend (m : List (Option UInt8)) (size : Nat) (dir leaf : List UInt8) (sep : UInt8) (hm : HoldsStr m dir) (h0 : 0 ∉ leaf)
    (hs : sep ≠ 0) (hl : size ≤ m.length) :
    if (PathSpec.joined dir sep leaf).length < size then
      ∃ m', Str.pathAppend m size leaf sep = some (m', true) ∧ Stored m m' size (PathSpec.joined dir sep leaf)
    else Str.pathAppend m size leaf sep = some (m, false) := by
  have hstr := str_holds hm
  obtain ⟨hd0, rest, hm⟩ := hm
  obtain ⟨stem, hstem⟩ : ∃ stem, stem = if dir.getLast? = some sep then dir.dropLast else dir := ⟨_, rfl⟩
  have hpre : ∃ tl, dir = stem ++ tl := by
    rw [hstem]; split
    · rename_i h
      have hne : dir ≠ [] := by intro e; simp [e] at h
      exact ⟨[dir.getLast hne], (List.dropLast_concat_getLast hne).symm⟩
    · exact ⟨[], by simp⟩
  obtain ⟨tl, htl⟩ := hpre
  have hlen : (if dir.length > 0 ∧ dir[dir.length - 1]? = some sep then dir.length - 1 else dir.length) = stem.length := by
    rw [hstem, List.getLast?_eq_getElem?]
    by_cases h : dir[dir.length - 1]? = some sep
    · have : dir.length > 0 := by
        rcases List.eq_nil_or_concat dir with e | ⟨a, b, e⟩ <;> simp [e] at h ⊢
      simp [h, this]
    · simp [h]
  have hj : PathSpec.joined dir sep leaf = stem ++ (sep :: leaf) := by simp [PathSpec.joined, ← hstem]
  have hst0 : 0 ∉ stem := fun h => hd0 (by rw [htl]; simp [h])
  rw [hj]
  by_cases hc : (stem ++ sep :: leaf).length < size
  · rw [if_pos hc]
    simp only [List.length_append, List.length_cons] at hc
    obtain ⟨m', e, hst⟩ := stored_of_store (m := m) (t := stem) (rest := tl.map some ++ some 0 :: rest)
      (by rw [hm, htl]; simp) (sep :: leaf) size (by simp; omega) hl hst0 (by simp [h0, Ne.symm hs])
    refine ⟨m', ?_, hst⟩
    rw [List.cons_append, ← store_cons] at e
    obtain ⟨m1, e1, e2⟩ := Option.bind_eq_some_iff.1 e
    simp only [Str.pathAppend, hstr, Option.bind_eq_bind, Option.bind_some, hlen]
    rw [if_neg (by omega), e1]
    simp [e2]
  · rw [if_neg hc]
    simp only [List.length_append, List.length_cons] at hc
    simp only [Str.pathAppend, hstr, Option.bind_eq_bind, Option.bind_some, hlen]
    rw [if_pos (by omega)]

example : HoldsStr [some 97, some 47, some 0, none, none] [97, 47] ∧
    Str.pathAppend [some 97, some 47, some 0, none, none] 5 [98] 47 = some ([some 97, some 47, some 98, some 0, none], true) ∧
    Str.pathAppend [some 97, some 47, some 0, none, none] 5 [98, 99, 100] 47 = some ([some 97, some 47, some 0, none, none], false) :=
  ⟨⟨by decide, [none, none], rfl⟩, by decide, by decide⟩

/-- C48. `StrCat` onto a string `t` that lies in the first `size` bytes (its length given, or not): the longest prefix of the concatenation that
fits, and `*dst_len` becomes the length of the whole concatenation. `srcLen ≠ 0` appends only that many bytes. -/
theorem C48_strCat (m : List (Option UInt8)) (size : Nat) (dstLen : Option Nat) (t src : List UInt8) (srcLen : Nat) (hm : HoldsStr m t)
    (hd : dstLen = none ∨ dstLen = some t.length) (h0 : 0 ∉ src) (hsl : srcLen ≤ src.length) (ht : t.length < size) (hl : size ≤ m.length) :
    let piece := if srcLen = 0 then src else src.take srcLen
    ∃ m', Str.strCat m size dstLen src srcLen = some (m', dstLen.map fun _ => (t ++ piece).length) ∧
      Stored m m' size ((t ++ piece).take (size - 1)) := by
  intro piece
  have hpl : piece.length = if srcLen = 0 then src.length else srcLen := by
    simp only [piece]; split
    · rfl
    · simp; omega
  have hple : piece.length ≤ src.length := by rw [hpl]; split <;> omega
  have hpiece : ∀ k, k ≤ piece.length → (src ++ [(0 : UInt8)]).take k = piece.take k := by
    intro k hk
    rw [List.take_append_of_le_length (by omega)]
    simp only [piece]; split
    · rfl
    · rw [List.take_take]; congr 1; rw [hpl] at hk; simp_all
  have hp0 : 0 ∉ piece := by
    simp only [piece]; split
    · exact h0
    · exact not_mem_take h0 _
  have hslen : srcLenOf src srcLen = some piece.length := by
    rw [hpl, srcLenOf]
    by_cases h : srcLen = 0
    · simp only [h, ne_eq, not_true_eq_false, if_false, if_true]
      exact strlen_holds ⟨h0, [], by simp⟩
    · simp [h]
  have hdlen : dstLenOf m dstLen = some t.length := by
    rcases hd with rfl | rfl
    · exact strlen_holds hm
    · rfl
  have hm0 := hm
  obtain ⟨ht0, rest, hm⟩ := hm
  have step : ∀ k, k ≤ piece.length → t.length + k < size →
      ∃ m1 m', memcpy m t.length ((src ++ [0]).map some) 0 k = some m1 ∧ write m1 (t.length + k) (some 0) = some m' ∧
        Stored m m' size (t ++ piece.take k) := by
    intro k hk hk2
    obtain ⟨m', e, hst⟩ := stored_of_store hm (piece.take k) size (by simp; omega) hl ht0 (not_mem_take hp0 _)
    have hsa := store_append m t.length (piece.take k) [0]
    rw [e] at hsa
    obtain ⟨m1, e1, e2⟩ := Option.bind_eq_some_iff.1 hsa
    rw [← write_store] at e2
    have hl2 : (piece.take k).length = k := by simp; omega
    rw [hl2] at e2
    exact ⟨m1, m', by rw [memcpy_store _ _ _ _ (by simp; omega), hpiece k hk, e1], e2, hst⟩
  have hmain : ∀ m', catWrite m size t.length piece.length src = some m' →
      Str.strCat m size dstLen src srcLen = some (m', dstLen.map fun _ => (t ++ piece).length) := by
    intro m' e
    simp only [Str.strCat, hdlen, hslen, e, Option.bind_eq_bind, Option.bind_some, List.length_append]
  by_cases hc1 : t.length + 1 ≥ size
  · refine ⟨m, hmain m (by rw [catWrite, if_pos hc1]), rfl, rfl, by simp; omega, ?_⟩
    rw [List.take_append_of_le_length (by omega), List.take_of_length_le (by omega)]; exact hm0
  · by_cases hc2 : t.length + piece.length < size
    · obtain ⟨m1, m', e1, e2, hst⟩ := step piece.length (by omega) hc2
      refine ⟨m', hmain m' (by rw [catWrite, if_neg hc1, if_pos hc2, e1]; exact e2), ?_⟩
      rw [List.take_of_length_le (show (t ++ piece).length ≤ size - 1 by simp; omega)]
      simpa using hst
    · obtain ⟨m1, m', e1, e2, hst⟩ := step (size - t.length - 1) (by omega) (by omega)
      rw [show t.length + (size - t.length - 1) = size - 1 by omega] at e2
      refine ⟨m', hmain m' (by rw [catWrite, if_neg hc1, if_neg hc2, e1]; exact e2), ?_⟩
      have : (t ++ piece).take (size - 1) = t ++ piece.take (size - t.length - 1) := by
        rw [List.take_append, List.take_of_length_le (by omega)]; congr 2; omega
      rw [this]; exact hst

/-- C48. `StrCat` on a string recorded as already too long only adds to the recorded length. -/
theorem C48_strCat_overflown (m : List (Option UInt8)) (size len : Nat) (src : List UInt8) (h0 : 0 ∉ src) (h : size ≤ len) :
    Str.strCat m size (some len) src 0 = some (m, some (len + src.length)) := by
  have hs : strlen ((src ++ [0]).map some) 0 = some src.length := strlen_holds ⟨h0, [], by simp⟩
  simp only [Str.strCat, dstLenOf, srcLenOf, catWrite, hs, ne_eq, not_true_eq_false, if_false, show len + 1 ≥ size by omega, if_true,
    Option.bind_eq_bind, Option.bind_some, Option.map_some]

example : Str.strCat [some 97, some 0, none, some 9] 3 (some 1) [98, 99] 0 = some ([some 97, some 98, some 0, some 9], some 3) := by decide

/-- C48. `StrCatDelim`: appends separator and source if everything fits, otherwise leaves the block untouched; `*dst_len` becomes the length
of the complete result in both cases, so `≥ size` means nothing was appended. -/
theorem C48_strCatDelim (m : List (Option UInt8)) (size : Nat) (dstLen : Option Nat) (t src : List UInt8) (sep : UInt8) (hm : HoldsStr m t)
    (hd : dstLen = none ∨ dstLen = some t.length) (h0 : 0 ∉ src) (hs : sep ≠ 0) (ht : t.length < size) (hl : size ≤ m.length) :
    ∃ m', Str.strCatDelim m size dstLen src sep = some (m', dstLen.map fun _ => (PathSpec.delimited t sep src).length) ∧
      if (PathSpec.delimited t sep src).length < size then Stored m m' size (PathSpec.delimited t sep src) else m' = m := by
  have hdlen : dstLenOf m dstLen = some t.length := by
    rcases hd with rfl | rfl
    · exact strlen_holds hm
    · rfl
  have hm0 := hm
  obtain ⟨ht0, rest, hm⟩ := hm
  have hmain : ∀ m', catDelimWrite m size t.length (PathSpec.delimited t sep src).length src sep = some m' →
      Str.strCatDelim m size dstLen src sep = some (m', dstLen.map fun _ => (PathSpec.delimited t sep src).length) := by
    intro m' e
    have hn : (if t.length > 0 then t.length + src.length + 1 else t.length + src.length) = (PathSpec.delimited t sep src).length := by
      cases t with
      | nil => simp [PathSpec.delimited]
      | cons a t => simp [PathSpec.delimited]; omega
    simp only [Str.strCatDelim, hdlen, Option.bind_eq_bind, Option.bind_some, hn, e]
  have hdl : ∃ bs, PathSpec.delimited t sep src = t ++ bs ∧ 0 ∉ bs ∧ ((delimWrite m t.length sep).bind fun (m, d) =>
      (store m d src).bind fun m => write m (t ++ bs).length (some 0)) = store m t.length (bs ++ [0]) := by
    cases t with
    | nil =>
      refine ⟨src, by simp [PathSpec.delimited], h0, ?_⟩
      have := store_append m 0 src [0]
      simpa [delimWrite, write_store] using this
    | cons a t =>
      refine ⟨sep :: src, by simp [PathSpec.delimited], by simp [h0, Ne.symm hs], ?_⟩
      rw [show sep :: src ++ [0] = sep :: (src ++ [0]) from rfl, ← store_cons m]
      simp only [delimWrite, List.length_cons, Nat.zero_lt_succ, gt_iff_lt, if_true, Option.bind_eq_bind, Option.bind_assoc, Option.bind_some]
      congr 1; funext m1
      rw [← store_append]
      congr 1; funext m2
      rw [write_store]; congr 1; simp; omega
  obtain ⟨bs, hbs, hb0, hwr⟩ := hdl
  by_cases hc1 : t.length + 1 ≥ size
  · refine ⟨m, hmain m (by rw [catDelimWrite, if_pos hc1]), ?_⟩
    split
    · rename_i h
      rw [hbs, List.length_append] at h
      have : bs = [] := List.length_eq_zero_iff.1 (by omega)
      refine ⟨rfl, rfl, by rw [hbs, List.length_append]; exact h, ?_⟩
      rw [hbs, this, List.append_nil]; exact hm0
    · rfl
  · by_cases hc2 : (PathSpec.delimited t sep src).length < size
    · simp only [if_pos hc2]
      obtain ⟨m', e, hst⟩ := stored_of_store hm bs size (by rw [hbs] at hc2; simpa using hc2) hl ht0 hb0
      refine ⟨m', hmain m' ?_, by rw [hbs]; exact hst⟩
      rw [catDelimWrite, if_neg hc1, if_pos hc2, hbs]
      rw [e] at hwr; exact hwr
    · simp only [if_neg hc2]
      exact ⟨m, hmain m (by rw [catDelimWrite, if_neg hc1, if_neg hc2]), rfl⟩

example : Str.strCatDelim [some 97, some 0, none, none, some 9] 4 none [98] 44 = some ([some 97, some 44, some 98, some 0, some 9], none) ∧
    Str.strCatDelim [some 97, some 0, none, none, some 9] 4 (some 1) [98, 98] 44 = some ([some 97, some 0, none, none, some 9], some 4) := by
  decide

namespace Str

theorem catLoop_ok : ∀ (args : List (Option (List UInt8))) (t : List UInt8) (k : Nat), 0 ∉ t → (∀ s, some s ∈ args → 0 ∉ s) →
    (args.map argLen).sum = k →
    catLoop (t.map some ++ List.replicate (k + 1) (some 0)) args = some ((t ++ (args.filterMap id).flatten).map some ++ [some 0]) := by
  intro args
  induction args with
  | nil => intro t k h0 _ hk; simp at hk; subst hk; simp [catLoop]
  | cons a args ih =>
    intro t k h0 ha hk
    cases a with
    | none =>
      simp only [List.map_cons, List.sum_cons, argLen, Nat.zero_add] at hk
      simp only [catLoop]
      rw [ih t k h0 (fun s hs => ha s (by simp [hs])) hk]; simp
    | some s =>
      simp only [List.map_cons, List.sum_cons, argLen] at hk
      have hs0 : 0 ∉ s := ha s (by simp)
      have hlen : strlen (t.map some ++ List.replicate (k + 1) (some (0 : UInt8))) 0 = some t.length :=
        strlen_holds ⟨h0, List.replicate k (some 0), by simp [List.replicate_succ]⟩
      have hst : store (t.map some ++ List.replicate (k + 1) (some (0 : UInt8))) t.length (s ++ [0])
          = some ((t ++ s).map some ++ List.replicate (k - s.length + 1) (some 0)) := by
        rw [store_eq (by simp; omega)]
        simp only [List.take_left' (List.length_map some), List.length_append, List.length_cons, List.length_nil]
        rw [List.drop_append, List.drop_of_length_le (by simp)]
        simp only [List.length_map, List.nil_append, List.drop_replicate]
        congr 1
        rw [show k + 1 - (t.length + (s.length + (0 + 1)) - t.length) = k - s.length by omega]
        simp [List.replicate_succ]
      simp only [catLoop, strcat, hlen, Option.bind_eq_bind, Option.bind_some, hst]
      rw [ih (t ++ s) (k - s.length) (by simp [h0, hs0]) (fun s hs => ha s (by simp [hs])) (by omega)]
      simp

end Str

/-- C48. `StringConcatenate` of at least one argument: a block holding exactly the concatenation of the non-NULL arguments in order (and its
terminator, with nothing to spare). -/
theorem C48_concatenate (args : List (Option (List UInt8))) (hne : args ≠ []) (h0 : ∀ s, some s ∈ args → 0 ∉ s) :
    Str.stringConcatenate args = some (some ((args.filterMap id).flatten.map some ++ [some 0])) := by
  have hl : ¬ args.length < 1 := by have := List.length_pos_iff.2 hne; omega
  have := Str.catLoop_ok args [] _ (by simp) h0 rfl
  simp only [List.map_nil, List.nil_append] at this
  simp only [Str.stringConcatenate, if_neg hl, this, Option.bind_eq_bind, Option.bind_some]

theorem C48_concatenate_none : Str.stringConcatenate [] = some none := rfl

example : Str.stringConcatenate [some [97], none, some [98, 99]] = some (some [some 97, some 98, some 99, some 0]) := by decide

/-- C48. `Path_JoinAlloc` puts a slash between directory and leaf unless the directory already ends with one. -/
theorem C48_joinAlloc (dir leaf : List UInt8) (h0 : 0 ∉ dir) (h1 : 0 ∉ leaf) :
    Path.joinAlloc dir leaf = some (some ((PathSpec.joined dir 47 leaf).map some ++ [some 0])) := by
  have he : Path.endsWith dir [47] = some (decide (dir.getLast? = some 47)) := by
    rw [C65_endsWith]; congr 1; rw [decide_eq_decide]
    constructor
    · rintro ⟨t, rfl⟩; simp
    · intro h
      obtain ⟨ys, hy⟩ := List.getLast?_eq_some_iff.1 h
      exact ⟨ys, hy.symm⟩
  rw [Path.joinAlloc, he, Option.bind_some]
  by_cases h : dir.getLast? = some 47
  · obtain ⟨ys, hy⟩ := List.getLast?_eq_some_iff.1 h
    simp only [h, decide_true, if_true]
    rw [C48_concatenate _ (by simp) (by simp [h0, h1])]
    subst hy; simp [PathSpec.joined]
  · simp only [h, decide_false, Bool.false_eq_true, if_false]
    rw [C48_concatenate _ (by simp) (by simp [h0, h1])]
    simp [PathSpec.joined, h]

example : Path.joinAlloc [97] [98] = some (some [some 97, some 47, some 98, some 0]) ∧
    Path.joinAlloc [97, 47] [98] = some (some [some 97, some 47, some 98, some 0]) := by decide
