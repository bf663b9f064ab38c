import Verif.Model.StrEdit
import Verif.Lemmas.Writer
import Verif.Props.StrCopy
/-! # C38 (search and replace) -/
open StrSpec CMem ReplaceSpec

namespace Str

theorem strstr_none {s pat : List UInt8} (h : strstr s pat = none) : ¬ pat <:+: s := by
  induction s with
  | nil =>
    simp only [strstr] at h
    split at h
    · simp at h
    · rename_i hp; intro hi; exact hp (List.infix_nil.1 hi)
  | cons c s ih =>
    simp only [strstr] at h
    split at h
    · simp at h
    · rename_i hp
      simp only [Option.map_eq_none_iff] at h
      intro hi
      rw [List.infix_cons_iff] at hi
      rcases hi with hi | hi
      · exact hp (List.isPrefixOf_iff_prefix.2 hi)
      · exact ih h hi

theorem strstr_some {s pat : List UInt8} {i : Nat} (h : strstr s pat = some i) :
    s = s.take i ++ pat ++ s.drop (i + pat.length) ∧ i + pat.length ≤ s.length ∧
      ∀ pre' rest', s = pre' ++ pat ++ rest' → i ≤ pre'.length := by
  induction s generalizing i with
  | nil =>
    simp only [strstr] at h
    split at h
    · rename_i hp; subst hp; simp at h; subst h; simp
    · simp at h
  | cons c s ih =>
    simp only [strstr] at h
    split at h
    · rename_i hp
      rw [List.isPrefixOf_iff_prefix] at hp
      simp only [Option.some.injEq] at h; subst h
      obtain ⟨t, ht⟩ := hp
      rw [← ht]; simp
    · rename_i hp
      rw [Option.map_eq_some_iff] at h
      obtain ⟨j, hj, rfl⟩ := h
      obtain ⟨h1, h2, h3⟩ := ih hj
      refine ⟨?_, by simp; omega, ?_⟩
      · rw [show j + 1 + pat.length = (j + pat.length) + 1 by omega]
        simp only [List.take_succ_cons, List.drop_succ_cons, List.cons_append]
        rw [← h1]
      · intro pre' rest' he
        cases pre' with
        | nil => exact absurd (List.isPrefixOf_iff_prefix.2 ⟨rest', he.symm⟩) hp
        | cons a pre' =>
          simp only [List.cons_append, List.cons.injEq] at he
          have := h3 pre' rest' he.2
          simp; omega

/-- One replacement step in the vocabulary of the specification. -/
theorem replaced_step {s search replace r : List UInt8} {i : Nat} (h : strstr s search = some i) (hr : Replaced search replace (s.drop (i + search.length)) r) :
    Replaced search replace s (s.take i ++ replace ++ r) := by
  obtain ⟨h1, h2, h3⟩ := strstr_some h
  have := Replaced.step (search := search) (replace := replace) (s.take i) (s.drop (i + search.length)) r (by
    intro pre' rest' he
    rw [← h1] at he
    have := h3 pre' rest' he
    simp; omega) hr
  rw [← h1] at this
  exact this

theorem replaced_exists {search replace : List UInt8} (hne : search ≠ []) : ∀ (n : Nat) (s : List UInt8), s.length ≤ n → ∃ r, Replaced search replace s r := by
  intro n
  induction n with
  | zero =>
    intro s hs
    have : s = [] := List.length_eq_zero_iff.1 (by omega)
    subst this
    exact ⟨[], .done [] (fun h => hne (List.infix_nil.1 h))⟩
  | succ n ih =>
    intro s hs
    cases h : strstr s search with
    | none => exact ⟨s, .done s (strstr_none h)⟩
    | some i =>
      have := List.length_pos_iff.2 hne
      obtain ⟨r, hr⟩ := ih (s.drop (i + search.length)) (by simp; omega)
      exact ⟨_, replaced_step h hr⟩

theorem sarLoop_ok (search replace : List UInt8) (hne : search ≠ []) (h0r : 0 ∉ replace) (hlr : replace.length ≤ 2147483647) :
    ∀ (fuel : Nat) (src : List UInt8) (w : Writer.W) (xs : List UInt8), Writer.WRep w xs → src.length < fuel → 0 ∉ src → src.length ≤ 2147483647 →
      ∃ out, sarLoop search replace w src fuel = some (xs ++ out ++ [0]) ∧ Replaced search replace src out := by
  intro fuel
  induction fuel with
  | zero => intro src w xs _ h; omega
  | succ fuel ih =>
    intro src w xs hw hf h0 hl
    simp only [sarLoop]
    cases h : strstr src search with
    | none =>
      obtain ⟨w1, e1, r1⟩ := Writer.write_ok hw src h0 hl
      have := Writer.dataZ_ok r1
      exact ⟨src, by simp [e1, this], .done src (strstr_none h)⟩
    | some i =>
      obtain ⟨h1, h2, _⟩ := strstr_some h
      have hsl := List.length_pos_iff.2 hne
      obtain ⟨w1, e1, r1⟩ := Writer.writeLen_ok hw (src ++ [0]) i (Or.inr (by simp))
      have htk : ((src ++ [(0 : UInt8)]).take i).takeWhile (· ≠ 0) = src.take i := by
        rw [List.take_append_of_le_length (by omega)]
        have : ∀ l : List UInt8, 0 ∉ l → l.takeWhile (· ≠ 0) = l := by
          intro l
          induction l with
          | nil => simp
          | cons a l ih =>
            intro h
            simp only [List.mem_cons, not_or] at h
            rw [List.takeWhile_cons, if_pos (by simpa using Ne.symm h.1), ih h.2]
        exact this _ (fun h => h0 (List.mem_of_mem_take h))
      rw [htk] at e1 r1
      obtain ⟨w2, e2, r2⟩ := Writer.write_ok r1 replace h0r hlr
      obtain ⟨out, e3, h3⟩ := ih (src.drop (i + search.length)) w2 _ r2 (by simp; omega) (fun h => h0 (List.mem_of_mem_drop h)) (by simp; omega)
      refine ⟨src.take i ++ replace ++ out, ?_, replaced_step h h3⟩
      simp only [e1, e2, Option.bind_eq_bind, Option.bind_some, e3]
      simp

end Str

/-- The specification determines the result, for a non-empty search string. -/
theorem C38_replaced_unique (search replace src o1 o2 : List UInt8) (hne : search ≠ []) (h1 : Replaced search replace src o1)
    (h2 : Replaced search replace src o2) : o1 = o2 := by
  induction h1 generalizing o2 with
  | done src hn =>
    cases h2 with
    | done _ _ => rfl
    | step pre rest out hl hr => exact absurd ⟨pre, rest, rfl⟩ hn
  | step pre rest out hl hr ih =>
    generalize he : pre ++ search ++ rest = s at h2
    cases h2 with
    | done _ hn => exact absurd ⟨pre, rest, he⟩ hn
    | step pre2 rest2 out2 hl2 hr2 =>
      have e1 := hl pre2 rest2 he
      have e2 := hl2 pre rest he.symm
      have hp : pre = pre2 := by
        have := congrArg (List.take pre.length) he
        rwa [List.append_assoc, List.take_left' rfl, List.append_assoc, List.take_left' (by omega)] at this
      subst hp
      simp only [List.append_assoc, List.append_cancel_left_eq] at he
      subst he
      rw [ih out2 hr2]

/-- C38. `SearchAndReplace` returns the source with every occurrence replaced (the source itself for an empty search string). -/
theorem C38_searchAndReplace (source search replace : List UInt8) (h0 : 0 ∉ source) (h0r : 0 ∉ replace) (hl : source.length ≤ 2147483647)
    (hlr : replace.length ≤ 2147483647) :
    ∃ out, Str.searchAndReplace source search replace = some (out ++ [0]) ∧
      if search = [] then out = source else Replaced search replace source out := by
  unfold Str.searchAndReplace
  by_cases hne : search = []
  · rw [if_pos hne]; simp only [if_pos hne]; exact ⟨source, rfl, rfl⟩
  · rw [if_neg hne]
    simp only [if_neg hne]
    have := Str.sarLoop_ok search replace hne h0r hlr (source.length + 1) source _ [] Writer.init_ok (by omega) h0 hl
    simpa using this

example : Str.searchAndReplace [97, 97, 97, 98] [97, 97] [99] = some [99, 97, 98, 0] := by decide

/-- C38. A source without occurrences comes back unchanged. -/
theorem C38_unchanged (source search replace : List UInt8) (h0 : 0 ∉ source) (h0r : 0 ∉ replace) (hl : source.length ≤ 2147483647)
    (hlr : replace.length ≤ 2147483647) (hn : ¬ search <:+: source) : Str.searchAndReplace source search replace = some (source ++ [0]) := by
  obtain ⟨out, e, h⟩ := C38_searchAndReplace source search replace h0 h0r hl hlr
  have hne : search ≠ [] := fun e => hn (e ▸ List.nil_infix)
  rw [if_neg hne] at h
  rw [e, C38_replaced_unique search replace source out source hne h (.done source hn)]

namespace Str

theorem replaceLoop_ok {buf : List (Option UInt8)} {s find replace : List UInt8} (bufSize : Nat) (hne : find ≠ []) (hb : HoldsStr buf s)
    (h0r : 0 ∉ replace) (hsz : s.length < bufSize) (hl : bufSize ≤ buf.length) :
    ∀ (fuel : Nat) (done src : List UInt8) (i : Nat) (out : List UInt8) (rest : List (Option UInt8)) (r : List UInt8),
      s = done ++ src → strstr src find = some i → src.length < fuel → (out.map some ++ rest).length = bufSize → 0 ∉ out → Replaced find replace src r →
      ∃ buf' ret, ((replaceLoop buf bufSize s find replace (out.map some ++ rest) out.length done.length (done.length + i) fuel).bind
          (replaceFinish buf bufSize s)) = some (buf', ret) ∧
        if (out ++ r).length < bufSize then Stored buf buf' bufSize (out ++ r) ∧ ret = ((out ++ r).length : Int) else buf' = buf ∧ ret = -1 := by
  obtain ⟨hs0, brest, hbuf⟩ := hb
  intro fuel
  induction fuel with
  | zero => intro done src i out rest r _ _ hf; omega
  | succ fuel ih =>
    intro done src i out rest r hs hi hf hlen h0 hr
    obtain ⟨h1, h2, _⟩ := strstr_some hi
    have hfl := List.length_pos_iff.2 hne
    have hsl : s.length = done.length + src.length := by rw [hs]; simp
    -- the shape of the result
    obtain ⟨r2, hr2⟩ := replaced_exists (replace := replace) hne (src.drop (i + find.length)).length (src.drop (i + find.length)) (Nat.le_refl _)
    have hrr : r = src.take i ++ replace ++ r2 := C38_replaced_unique _ _ _ _ _ hne hr (replaced_step hi hr2)
    simp only [replaceLoop]
    rw [show done.length + i - done.length = i by omega]
    by_cases hc : out.length + i + replace.length ≥ bufSize
    · rw [if_pos hc]
      refine ⟨buf, -1, rfl, ?_⟩
      rw [if_neg]
      · exact ⟨rfl, rfl⟩
      · rw [hrr]; simp only [List.length_append, List.length_take]; omega
    · rw [if_neg hc]
      have hrl : out.length + rest.length = bufSize := by simpa using hlen
      -- first memcpy
      have e1 : memcpy (out.map some ++ rest) out.length buf done.length i = some ((out ++ src.take i).map some ++ rest.drop i) := by
        have hcond : out.length + i ≤ (out.map some ++ rest).length ∧ done.length + i ≤ buf.length := by
          constructor
          · simp; omega
          · omega
        rw [memcpy, if_pos hcond]
        congr 1
        have hsrc : (buf.drop done.length).take i = (src.take i).map some := by
          rw [hbuf, hs, List.map_append, List.append_assoc, List.drop_left' (by simp), List.take_append_of_le_length (by simp; omega), List.map_take]
        rw [hsrc, List.take_left' (by simp), List.drop_append, List.drop_of_length_le (by simp)]
        simp
      have htil : (src.take i).length = i := by simp; omega
      have e2 : store ((out ++ src.take i).map some ++ rest.drop i) (out.length + i) replace
          = some ((out ++ src.take i ++ replace).map some ++ (rest.drop i).drop replace.length) := by
        rw [store_eq (by simp; omega)]
        congr 1
        rw [List.take_left' (by simp; omega), List.drop_append, List.drop_of_length_le (by simp; omega)]
        simp only [List.map_append, List.nil_append, List.length_append, List.length_map]
        congr 2
        rw [htil]; omega
      simp only [e1, e2, Option.bind_eq_bind, Option.bind_some]
      have hdrop : s.drop (done.length + i + find.length) = src.drop (i + find.length) := by
        rw [hs, Nat.add_assoc, List.drop_append, List.drop_of_length_le (by omega)]; simp
      rw [hdrop]
      have hdone : s = (done ++ src.take (i + find.length)) ++ src.drop (i + find.length) := by
        rw [hs, List.append_assoc, List.take_append_drop]
      have hdl : (done ++ src.take (i + find.length)).length = done.length + i + find.length := by simp; omega
      have h0' : 0 ∉ out ++ src.take i ++ replace := by
        simp only [List.mem_append, not_or]
        refine ⟨⟨h0, fun h => hs0 ?_⟩, h0r⟩
        rw [hs]; exact List.mem_append_right _ (List.mem_of_mem_take h)
      have houtl : (out ++ src.take i ++ replace).length = out.length + i + replace.length := by simp; omega
      have hassoc : out ++ r = out ++ src.take i ++ replace ++ r2 := by rw [hrr]; simp
      rw [hassoc]
      cases hn : strstr (src.drop (i + find.length)) find with
      | some j =>
        have := ih (done ++ src.take (i + find.length)) (src.drop (i + find.length)) j (out ++ src.take i ++ replace) ((rest.drop i).drop replace.length) r2
          hdone hn (by simp; omega) (by
            rw [List.length_append, List.length_map, houtl]; simp; omega) h0' hr2
        rw [hdl, houtl] at this
        exact this
      | none =>
        have hr2e : r2 = src.drop (i + find.length) := C38_replaced_unique _ _ _ _ _ hne hr2 (.done _ (strstr_none hn))
        simp only [Option.bind_some, replaceFinish]
        have hlo : s.length - (done.length + i + find.length) = r2.length := by rw [hr2e]; simp; omega
        rw [hlo]
        by_cases hc2 : out.length + i + replace.length + r2.length ≥ bufSize
        · rw [if_pos hc2]
          refine ⟨buf, -1, rfl, ?_⟩
          rw [if_neg]
          · exact ⟨rfl, rfl⟩
          · rw [List.length_append, houtl]; omega
        · rw [if_neg hc2]
          obtain ⟨out2, hout2⟩ : ∃ out2, out2 = out ++ src.take i ++ replace := ⟨_, rfl⟩
          rw [← hout2] at houtl h0' ⊢
          obtain ⟨rest2, hrest2⟩ : ∃ rest2, rest2 = (rest.drop i).drop replace.length := ⟨_, rfl⟩
          have hrest2l : out2.length + rest2.length = bufSize := by rw [hrest2, houtl]; simp; omega
          rw [← hrest2]
          have hr20 : 0 ∉ r2 := by
            rw [hr2e]; intro h; exact hs0 (by rw [hs]; exact List.mem_append_right _ (List.mem_of_mem_drop h))
          have e3 : memcpy (out2.map some ++ rest2) (out.length + i + replace.length) buf (done.length + i + find.length) (r2.length + 1)
              = some ((out2 ++ r2 ++ [0]).map some ++ rest2.drop (r2.length + 1)) := by
            have hbl : buf.length = s.length + 1 + brest.length := by rw [hbuf]; simp; omega
            rw [memcpy, if_pos ⟨by simp; omega, by omega⟩]
            congr 1
            have hsrc : (buf.drop (done.length + i + find.length)).take (r2.length + 1) = (r2 ++ [0]).map some := by
              rw [hbuf, hdone, List.map_append, List.append_assoc, List.drop_left' (by rw [List.length_map, hdl]), ← hr2e]
              rw [List.take_append, List.take_of_length_le (by simp)]
              simp
            rw [hsrc, ← houtl, List.take_left' (by simp), List.drop_append, List.drop_of_length_le (by simp)]
            simp
          have hlen3 : (out2 ++ r2).length < bufSize := by rw [List.length_append]; omega
          obtain ⟨buf', e4, hst⟩ := stored_of_store (m := buf) (t := []) (rest := buf) rfl (out2 ++ r2) bufSize (by simpa using hlen3) hl (by simp)
            (by simp [h0', hr20])
          simp only [List.length_nil, List.nil_append] at e4 hst
          have e5 : memcpy buf 0 ((out2 ++ r2 ++ [0]).map some ++ rest2.drop (r2.length + 1)) 0 (out.length + i + replace.length + r2.length + 1)
              = some buf' := by
            rw [store_eq (by simp at hlen3 ⊢; omega)] at e4
            rw [memcpy, if_pos ⟨by omega, by simp; omega⟩]
            rw [← e4]
            congr 1
            simp only [List.take_zero, List.nil_append, List.drop_zero, Nat.zero_add]
            rw [List.take_left' (by simp; omega)]
            congr 2
            simp; omega
          simp only [if_pos hlen3]
          refine ⟨buf', ((out2 ++ r2).length : Int), ?_, hst, rfl⟩
          simp only [e3, e5, Option.bind_eq_bind, Option.bind_some]
          rw [List.length_append, houtl]

end Str

/-- C38. `StringReplace` on a buffer of `bufSize` bytes holding `s`: without an occurrence the result is 0 and nothing changes; otherwise, if the
replaced text fits with its terminator it is stored and its length returned, and if not the buffer is untouched and the result is -1. -/
theorem C38_stringReplace (buf : List (Option UInt8)) (bufSize : Nat) (s find replace out : List UInt8) (hb : HoldsStr buf s) (hne : find ≠ [])
    (h0r : 0 ∉ replace) (hsz : s.length < bufSize) (hl : bufSize ≤ buf.length) (hout : Replaced find replace s out) :
    if find <:+: s then
      if out.length < bufSize then ∃ buf', Str.stringReplace buf bufSize find replace = some (buf', (out.length : Int)) ∧ Stored buf buf' bufSize out
      else Str.stringReplace buf bufSize find replace = some (buf, -1)
    else Str.stringReplace buf bufSize find replace = some (buf, 0) := by
  have hstr := str_holds hb
  cases h : Str.strstr s find with
  | none =>
    rw [if_neg (Str.strstr_none h)]
    simp [Str.stringReplace, hne, hstr, h]
  | some i =>
    obtain ⟨h1, _, _⟩ := Str.strstr_some h
    rw [if_pos ⟨s.take i, s.drop (i + find.length), h1.symm⟩]
    obtain ⟨buf', ret, e, hh⟩ := Str.replaceLoop_ok bufSize hne hb h0r hsz hl (s.length + 1) [] s i [] (List.replicate bufSize none) out rfl h (by omega)
      (by simp) (by simp) hout
    simp only [List.length_nil, Nat.zero_add, List.map_nil, List.nil_append] at e hh
    have e' : Str.stringReplace buf bufSize find replace = some (buf', ret) := by
      simp only [Str.stringReplace, if_neg hne, hstr, h, Option.bind_eq_bind, Option.bind_some]
      exact e
    by_cases hc : out.length < bufSize
    · rw [if_pos hc] at hh ⊢
      exact ⟨buf', by rw [e', hh.2], hh.1⟩
    · rw [if_neg hc] at hh ⊢
      rw [e', hh.1, hh.2]

example : HoldsStr [some 97, some 98, some 0, none, some 9] [97, 98] ∧ Replaced [98] [99, 99] [97, 98] [97, 99, 99] ∧
    Str.stringReplace [some 97, some 98, some 0, none, some 9] 4 [98] [99, 99] = some ([some 97, some 99, some 99, some 0, some 9], 3) :=
  ⟨⟨by decide, [none, some 9], rfl⟩,
    .step [97] [] [] (by intro p r h; cases p with
      | nil => simp at h
      | cons a p => simp) (.done [] (by decide)), by decide⟩
example : Str.stringReplace [some 97, some 98, some 0, none, some 9] 3 [98] [99, 99] = some ([some 97, some 98, some 0, none, some 9], -1) := by decide

/-- Finding: when everything is replaced by nothing the returned length is 0, the value that also means "no replacement". -/
theorem C38_zero_is_ambiguous : Str.stringReplace [some 97, some 0] 2 [97] [] = some ([some 0, some 0], 0) ∧
    Str.stringReplace [some 97, some 0] 2 [98] [] = some ([some 97, some 0], 0) := by decide
