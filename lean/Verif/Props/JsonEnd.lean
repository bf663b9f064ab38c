import Verif.Props.JsonParse

/-! C25 for the remaining texts: which texts take the parser past their end, exactly. -/

set_option linter.unusedSimpArgs false

namespace Json.End
open Json

theorem str_quote (l : Bytes) (p : Nat) (acc : Bytes) : strLoop (34 :: l) p acc = some (.ok (acc, p)) := by
  rw [strLoop.eq_def]; simp
theorem str_esc (d : UInt8) (l : Bytes) (p : Nat) (acc : Bytes) : strLoop (92 :: d :: l) p acc = strLoop l (p + 2) (acc ++ unescape d) := by
  rw [strLoop.eq_def]; simp
theorem str_plain {c : UInt8} (h : c ≠ 34) (h' : c ≠ 92) (l : Bytes) (p : Nat) (acc : Bytes) : strLoop (c :: l) p acc = strLoop l (p + 1) (acc ++ [c]) := by
  rw [strLoop.eq_def]; simp [h, h']

/-- A run of `2k+1` backslashes, seen from inside a string. -/
theorem run_none : ∀ (k p : Nat) (acc : Bytes), strLoop (List.replicate (2 * k + 1) 92) p acc = none ∧
    ∃ v, ∀ u, strLoop (List.replicate (2 * k + 1) 92 ++ 110 :: 34 :: u) p acc = some (.ok (v, p + 2 * k + 2)) := by
  intro k
  induction k with
  | zero => intro p acc; exact ⟨by simp [strLoop], _, fun u => by
      show strLoop (92 :: 110 :: 34 :: u) p acc = _
      rw [str_esc, str_quote]⟩
  | succ k ih =>
    intro p acc
    have e : List.replicate (2 * (k + 1) + 1) (92 : UInt8) = 92 :: 92 :: List.replicate (2 * k + 1) 92 := by
      rw [show 2 * (k + 1) + 1 = (2 * k + 1) + 1 + 1 by omega, List.replicate_succ, List.replicate_succ]
    obtain ⟨a, v, b⟩ := ih (p + 2) (acc ++ unescape 92)
    rw [e]
    refine ⟨by simpa [strLoop] using a, v, fun u => ?_⟩
    have := b u
    simp only [List.cons_append, strLoop]
    simp only [show ¬ ((92 : UInt8) = 34) by decide, if_false, if_true]
    rw [this]
    congr 3
    omega

/-- A string whose text ends in an odd number of backslashes ends before them or leaves the text. -/
theorem str_odd (k : Nat) : ∀ (n : Nat) (t : Bytes), t.length ≤ n → t.getLast? ≠ some 92 → ∀ (p : Nat) (acc : Bytes),
    (∃ v q, p ≤ q ∧ q < p + t.length ∧ strLoop (t ++ List.replicate (2 * k + 1) 92) p acc = some (.ok (v, q)) ∧
      ∀ u, strLoop (t ++ List.replicate (2 * k + 1) 92 ++ u) p acc = some (.ok (v, q))) ∨
    (strLoop (t ++ List.replicate (2 * k + 1) 92) p acc = none ∧
      ∃ v, ∀ u, strLoop (t ++ List.replicate (2 * k + 1) 92 ++ 110 :: 34 :: u) p acc = some (.ok (v, p + t.length + 2 * k + 2))) := by
  intro n
  induction n with
  | zero =>
    intro t ht _ p acc
    obtain rfl : t = [] := List.length_eq_zero_iff.1 (by omega)
    exact Or.inr (by simpa using run_none k p acc)
  | succ n ih =>
    intro t ht hl p acc
    match t, ht, hl with
    | [], _, _ => exact Or.inr (by simpa using run_none k p acc)
    | c :: t, ht, hl =>
      by_cases h34 : c = 34
      · subst h34
        exact Or.inl ⟨acc, p, Nat.le_refl _, by simp, str_quote _ _ _, fun u => str_quote _ _ _⟩
      by_cases h92 : c = 92
      · subst h92
        match t, ht, hl with
        | [], _, hl => simp at hl
        | d :: t, ht, hl =>
          have hl' : t.getLast? ≠ some 92 := by
            cases t with
            | nil => simp
            | cons x t => simpa [List.getLast?_cons_cons] using hl
          simp only [List.length_cons] at ht
          rcases ih t (by omega) hl' (p + 2) (acc ++ unescape d) with ⟨v, q, a, b, e1, e2⟩ | ⟨e1, v, e2⟩
          · refine Or.inl ⟨v, q, by omega, by simp only [List.length_cons]; omega, by simpa [strLoop] using e1, fun u => ?_⟩
            have := e2 u
            simpa [strLoop] using this
          · refine Or.inr ⟨by simpa [strLoop] using e1, v, fun u => ?_⟩
            have := e2 u
            simp only [List.cons_append, strLoop, show ¬ ((92 : UInt8) = 34) by decide, if_false, if_true]
            rw [this]
            simp only [List.length_cons]
            congr 3
            omega
      · have hl' : t.getLast? ≠ some 92 := by
          cases t with
          | nil => simp
          | cons x t => simpa [List.getLast?_cons_cons] using hl
        simp only [List.length_cons] at ht
        rcases ih t (by omega) hl' (p + 1) (acc ++ [c]) with ⟨v, q, a, b, e1, e2⟩ | ⟨e1, v, e2⟩
        · refine Or.inl ⟨v, q, by omega, by simp only [List.length_cons]; omega, by rw [List.cons_append, str_plain h34 h92]; exact e1, fun u => ?_⟩
          rw [List.cons_append, List.cons_append, str_plain h34 h92]; exact e2 u
        · refine Or.inr ⟨by rw [List.cons_append, str_plain h34 h92]; exact e1, v, fun u => ?_⟩
          have := e2 u
          rw [List.cons_append, List.cons_append, str_plain h34 h92, this]
          simp only [List.length_cons]
          congr 3
          omega

/-- The text ends in an odd number of backslashes. -/
structure Odd (s t : Bytes) (k : Nat) : Prop where
  eq : s = t ++ List.replicate (2 * k + 1) 92
  last : t.getLast? ≠ some 92
  zero : 0 ∉ s

variable {s t : Bytes} {k : Nat}

theorem Odd.len (h : Odd s t k) : s.length = t.length + (2 * k + 1) := by rw [h.eq]; simp

/-- A character other than a backslash lies before the run. -/
theorem Odd.before (h : Odd s t k) {p : Nat} {c : UInt8} (hc : s[p]? = some c) (h92 : c ≠ 92) : p < t.length := by
  refine Classical.byContradiction fun hp => ?_
  rw [h.eq, List.getElem?_append_right (by omega)] at hc
  obtain ⟨hb, hv⟩ := List.getElem?_eq_some_iff.1 hc
  rw [List.getElem_replicate] at hv
  exact h92 hv.symm

theorem Odd.lt (h : Odd s t k) {p : Nat} {c : UInt8} (hc : s[p]? = some c) (h92 : c ≠ 92) : p + 1 < s.length := by
  have := h.before hc h92
  have := h.len
  omega

theorem Odd.getLast (h : Odd s t k) : s.getLast? = some 92 := by
  rw [h.eq, List.getLast?_append]
  simp [List.getLast?_replicate]

theorem Odd.string (h : Odd s t k) {p : Nat} (hc : s[p]? = some 34) :
    (∃ v q, p < q ∧ q + 1 < s.length ∧ stringAt s p = some (.ok (v, q)) ∧ ∀ u, stringAt (s ++ u) p = some (.ok (v, q))) ∨
    (stringAt s p = none ∧ ∃ v, ∀ u, stringAt (s ++ 110 :: 34 :: u) p = some (.ok (v, s.length + 1))) := by
  have hp := h.before hc (by decide)
  have hlen := h.len
  have hd : s.drop (p + 1) = t.drop (p + 1) ++ List.replicate (2 * k + 1) 92 := by
    rw [h.eq, List.drop_append_of_le_length (by omega)]
  have hda : ∀ u, (s ++ u).drop (p + 1) = t.drop (p + 1) ++ List.replicate (2 * k + 1) 92 ++ u := by
    intro u
    rw [List.drop_append_of_le_length (by omega), hd]
  have hl : (t.drop (p + 1)).getLast? ≠ some 92 := by
    rw [List.getLast?_drop]
    split
    · simp
    · exact h.last
  rcases str_odd k _ (t.drop (p + 1)) (Nat.le_refl _) hl (p + 1) [] with ⟨v, q, a, b, e1, e2⟩ | ⟨e1, v, e2⟩
  · simp only [List.length_drop] at b
    refine Or.inl ⟨v, q, by omega, by omega, by rw [stringAt, hd]; exact e1, fun u => by rw [stringAt, hda]; exact e2 u⟩
  · refine Or.inr ⟨by rw [stringAt, hd]; exact e1, v, fun u => ?_⟩
    rw [stringAt, hda, e2 u]
    simp only [List.length_drop]
    congr 3
    omega

theorem numLoop_end : ∀ (rest : Bytes) (p : Nat) (n : Num), rest.getLast? = some 92 →
    ∃ r, numLoop rest p n = some r ∧ (∀ u, numLoop (rest ++ u) p n = some r) ∧ ∀ e q, r = .ok (e, q) → p ≤ q + 1 ∧ q + 1 < p + rest.length := by
  intro rest
  induction rest with
  | nil => intro p n h; simp at h
  | cons c rest ih =>
    intro p n h
    by_cases hs : isSep c = true
    · have hr : rest ≠ [] := by
        rintro rfl
        simp at h; subst h
        revert hs; decide
      have hl : 0 < rest.length := List.length_pos_iff.2 hr
      simp only [List.cons_append, numLoop, hs, if_true, numEnd]
      split
      · exact ⟨_, rfl, fun _ => rfl, by intro e q h; cases h⟩
      · rename_i hne
        refine ⟨_, rfl, fun _ => rfl, ?_⟩
        intro e q h
        cases h
        simp only [List.length_cons]
        by_cases hp : p = 0
        · subst hp; simp; omega
        · omega
    · simp only [Bool.not_eq_true] at hs
      simp only [List.cons_append, numLoop, hs, Bool.false_eq_true, if_false]
      cases rest with
      | nil =>
        simp at h; subst h
        have : ∃ e, numStep n 92 = .error e := by
          simp only [numStep]
          simp only [show ¬ ((92 : UInt8) = 45) by decide, show ¬ ((92 : UInt8) = 43) by decide, show ¬ ((92 : UInt8) = 48) by decide, show ¬ ((92 : UInt8) = 46) by decide,
            show ¬ ((92 : UInt8) = 101 ∨ (92 : UInt8) = 69) by decide, if_false, show isDigit19 92 = false by decide, if_true]
          split
          · exact ⟨_, rfl⟩
          · exact ⟨_, rfl⟩
        obtain ⟨e, he⟩ := this
        rw [he]
        exact ⟨_, rfl, fun _ => rfl, by intro e q h; cases h⟩
      | cons d rest =>
        cases hst : numStep n c with
        | error e => exact ⟨_, rfl, fun _ => rfl, by intro e q h; cases h⟩
        | ok n' =>
          obtain ⟨r, e1, e2, e3⟩ := ih (p + 1) n' (by simpa [List.getLast?_cons_cons] using h)
          refine ⟨r, e1, e2, ?_⟩
          intro e q hr
          have := e3 e q hr
          simp only [List.length_cons] at this ⊢
          omega

theorem Odd.rd (h : Odd s t k) {p : Nat} (hp : p < s.length) : ∃ c, s[p]? = some c ∧ c ≠ 0 ∧ ∀ u, Json.rd (s ++ u) p = some c := by
  refine ⟨s[p], List.getElem?_eq_getElem hp, ?_, fun u => ?_⟩
  · intro h0
    exact h.zero (h0 ▸ List.getElem_mem hp)
  · rw [Json.rd, List.append_assoc, List.getElem?_append_left hp]
    exact List.getElem?_eq_getElem hp

theorem Odd.literal (h : Odd s t k) {p : Nat} (hp : p < s.length) {lit : Bytes} (h92 : 92 ∉ lit) :
    ∃ b, (∀ u, literalAt (s ++ u) p lit = some b) ∧ (b = true → p + lit.length < s.length) := by
  by_cases hm : (s.drop p).take lit.length = lit
  · have hle : p + lit.length ≤ s.length := by
      have := congrArg List.length hm
      simp only [List.length_take, List.length_drop] at this
      omega
    have hlt : p + lit.length < s.length := by
      refine Nat.lt_of_le_of_ne hle fun he => h92 ?_
      have : (s.drop p).take lit.length = s.drop p := List.take_of_length_le (by simp; omega)
      rw [this] at hm
      have hg := h.getLast
      have : (s.drop p).getLast? = some 92 := by
        rw [List.getLast?_drop, if_neg (by omega)]; exact hg
      rw [hm] at this
      exact List.mem_of_getLast? this
    obtain ⟨c, _, _, hc⟩ := h.rd hlt
    refine ⟨isSep c || c == 0, fun u => ?_, fun _ => hlt⟩
    rw [literalAt, if_pos (by simp; omega), if_pos, hc u]
    · rfl
    · rw [List.drop_append_of_le_length (by omega), List.take_append_of_le_length (by simp; omega)]
      exact hm
  · refine ⟨false, fun u => ?_, by simp⟩
    rw [literalAt, if_pos (by simp; omega), if_neg]
    intro he
    rw [List.drop_append_of_le_length (by omega)] at he
    by_cases hle : lit.length ≤ (s.drop p).length
    · rw [List.take_append_of_le_length hle] at he
      exact hm he
    · rw [List.take_append, List.take_of_length_le (by omega)] at he
      refine h92 ?_
      rw [← he]
      refine List.mem_append_left _ ?_
      refine List.mem_of_getLast? ?_
      rw [List.getLast?_drop, if_neg (by omega)]
      exact h.getLast

/-- A number or a word is read alike however the text goes on. -/
theorem Odd.scalar (h : Odd s t k) {p : Nat} {c : UInt8} (hc : s[p]? = some c) :
    ∃ r, (∀ u, scalarAt (s ++ u) p c = some r) ∧ ∀ e q, r = .ok (e, q) → p ≤ q ∧ q + 1 < s.length := by
  have hp : p < s.length := (List.getElem?_eq_some_iff.1 hc).1
  unfold scalarAt
  by_cases hn : c = 45 ∨ c = 48 ∨ isDigit19 c = true
  · simp only [hn, if_true]
    have h92 : c ≠ 92 := by rintro rfl; revert hn; decide
    have hsep : isSep c = false := by
      rcases hn with rfl | rfl | hn
      · decide
      · decide
      · cases hx : isSep c with
        | false => rfl
        | true =>
          exfalso
          simp only [isSep, isWs, Bool.or_eq_true, beq_iff_eq] at hx
          rcases hx with (((((rfl | rfl) | rfl) | rfl) | rfl) | rfl) | rfl <;> revert hn <;> decide
    have hlt := h.lt hc h92
    have hd : s.drop p = c :: s.drop (p + 1) := by
      rw [List.drop_eq_getElem_cons hp]
      congr 1
      exact (List.getElem?_eq_some_iff.1 hc).2
    have hg : (s.drop (p + 1)).getLast? = some 92 := by
      rw [List.getLast?_drop, if_neg (by omega)]; exact h.getLast
    have key : ∃ r, (∀ u, numLoop (s.drop p ++ u) p {} = some r) ∧ ∀ e q, r = .ok (e, q) → p ≤ q ∧ q + 1 < s.length := by
      rw [hd]
      simp only [List.cons_append, numLoop, hsep, Bool.false_eq_true, if_false]
      cases numStep {} c with
      | error e => exact ⟨_, fun _ => rfl, by intro e q h; cases h⟩
      | ok n' =>
        obtain ⟨r, e1, e2, e3⟩ := numLoop_end _ (p + 1) n' hg
        refine ⟨r, e2, fun e q hr => ?_⟩
        have := e3 e q hr
        simp only [List.length_drop] at this
        omega
    obtain ⟨r, e1, e2⟩ := key
    refine ⟨r, fun u => ?_, e2⟩
    rw [List.drop_append_of_le_length (by omega)]
    exact e1 u
  · simp only [hn, if_false]
    obtain ⟨b1, l1, m1⟩ := h.literal hp (lit := litTrue) (by decide)
    obtain ⟨b2, l2, m2⟩ := h.literal hp (lit := litFalse) (by decide)
    obtain ⟨b3, l3, m3⟩ := h.literal hp (lit := litNull) (by decide)
    simp only [wordAt, l1, l2, l3, Option.bind_some]
    cases b1 with
    | true =>
      refine ⟨_, fun _ => rfl, ?_⟩
      intro e q hr; cases hr
      have := m1 rfl
      simp only [litTrue, List.length_cons, List.length_nil] at this
      omega
    | false =>
      cases b2 with
      | true =>
        refine ⟨_, fun _ => rfl, ?_⟩
        intro e q hr; cases hr
        have := m2 rfl
        simp only [litFalse, List.length_cons, List.length_nil] at this
        omega
      | false =>
        cases b3 with
        | true =>
          refine ⟨_, fun _ => rfl, ?_⟩
          intro e q hr; cases hr
          have := m3 rfl
          simp only [litNull, List.length_cons, List.length_nil] at this
          omega
        | false => exact ⟨_, fun _ => rfl, by intro e q h; cases h⟩

theorem Odd.skip (h : Odd s t k) (f : UInt8 → Bool) (hf : f 92 = false) {p : Nat} (hp : p < s.length) (u : Bytes) :
    Json.skip f (s ++ u) p = Json.skip f s p ∧ Json.skip f s p < s.length := by
  have hne : ∃ x ∈ s.drop p, f x = false :=
    ⟨92, List.mem_of_getLast? (by rw [List.getLast?_drop, if_neg (by omega)]; exact h.getLast), hf⟩
  have hlen : ((s.drop p).takeWhile f).length < (s.drop p).length := by
    refine Nat.lt_of_le_of_ne (List.takeWhile_prefix f).length_le fun he => ?_
    have : (s.drop p).takeWhile f = s.drop p := (List.takeWhile_prefix f).eq_of_length he
    obtain ⟨x, hx, hfx⟩ := hne
    rw [← this] at hx
    have := List.all_takeWhile (p := f) (l := s.drop p)
    rw [List.all_eq_true] at this
    rw [this x hx] at hfx
    cases hfx
  constructor
  · rw [Json.skip, Json.skip, List.drop_append_of_le_length (by omega), List.takeWhile_append, if_neg (by omega)]
  · rw [Json.skip]
    simp only [List.length_drop] at hlen
    omega

theorem backWs_append (s u : Bytes) : ∀ i, i ≤ s.length → backWs (s ++ u) i = backWs s i ∧ backWs s i ≤ i := by
  intro i
  induction i with
  | zero => intro _; simp [backWs]
  | succ i ih =>
    intro hi
    obtain ⟨a, b⟩ := ih (by omega)
    rw [backWs, backWs, List.getElem?_append_left (by omega), a]
    refine ⟨rfl, ?_⟩
    split <;> omega

theorem Odd.unquoted (h : Odd s t k) {p : Nat} {c : UInt8} (hc : s[p]? = some c) :
    ∃ r, (∀ u, unquotedKey (s ++ u) p = r) ∧ ∀ colon, r = some colon → p < colon ∧ colon + 1 < s.length ∧
      ∀ u, ((s ++ u).drop p).take (backWs (s ++ u) colon - p) = (s.drop p).take (backWs s colon - p) := by
  have hp : p < s.length := (List.getElem?_eq_some_iff.1 hc).1
  refine ⟨unquotedKey s p, fun u => ?_, ?_⟩
  · rw [unquotedKey, unquotedKey, List.getElem?_append_left hp, hc]
    simp only
    by_cases hw : isWord c = true
    · have h92 : c ≠ 92 := by rintro rfl; revert hw; decide
      have hlt := h.lt hc h92
      obtain ⟨a, b⟩ := h.skip (fun c => c == 45 || isWord c) (by decide) hlt u
      obtain ⟨a', b'⟩ := h.skip isWs (by decide) b u
      simp only [hw, if_true, a, a', List.getElem?_append_left b']
    · rw [if_neg hw, if_neg hw]
  · intro colon hr
    have hb := unquotedKey_bound hr
    have h58 : s[colon]? = some 58 := by
      rw [unquotedKey, hc] at hr
      simp only at hr
      split at hr
      · split at hr
        · rename_i hh
          cases hr; exact hh
        · cases hr
      · cases hr
    refine ⟨hb.1, h.lt h58 (by decide), fun u => ?_⟩
    obtain ⟨a, b⟩ := backWs_append s u colon (by omega)
    rw [a, List.drop_append_of_le_length (by omega), List.take_append_of_le_length]
    simp only [List.length_drop]
    omega

/-- A result lies at or after `p`, before the last backslash. -/
def Inside (s : Bytes) (p : Nat) (r : Except Err (Elem × Nat)) : Prop := ∀ e q, r = .ok (e, q) → p ≤ q ∧ q + 1 < s.length

theorem Inside.err {s : Bytes} {p : Nat} (e : Err) : Inside s p (.error e) := by intro e q h; cases h
theorem Inside.mono {s : Bytes} {p p' : Nat} {r : Except Err (Elem × Nat)} (h : Inside s p' r) (hp : p ≤ p') : Inside s p r :=
  fun e q he => ⟨Nat.le_trans hp (h e q he).1, (h e q he).2⟩

/-- What the parser settles within the text it settles alike in every longer text. -/
theorem Odd.same (h : Odd s t k) : ∀ f,
    (∀ p c f' u r, s[p]? = some c → f ≤ f' → valueAt f s p c = some r → valueAt f' (s ++ u) p c = some r ∧ Inside s p r) ∧
    (∀ p prev kids f' u r, p < s.length → f ≤ f' → arrLoop f s p prev kids = some r → arrLoop f' (s ++ u) p prev kids = some r ∧ Inside s p r) ∧
    (∀ p prev name kids f' u r, p < s.length → f ≤ f' → objLoop f s p prev name kids = some r → objLoop f' (s ++ u) p prev name kids = some r ∧ Inside s p r) := by
  intro f
  induction f with
  | zero =>
    refine ⟨?_, ?_, ?_⟩
    · intro p c f' u r _ _ hr; rw [valueAt] at hr; cases hr
    · intro p prev kids f' u r _ _ hr; rw [arrLoop] at hr; cases hr
    · intro p prev name kids f' u r _ _ hr; rw [objLoop] at hr; cases hr
  | succ f ih =>
    obtain ⟨ihv, iha, iho⟩ := ih
    refine ⟨?_, ?_, ?_⟩
    · intro p c f' u r hc hf hr
      obtain ⟨f', rfl⟩ : ∃ g, f' = g + 1 := ⟨f' - 1, by omega⟩
      rw [valueAt] at hr
      rw [valueAt]
      split at hr
      · rename_i h34
        rw [if_pos h34]
        subst h34
        rcases h.string hc with ⟨v, q, a, b, e1, e2⟩ | ⟨e1, _⟩
        · rw [stringValueAt, e1] at hr
          rw [stringValueAt, e2]
          simp only [andThen] at hr ⊢
          cases hr
          exact ⟨rfl, by intro e q hq; cases hq; omega⟩
        · rw [stringValueAt, e1] at hr
          simp [andThen] at hr
      rename_i h34
      rw [if_neg h34]
      split at hr
      · rename_i h91
        rw [if_pos h91]
        subst h91
        obtain ⟨a, b⟩ := iha _ _ _ f' u r (h.lt hc (by decide)) (by omega) hr
        exact ⟨a, b.mono (by omega)⟩
      rename_i h91
      rw [if_neg h91]
      split at hr
      · rename_i h123
        rw [if_pos h123]
        subst h123
        obtain ⟨a, b⟩ := iho _ _ _ _ f' u r (h.lt hc (by decide)) (by omega) hr
        exact ⟨a, b.mono (by omega)⟩
      rename_i h123
      rw [if_neg h123]
      obtain ⟨r', a, b⟩ := h.scalar hc
      have := a []
      rw [List.append_nil, hr] at this
      cases this
      exact ⟨a u, b⟩
    · intro p prev kids f' u r hp hf hr
      obtain ⟨f', rfl⟩ : ∃ g, f' = g + 1 := ⟨f' - 1, by omega⟩
      obtain ⟨c, hc, hc0, hrd⟩ := h.rd hp
      have hrd0 := hrd []
      rw [List.append_nil] at hrd0
      rw [arrLoop, hrd0] at hr
      rw [arrLoop, hrd u]
      simp only [hc0, if_false] at hr ⊢
      split at hr
      · rename_i hw
        rw [if_pos hw]
        obtain ⟨a, b⟩ := iha _ _ _ f' u r (h.lt hc (by rintro rfl; revert hw; decide)) (by omega) hr
        exact ⟨a, b.mono (by omega)⟩
      rename_i hw
      rw [if_neg hw]
      split at hr
      · rename_i h44
        rw [if_pos h44]
        split at hr
        · rename_i hx
          rw [if_pos hx]
          cases hr
          exact ⟨rfl, Inside.err _⟩
        · rename_i hx
          rw [if_neg hx]
          obtain ⟨a, b⟩ := iha _ _ _ f' u r (h.lt hc (by rw [h44]; decide)) (by omega) hr
          exact ⟨a, b.mono (by omega)⟩
      rename_i h44
      rw [if_neg h44]
      split at hr
      · rename_i h93
        rw [if_pos h93]
        cases hr
        refine ⟨rfl, ?_⟩
        intro e q hq; cases hq
        exact ⟨Nat.le_refl _, h.lt hc (by rw [h93]; decide)⟩
      rename_i h93
      rw [if_neg h93]
      split at hr
      · rename_i hx
        rw [if_pos hx]
        cases hr
        exact ⟨rfl, Inside.err _⟩
      rename_i hx
      rw [if_neg hx]
      cases hv : valueAt f s p c with
      | none => rw [hv] at hr; simp [andThen] at hr
      | some x =>
        obtain ⟨a, b⟩ := ihv _ _ f' u _ hc (by omega) hv
        rw [hv] at hr
        rw [a]
        cases x with
        | error e =>
          simp only [andThen] at hr ⊢
          cases hr
          exact ⟨rfl, Inside.err _⟩
        | ok y =>
          obtain ⟨e, q⟩ := y
          obtain ⟨b1, b2⟩ := b e q rfl
          obtain ⟨d, _, _, hd⟩ := h.rd (show q < s.length by omega)
          have hd0 := hd []
          rw [List.append_nil] at hd0
          simp only [andThen, hd u, hd0, Option.bind_some] at hr ⊢
          obtain ⟨a, b⟩ := iha _ _ _ f' u r (by omega) (by omega) hr
          exact ⟨a, b.mono (by omega)⟩
    · intro p prev name kids f' u r hp hf hr
      obtain ⟨f', rfl⟩ : ∃ g, f' = g + 1 := ⟨f' - 1, by omega⟩
      obtain ⟨c, hc, hc0, hrd⟩ := h.rd hp
      have hrd0 := hrd []
      rw [List.append_nil] at hrd0
      rw [objLoop, hrd0] at hr
      rw [objLoop, hrd u]
      simp only [hc0, if_false] at hr ⊢
      split at hr
      · rename_i hw
        rw [if_pos hw]
        obtain ⟨a, b⟩ := iho _ _ _ _ f' u r (h.lt hc (by rintro rfl; revert hw; decide)) (by omega) hr
        exact ⟨a, b.mono (by omega)⟩
      rename_i hw
      rw [if_neg hw]
      split at hr
      · rename_i h58
        rw [if_pos h58]
        split at hr
        · rename_i hx
          rw [if_pos hx]
          cases hr
          exact ⟨rfl, Inside.err _⟩
        · rename_i hx
          rw [if_neg hx]
          obtain ⟨a, b⟩ := iho _ _ _ _ f' u r (h.lt hc (by rw [h58]; decide)) (by omega) hr
          exact ⟨a, b.mono (by omega)⟩
      rename_i h58
      rw [if_neg h58]
      split at hr
      · rename_i h44
        rw [if_pos h44]
        split at hr
        · rename_i hx
          rw [if_pos hx]
          cases hr
          exact ⟨rfl, Inside.err _⟩
        · rename_i hx
          rw [if_neg hx]
          obtain ⟨a, b⟩ := iho _ _ _ _ f' u r (h.lt hc (by rw [h44]; decide)) (by omega) hr
          exact ⟨a, b.mono (by omega)⟩
      rename_i h44
      rw [if_neg h44]
      split at hr
      · rename_i h125
        rw [if_pos h125]
        split at hr
        · rename_i hx
          rw [if_pos hx]
          cases hr
          exact ⟨rfl, Inside.err _⟩
        · rename_i hx
          rw [if_neg hx]
          cases hr
          refine ⟨rfl, ?_⟩
          intro e q hq; cases hq
          exact ⟨Nat.le_refl _, h.lt hc (by rw [h125]; decide)⟩
      rename_i h125
      rw [if_neg h125]
      cases name with
      | some key =>
        simp only at hr ⊢
        cases hv : valueAt f s p c with
        | none => rw [hv] at hr; simp [andThen] at hr
        | some x =>
          obtain ⟨a, b⟩ := ihv _ _ f' u _ hc (by omega) hv
          rw [hv] at hr
          rw [a]
          cases x with
          | error e =>
            simp only [andThen] at hr ⊢
            cases hr
            exact ⟨rfl, Inside.err _⟩
          | ok y =>
            obtain ⟨e, q⟩ := y
            obtain ⟨b1, b2⟩ := b e q rfl
            obtain ⟨d, _, _, hd⟩ := h.rd (show q < s.length by omega)
            have hd0 := hd []
            rw [List.append_nil] at hd0
            simp only [andThen, hd u, hd0, Option.bind_some] at hr ⊢
            obtain ⟨a, b⟩ := iho _ _ _ _ f' u r (by omega) (by omega) hr
            exact ⟨a, b.mono (by omega)⟩
      | none =>
        simp only at hr ⊢
        split at hr
        · rename_i h34
          rw [if_pos h34]
          subst h34
          rcases h.string hc with ⟨v, q, a, b, e1, e2⟩ | ⟨e1, _⟩
          · obtain ⟨d, _, _, hd⟩ := h.rd (show q < s.length by omega)
            have hd0 := hd []
            rw [List.append_nil] at hd0
            rw [e1] at hr
            rw [e2]
            simp only [andThen, hd u, hd0, Option.bind_some] at hr ⊢
            obtain ⟨a, b⟩ := iho _ _ _ _ f' u r (by omega) (by omega) hr
            exact ⟨a, b.mono (by omega)⟩
          · rw [e1] at hr
            simp [andThen] at hr
        rename_i h34
        rw [if_neg h34]
        split at hr
        · rename_i hx
          rw [if_pos hx]
          cases hr
          exact ⟨rfl, Inside.err _⟩
        rename_i hx
        rw [if_neg hx]
        split at hr
        · rename_i hx
          rw [if_pos hx]
          cases hr
          exact ⟨rfl, Inside.err _⟩
        rename_i hx
        rw [if_neg hx]
        obtain ⟨o, a, b⟩ := h.unquoted hc
        have a0 := a []
        rw [List.append_nil] at a0
        rw [a0] at hr
        rw [a u]
        cases o with
        | none =>
          simp only at hr ⊢
          cases hr
          exact ⟨rfl, Inside.err _⟩
        | some colon =>
          obtain ⟨b1, b2, b3⟩ := b colon rfl
          simp only at hr ⊢
          rw [b3 u]
          obtain ⟨a, b⟩ := iho _ _ _ _ f' u r (by omega) (by omega) hr
          exact ⟨a, b.mono (by omega)⟩

theorem rd_at (x v : Bytes) (c : UInt8) : Json.rd (x ++ c :: v) x.length = some c := by simp [Json.rd]

theorem rd_any {x : Bytes} {q : Nat} (h : q < x.length) : ∃ d, ∀ v, Json.rd (x ++ v) q = some d := by
  refine ⟨x[q], fun v => ?_⟩
  rw [Json.rd, List.append_assoc, List.getElem?_append_left h]
  exact List.getElem?_eq_getElem h

theorem arr_close (x v : Bytes) (g : Nat) (prev : UInt8) (kids : List Elem) :
    arrLoop (g + 1) (x ++ 93 :: v) x.length prev kids = some (.ok (.cont none .array kids, x.length)) := by
  rw [arrLoop, rd_at]
  simp [isWs]

theorem obj_close (x v : Bytes) (g : Nat) (prev : UInt8) (kids : List Elem) :
    objLoop (g + 1) (x ++ 125 :: v) x.length prev none kids = some (.ok (.cont none .object kids, x.length)) := by
  rw [objLoop, rd_at]
  simp [isWs]

theorem key_close (x v : Bytes) (g : Nat) (key : Bytes) (kids : List Elem) :
    objLoop (g + 4) (x ++ 58 :: 49 :: 125 :: v) x.length 34 (some key) kids =
      some (.ok (.cont none .object (appendElement kids key (.prim none .integer [49])), x.length + 2)) := by
  have e1 : x ++ 58 :: 49 :: 125 :: v = (x ++ [58]) ++ 49 :: 125 :: v := by simp
  have e2 : x ++ 58 :: 49 :: 125 :: v = (x ++ [58, 49]) ++ 125 :: v := by simp
  have r1 : Json.rd (x ++ 58 :: 49 :: 125 :: v) (x.length + 1) = some 49 := by
    rw [e1, show x.length + 1 = (x ++ [58]).length by simp]; exact rd_at _ _ _
  have hd : (x ++ 58 :: 49 :: 125 :: v).drop (x.length + 1) = 49 :: 125 :: v := by
    rw [e1, show x.length + 1 = (x ++ [58]).length by simp, List.drop_left]
  have hv : ∀ g, valueAt (g + 1) (x ++ 58 :: 49 :: 125 :: v) (x.length + 1) 49 = some (.ok (.prim none .integer [49], x.length + 1)) := by
    intro g
    rw [valueAt]
    simp only [show ¬ ((49 : UInt8) = 34) by decide, show ¬ ((49 : UInt8) = 91) by decide, show ¬ ((49 : UInt8) = 123) by decide, if_false]
    rw [scalarAt, if_pos (by decide), hd]
    rw [numLoop, if_neg (by decide), show numStep {} 49 = .ok { prev := 49, text := [49] } by rfl]
    simp only
    rw [numLoop, if_pos (by decide), numEnd, if_neg (by decide)]
    simp
  rw [objLoop, rd_at]
  simp only [show ¬ ((58 : UInt8) = 0) by decide, show isWs 58 = false by decide, Bool.false_eq_true, if_false, if_true]
  rw [if_neg (by simp), objLoop, r1]
  simp only [show ¬ ((49 : UInt8) = 0) by decide, show isWs 49 = false by decide, show ¬ ((49 : UInt8) = 58) by decide, show ¬ ((49 : UInt8) = 44) by decide,
    show ¬ ((49 : UInt8) = 125) by decide, Bool.false_eq_true, if_false]
  rw [hv]
  simp only [andThen, r1, Option.bind_some]
  rw [e2, show x.length + 1 + 1 = (x ++ [58, 49]).length by simp, obj_close]

/-- There is a way to go on with the text after which the parser has ended with the last character added, whatever comes then. -/
def Finishes (s : Bytes) (f : Nat) (X : Nat → Bytes → P Elem) : Prop :=
  ∃ u e, u ≠ [] ∧ 0 ∉ u ∧ ∀ v f', f + 8 ≤ f' → X f' (s ++ u ++ v) = some (.ok (e, s.length + u.length - 1))

theorem Finishes.step {s : Bytes} {f : Nat} {X Y : Nat → Bytes → P Elem} (hX : Finishes s f X)
    (hY : ∀ v f', f + 8 ≤ f' → Y (f' + 1) (s ++ v) = X f' (s ++ v)) : Finishes s (f + 1) Y := by
  obtain ⟨u, e, h1, h2, h3⟩ := hX
  refine ⟨u, e, h1, h2, fun v f' hf => ?_⟩
  obtain ⟨f', rfl⟩ : ∃ g, f' = g + 1 := ⟨f' - 1, by omega⟩
  rw [List.append_assoc, hY _ _ (by omega), ← List.append_assoc]
  exact h3 v f' (by omega)

/-- Where the parser leaves the text, it is in the middle of a document that can be completed. -/
theorem Odd.finish (h : Odd s t k) : ∀ f,
    (∀ p c, s[p]? = some c → 2 * (s.length - p) ≤ f → valueAt f s p c = none → Finishes s f fun f' x => valueAt f' x p c) ∧
    (∀ p prev kids, p < s.length → 2 * (s.length - p) + 1 ≤ f → arrLoop f s p prev kids = none → Finishes s f fun f' x => arrLoop f' x p prev kids) ∧
    (∀ p prev name kids, p < s.length → 2 * (s.length - p) + 1 ≤ f → objLoop f s p prev name kids = none →
      Finishes s f fun f' x => objLoop f' x p prev name kids) := by
  intro f
  induction f with
  | zero =>
    refine ⟨?_, ?_, ?_⟩
    · intro p c hc hf
      have := (List.getElem?_eq_some_iff.1 hc).1
      omega
    · intros; omega
    · intros; omega
  | succ f ih =>
    obtain ⟨ihv, iha, iho⟩ := ih
    refine ⟨?_, ?_, ?_⟩
    · intro p c hc hf hr
      rw [valueAt] at hr
      split at hr
      · rename_i h34
        subst h34
        rcases h.string hc with ⟨v, q, a, b, e1, e2⟩ | ⟨e1, v, e2⟩
        · rw [stringValueAt, e1] at hr
          simp [andThen] at hr
        · refine ⟨[110, 34], stringCreate (decode v), by simp, by simp, fun w f' hf' => ?_⟩
          obtain ⟨f', rfl⟩ : ∃ g, f' = g + 1 := ⟨f' - 1, by omega⟩
          simp only
          rw [valueAt, if_pos rfl, stringValueAt, List.append_assoc]
          simp only [List.cons_append, List.nil_append]
          rw [e2 w]
          simp [andThen]
      rename_i h34
      split at hr
      · rename_i h91
        subst h91
        have hlt := h.lt hc (by decide)
        exact (iha _ _ _ hlt (by omega) hr).step fun v f' _ => by rw [valueAt]; rfl
      rename_i h91
      split at hr
      · rename_i h123
        subst h123
        have hlt := h.lt hc (by decide)
        exact (iho _ _ _ _ hlt (by omega) hr).step fun v f' _ => by rw [valueAt]; rfl
      rename_i h123
      obtain ⟨r', a, b⟩ := h.scalar hc
      have := a []
      rw [List.append_nil, hr] at this
      cases this
    · intro p prev kids hp hf hr
      obtain ⟨c, hc, hc0, hrd⟩ := h.rd hp
      have hrd0 := hrd []
      rw [List.append_nil] at hrd0
      rw [arrLoop, hrd0] at hr
      simp only [hc0, if_false] at hr
      split at hr
      · rename_i hw
        have hlt := h.lt hc (by rintro rfl; revert hw; decide)
        exact (iha _ _ _ hlt (by omega) hr).step fun v f' _ => by
          rw [arrLoop, hrd]; simp only [hc0, hw, if_true, if_false]
      rename_i hw
      split at hr
      · rename_i h44
        split at hr
        · cases hr
        · rename_i hx
          have hlt := h.lt hc (by rw [h44]; decide)
          exact (iha _ _ _ hlt (by omega) hr).step fun v f' _ => by
            rw [arrLoop, hrd]; simp only [hc0, if_false]; rw [if_neg hw, if_pos h44, if_neg hx]
      rename_i h44
      split at hr
      · cases hr
      rename_i h93
      split at hr
      · cases hr
      rename_i hx
      cases hv : valueAt f s p c with
      | none =>
        obtain ⟨u, e, h1, h2, h3⟩ := ihv _ _ hc (by omega) hv
        simp only at h3
        have hul : 0 < u.length := List.length_pos_iff.2 h1
        refine ⟨u ++ [93], .cont none .array (kids ++ [e]), by simp, by simp [h2], fun v f' hf' => ?_⟩
        obtain ⟨f', rfl⟩ : ∃ g, f' = g + 1 := ⟨f' - 1, by omega⟩
        simp only
        rw [arrLoop, List.append_assoc s, hrd]
        simp only [hc0, if_false]
        rw [if_neg hw, if_neg h44, if_neg h93, if_neg hx]
        have e1 : s ++ (u ++ [93] ++ v) = s ++ u ++ 93 :: v := by simp
        rw [e1, h3 _ _ (by omega)]
        obtain ⟨d, hd⟩ := rd_any (x := s ++ u) (q := s.length + u.length - 1) (by simp; omega)
        obtain ⟨f', rfl⟩ : ∃ g, f' = g + 1 := ⟨f' - 1, by omega⟩
        simp only [andThen, hd, Option.bind_some]
        rw [show s.length + u.length - 1 + 1 = (s ++ u).length by simp; omega, arr_close]
        simp
      | some x =>
        rw [hv] at hr
        cases x with
        | error e => simp [andThen] at hr
        | ok y =>
          obtain ⟨e, q⟩ := y
          obtain ⟨b1, b2⟩ := ((h.same f).1 _ _ f [] _ hc (Nat.le_refl _) hv).2 e q rfl
          obtain ⟨d, _, _, hd⟩ := h.rd (show q < s.length by omega)
          have hd0 := hd []
          rw [List.append_nil] at hd0
          simp only [andThen, hd0, Option.bind_some] at hr
          refine (iha _ _ _ (by omega) (by omega) hr).step fun v f' hf' => ?_
          rw [arrLoop, hrd]
          simp only [hc0, if_false]
          rw [if_neg hw, if_neg h44, if_neg h93, if_neg hx, ((h.same f).1 _ _ f' v _ hc (by omega) hv).1]
          simp only [andThen, hd, Option.bind_some]
    · intro p prev name kids hp hf hr
      obtain ⟨c, hc, hc0, hrd⟩ := h.rd hp
      have hrd0 := hrd []
      rw [List.append_nil] at hrd0
      rw [objLoop, hrd0] at hr
      simp only [hc0, if_false] at hr
      split at hr
      · rename_i hw
        have hlt := h.lt hc (by rintro rfl; revert hw; decide)
        exact (iho _ _ _ _ hlt (by omega) hr).step fun v f' _ => by
          rw [objLoop, hrd]; simp only [hc0, hw, if_true, if_false]
      rename_i hw
      split at hr
      · rename_i h58
        split at hr
        · cases hr
        · rename_i hx
          have hlt := h.lt hc (by rw [h58]; decide)
          exact (iho _ _ _ _ hlt (by omega) hr).step fun v f' _ => by
            rw [objLoop, hrd]; simp only [hc0, if_false]; rw [if_neg hw, if_pos h58, if_neg hx]
      rename_i h58
      split at hr
      · rename_i h44
        split at hr
        · cases hr
        · rename_i hx
          have hlt := h.lt hc (by rw [h44]; decide)
          exact (iho _ _ _ _ hlt (by omega) hr).step fun v f' _ => by
            rw [objLoop, hrd]; simp only [hc0, if_false]; rw [if_neg hw, if_neg h58, if_pos h44, if_neg hx]
      rename_i h44
      split at hr
      · split at hr <;> cases hr
      rename_i h125
      cases name with
      | some key =>
        simp only at hr
        cases hv : valueAt f s p c with
        | none =>
          obtain ⟨u, e, h1, h2, h3⟩ := ihv _ _ hc (by omega) hv
          simp only at h3
          have hul : 0 < u.length := List.length_pos_iff.2 h1
          refine ⟨u ++ [125], .cont none .object (appendElement kids key e), by simp, by simp [h2], fun v f' hf' => ?_⟩
          obtain ⟨f', rfl⟩ : ∃ g, f' = g + 1 := ⟨f' - 1, by omega⟩
          simp only
          rw [objLoop, List.append_assoc s, hrd]
          simp only [hc0, if_false]
          rw [if_neg hw, if_neg h58, if_neg h44, if_neg h125]
          have e1 : s ++ (u ++ [125] ++ v) = s ++ u ++ 125 :: v := by simp
          rw [e1, h3 _ _ (by omega)]
          obtain ⟨d, hd⟩ := rd_any (x := s ++ u) (q := s.length + u.length - 1) (by simp; omega)
          obtain ⟨f', rfl⟩ : ∃ g, f' = g + 1 := ⟨f' - 1, by omega⟩
          simp only [andThen, hd, Option.bind_some]
          rw [show s.length + u.length - 1 + 1 = (s ++ u).length by simp; omega, obj_close]
          simp
        | some x =>
          rw [hv] at hr
          cases x with
          | error e => simp [andThen] at hr
          | ok y =>
            obtain ⟨e, q⟩ := y
            obtain ⟨b1, b2⟩ := ((h.same f).1 _ _ f [] _ hc (Nat.le_refl _) hv).2 e q rfl
            obtain ⟨d, _, _, hd⟩ := h.rd (show q < s.length by omega)
            have hd0 := hd []
            rw [List.append_nil] at hd0
            simp only [andThen, hd0, Option.bind_some] at hr
            refine (iho _ _ _ _ (by omega) (by omega) hr).step fun v f' hf' => ?_
            rw [objLoop, hrd]
            simp only [hc0, if_false]
            rw [if_neg hw, if_neg h58, if_neg h44, if_neg h125, ((h.same f).1 _ _ f' v _ hc (by omega) hv).1]
            simp only [andThen, hd, Option.bind_some]
      | none =>
        simp only at hr
        split at hr
        · rename_i h34
          subst h34
          rcases h.string hc with ⟨v, q, a, b, e1, e2⟩ | ⟨e1, key, e2⟩
          · obtain ⟨d, _, _, hd⟩ := h.rd (show q < s.length by omega)
            have hd0 := hd []
            rw [List.append_nil] at hd0
            rw [e1] at hr
            simp only [andThen, hd0, Option.bind_some] at hr
            refine (iho _ _ _ _ (by omega) (by omega) hr).step fun v f' hf' => ?_
            rw [objLoop, hrd]
            simp only [hc0, if_false]
            rw [if_neg hw, if_neg h58, if_neg h44, if_neg h125]
            simp only [if_true, e2, andThen, hd, Option.bind_some]
          · refine ⟨[110, 34, 58, 49, 125], .cont none .object (appendElement kids key (.prim none .integer [49])), by simp, by simp, fun v f' hf' => ?_⟩
            obtain ⟨f', rfl⟩ : ∃ g, f' = g + 4 + 1 := ⟨f' - 5, by omega⟩
            simp only
            rw [objLoop, List.append_assoc s, hrd]
            simp only [hc0, if_false]
            rw [if_neg hw, if_neg h58, if_neg h44, if_neg h125]
            have e3 : s ++ ([110, 34, 58, 49, 125] ++ v) = s ++ [110, 34] ++ 58 :: 49 :: 125 :: v := by simp
            have e4 : s ++ ([110, 34, 58, 49, 125] ++ v) = s ++ [110] ++ 34 :: 58 :: 49 :: 125 :: v := by simp
            have r1 : Json.rd (s ++ ([110, 34, 58, 49, 125] ++ v)) (s.length + 1) = some 34 := by
              rw [e4, show s.length + 1 = (s ++ [110]).length by simp]; exact rd_at _ _ _
            have hk : stringAt (s ++ ([110, 34, 58, 49, 125] ++ v)) p = some (.ok (key, s.length + 1)) := e2 _
            simp only [if_true, hk, andThen, r1, Option.bind_some]
            rw [e3, show s.length + 1 + 1 = (s ++ [110, 34]).length by simp, key_close]
            simp
        rename_i h34
        split at hr
        · cases hr
        rename_i h91
        split at hr
        · cases hr
        rename_i h123
        obtain ⟨o, a, b⟩ := h.unquoted hc
        have a0 := a []
        rw [List.append_nil] at a0
        rw [a0] at hr
        cases o with
        | none => cases hr
        | some colon =>
          obtain ⟨b1, b2, b3⟩ := b colon rfl
          simp only at hr
          refine (iho _ _ _ _ (by omega) (by omega) hr).step fun v f' hf' => ?_
          rw [objLoop, hrd]
          simp only [hc0, if_false]
          rw [if_neg hw, if_neg h58, if_neg h44, if_neg h125]
          rw [if_neg h34, if_neg h91, if_neg h123, a v]
          simp only
          rw [b3 v]

theorem Odd.parse (h : Odd s t k) : ∀ (rest : Bytes) (p : Nat), p + rest.length = s.length → rest = s.drop p → rest ≠ [] →
    (∀ u r, parseLoop s rest p = some r → parseLoop (s ++ u) (rest ++ u) p = some r ∧ Inside s p r) ∧
    (parseLoop s rest p = none → ∃ u, 0 ∉ u ∧ ∃ e q, parseLoop (s ++ u) (rest ++ u) p = some (.ok (e, q)) ∧ s.length ≤ q) := by
  intro rest
  induction rest with
  | nil => intro p _ _ hn; exact absurd rfl hn
  | cons c rest ih =>
    intro p hp hd _
    simp only [List.length_cons] at hp
    have hc : s[p]? = some c := by
      have := congrArg (·[0]?) hd
      simpa using this.symm
    have hval : (∀ u r, valueAt (2 * s.length + 1) s p c = some r → valueAt (2 * (s ++ u).length + 1) (s ++ u) p c = some r ∧ Inside s p r) ∧
        (valueAt (2 * s.length + 1) s p c = none → ∃ u, 0 ∉ u ∧ ∃ e q, valueAt (2 * (s ++ u).length + 1) (s ++ u) p c = some (.ok (e, q)) ∧ s.length ≤ q) := by
      constructor
      · intro u r hr
        exact (h.same _).1 _ _ _ u r hc (by simp; omega) hr
      · intro hr
        obtain ⟨u, e, h1, h2, h3⟩ := (h.finish _).1 _ _ hc (by omega) hr
        have hul : 0 < u.length := List.length_pos_iff.2 h1
        refine ⟨u ++ [32, 32, 32, 32], by simp [h2], e, s.length + u.length - 1, ?_, by omega⟩
        rw [← List.append_assoc]
        exact h3 _ _ (by simp; omega)
    simp only [parseLoop, List.cons_append]
    split
    · exact hval
    split
    · rename_i hw
      have hlt := h.lt hc (by rintro rfl; revert hw; decide)
      obtain ⟨a, b⟩ := ih (p + 1) (by omega) (by
        rw [List.drop_eq_getElem_cons (by omega)] at hd
        exact (List.cons.inj hd).2) (by rintro rfl; simp at hp; omega)
      refine ⟨fun u r hr => ?_, b⟩
      obtain ⟨x, y⟩ := a u r hr
      exact ⟨x, y.mono (by omega)⟩
    · exact hval
end Json.End

open Json in
/-- C25, which texts take the parser past the end. For every text that ends in an odd number of backslashes: `JsonParse` leaves the text if and only if
the text is the beginning of a text of which the parser accepts a part that reaches beyond it (such as `[1, "a\` and `{"\`); for all other texts with
an odd number of backslashes at the end it stops with an error or a value before them, the same as in every longer text. -/
theorem C25_leaves_the_text_exactly (s t : Bytes) (k : Nat) (h0 : 0 ∉ s) (hs : s = t ++ List.replicate (2 * k + 1) 92) (ht : t.getLast? ≠ some 92) :
    (Json.parse s = none ↔ ∃ u, 0 ∉ u ∧ ∃ e q, Json.parse (s ++ u) = some (.ok (e, q)) ∧ s.length ≤ q) ∧
    ∀ r, Json.parse s = some r → (∀ u, Json.parse (s ++ u) = some r) ∧ ∀ e q, r = .ok (e, q) → q + 1 < s.length := by
  have h : Json.End.Odd s t k := ⟨hs, ht, h0⟩
  have hne : s ≠ [] := by rw [hs]; simp
  obtain ⟨a, b⟩ := h.parse s 0 (by simp) rfl hne
  refine ⟨⟨b, ?_⟩, fun r hr => ⟨fun u => (a u r hr).1, fun e q he => ((a [] r hr).2 e q he).2⟩⟩
  rintro ⟨u, _, e, q, hu, hq⟩
  cases hp : Json.parse s with
  | none => rfl
  | some r =>
    obtain ⟨x, y⟩ := a u r hp
    have : parseLoop (s ++ u) (s ++ u) 0 = some (.ok (e, q)) := hu
    rw [x] at this
    cases this
    have := y e q rfl
    omega

example : Json.parse [91, 34, 92] = none ∧ Json.parse ([91, 34, 92] ++ [110, 34, 93]) = some (.ok (.cont none .array [.prim none .string [10]], 5)) ∧
    Json.parse [91, 92] = some (.error .badSymbol) := by
  refine ⟨rfl, rfl, rfl⟩

namespace Json.End
open Json
theorem run_even : ∀ (k p : Nat) (acc : Bytes), strLoop (List.replicate (2 * k) 92) p acc = some (.error .strEnd) := by
  intro k
  induction k with
  | zero => intro p acc; rfl
  | succ k ih =>
    intro p acc
    rw [show 2 * (k + 1) = 2 * k + 1 + 1 by omega, List.replicate_succ, List.replicate_succ, str_esc]
    exact ih _ _

theorem str_even (k : Nat) : ∀ (n : Nat) (t : Bytes), t.length ≤ n → t.getLast? ≠ some 92 → 0 ∉ t → ∀ (p : Nat) (acc : Bytes), 0 ∉ acc →
    ∃ r, strLoop (t ++ List.replicate (2 * k) 92) p acc = some r ∧ ∀ v q, r = .ok (v, q) → p ≤ q ∧ q < p + t.length ∧ 0 ∉ v := by
  intro n
  induction n with
  | zero =>
    intro t ht _ _ p acc _
    obtain rfl : t = [] := List.length_eq_zero_iff.1 (by omega)
    exact ⟨_, run_even k p acc, by intro v q h; cases h⟩
  | succ n ih =>
    intro t ht hl h0 p acc ha
    match t, ht, hl, h0 with
    | [], _, _, _ => exact ⟨_, run_even k p acc, by intro v q h; cases h⟩
    | c :: t, ht, hl, h0 =>
      simp only [List.mem_cons, not_or] at h0
      simp only [List.length_cons] at ht
      by_cases h34 : c = 34
      · subst h34
        exact ⟨_, str_quote _ _ _, by intro v q h; cases h; exact ⟨Nat.le_refl _, by simp, ha⟩⟩
      by_cases h92 : c = 92
      · subst h92
        match t, ht, hl, h0 with
        | [], _, hl, _ => simp at hl
        | d :: t, ht, hl, h0 =>
          have hl' : t.getLast? ≠ some 92 := by
            cases t with
            | nil => simp
            | cons x t => simpa [List.getLast?_cons_cons] using hl
          simp only [List.mem_cons, not_or] at h0
          simp only [List.length_cons] at ht
          obtain ⟨r, e, b⟩ := ih t (by omega) hl' h0.2.2 (p + 2) (acc ++ unescape d)
            (by simp only [List.mem_append, not_or]; exact ⟨ha, unescape_ne (fun h => h0.2.1 h.symm)⟩)
          refine ⟨r, by rw [List.cons_append, List.cons_append, str_esc]; exact e, fun v q hr => ?_⟩
          obtain ⟨x, y, z⟩ := b v q hr
          exact ⟨by omega, by simp only [List.length_cons]; omega, z⟩
      · have hl' : t.getLast? ≠ some 92 := by
          cases t with
          | nil => simp
          | cons x t => simpa [List.getLast?_cons_cons] using hl
        obtain ⟨r, e, b⟩ := ih t (by omega) hl' h0.2 (p + 1) (acc ++ [c]) (by simp [ha, h0.1])
        refine ⟨r, by rw [List.cons_append, str_plain h34 h92]; exact e, fun v q hr => ?_⟩
        obtain ⟨x, y, z⟩ := b v q hr
        exact ⟨by omega, by simp only [List.length_cons]; omega, z⟩

theorem strTotal_even {t : Bytes} {k : Nat} (h0 : 0 ∉ t) (ht : t.getLast? ≠ some 92) : StrTotal (t ++ List.replicate (2 * k) 92) := by
  intro p hp
  have hpt : p < t.length := by
    refine Classical.byContradiction fun hn => ?_
    rw [List.getElem?_append_right (by omega)] at hp
    obtain ⟨hb, hv⟩ := List.getElem?_eq_some_iff.1 hp
    rw [List.getElem_replicate] at hv
    exact absurd hv (by decide)
  have hl : (t.drop (p + 1)).getLast? ≠ some 92 := by
    rw [List.getLast?_drop]
    split
    · simp
    · exact ht
  obtain ⟨r, e, b⟩ := str_even k _ (t.drop (p + 1)) (Nat.le_refl _) hl (mem_drop_zero h0 _) (p + 1) [] (by simp)
  refine ⟨r, by rw [stringAt, List.drop_append_of_le_length (by omega)]; exact e, fun v q hr => ?_⟩
  obtain ⟨x, y, z⟩ := b v q hr
  simp only [List.length_drop] at y
  exact ⟨by omega, by simp only [List.length_append]; omega, z⟩
end Json.End

open Json JsonSpec in
/-- C25 for the texts that end in an even number of backslashes (none included): `JsonParse` terminates without leaving the text, with an error or an
element and a position inside it; the element is valid. With `C25_leaves_the_text_exactly` every text is settled. -/
theorem C25_parse_total_even (t : Bytes) (k : Nat) (h0 : 0 ∉ t) (ht : t.getLast? ≠ some 92) :
    (∃ err, Json.parse (t ++ List.replicate (2 * k) 92) = some (.error err)) ∨
    ∃ e q, Json.parse (t ++ List.replicate (2 * k) 92) = some (.ok (e, q)) ∧ q < (t ++ List.replicate (2 * k) 92).length ∧
      Valid (fun v => 0 ∉ v) (fun v => 0 ∉ v) (fun v => 0 ∉ v) (fun v => 0 ∉ v) e := by
  have h0' : 0 ∉ t ++ List.replicate (2 * k) (92 : UInt8) := by
    simp only [List.mem_append, not_or, List.mem_replicate]
    exact ⟨h0, fun h => absurd h.2 (by decide)⟩
  obtain ⟨r, h1, h2⟩ := parseLoop_total h0' (Json.End.strTotal_even h0 ht) (t ++ List.replicate (2 * k) 92) 0 (by omega) rfl
  match r, h1, h2 with
  | .error e, h1, _ => exact Or.inl ⟨e, h1⟩
  | .ok (e, q), h1, h2 => exact Or.inr ⟨e, q, h1, (h2 e q rfl).2⟩

example : Json.parse ([91, 34, 97] ++ List.replicate (2 * 1) 92) = some (.error .strEnd) ∧
    Json.parse ([91, 49, 93] ++ List.replicate (2 * 1) 92) = some (.ok (.cont none .array [.prim none .integer [49]], 2)) := by
  refine ⟨rfl, rfl⟩

/-- Every text ends in an odd or an even number of backslashes. -/
theorem C25_backslashes_counted (s : List UInt8) : ∃ t k, t.getLast? ≠ some 92 ∧ (s = t ++ List.replicate (2 * k + 1) 92 ∨ s = t ++ List.replicate (2 * k) 92) := by
  have h : ∀ n (s : List UInt8), s.length ≤ n → ∃ t j, t.getLast? ≠ some 92 ∧ s = t ++ List.replicate j 92 := by
    intro n
    induction n with
    | zero =>
      intro s hs
      obtain rfl : s = [] := List.length_eq_zero_iff.1 (by omega)
      exact ⟨[], 0, by simp, by simp⟩
    | succ n ih =>
      intro s hs
      by_cases hl : s.getLast? = some 92
      · obtain ⟨s', rfl⟩ := List.getLast?_eq_some_iff.1 hl
        obtain ⟨t, j, h1, h2⟩ := ih s' (by simp at hs; omega)
        exact ⟨t, j + 1, h1, by rw [h2, List.append_assoc, List.replicate_succ']⟩
      · exact ⟨s, 0, hl, by simp⟩
  obtain ⟨t, j, h1, h2⟩ := h _ s (Nat.le_refl _)
  refine ⟨t, j / 2, h1, ?_⟩
  rcases Nat.mod_two_eq_zero_or_one j with hm | hm
  · exact Or.inr (by rw [h2, show 2 * (j / 2) = j by omega])
  · exact Or.inl (by rw [h2, show 2 * (j / 2) + 1 = j by omega])
