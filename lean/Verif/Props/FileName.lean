import Verif.Model.FileName
import Verif.Props.Path
/-!
# C153: functions on file names (libutils/file_lib.c)
-/
open FileNameSpec StrSpec

namespace FileName

theorem skipQuotes_ok (f : List UInt8) : ∀ (r pre : List UInt8) (fuel : Nat), f = pre ++ r → r.length < fuel →
    skipQuotes f pre.length fuel = some (f.length - (r.dropWhile (· == 34)).length) := by
  intro r
  induction r with
  | nil =>
    intro pre fuel hf hl
    obtain ⟨k, rfl⟩ : ∃ k, fuel = k + 1 := ⟨fuel - 1, by simp at hl; omega⟩
    simp [skipQuotes, at_, hf]
  | cons c r ih =>
    intro pre fuel hf hl
    obtain ⟨k, rfl⟩ : ∃ k, fuel = k + 1 := ⟨fuel - 1, by simp at hl; omega⟩
    have hat : at_ f pre.length = some c := by simp [at_, hf]
    simp only [skipQuotes, hat, Option.bind_eq_bind, Option.bind_some]
    by_cases hc : c = 34
    · rw [if_pos hc]
      have := ih (pre ++ [c]) k (by simp [hf]) (by simp at hl; omega)
      simp only [List.length_append, List.length_cons, List.length_nil, Nat.zero_add] at this
      rw [this]
      simp [hc]
    · rw [if_neg hc]
      simp [hc, hf]

theorem at_off (f r : List UInt8) (h : ∃ pre, f = pre ++ r) (i : Nat) : at_ f (f.length - r.length + i) = (r ++ [0])[i]? := by
  obtain ⟨pre, rfl⟩ := h
  have : (pre ++ r).length - r.length + i = pre.length + i := by simp
  rw [at_, this, List.append_assoc, List.getElem?_append_right (by omega)]
  congr 1; omega

theorem drop_suffix (f : List UInt8) : ∃ pre, f = pre ++ unquoted f :=
  ⟨f.takeWhile (· == 34), (List.takeWhile_append_dropWhile).symm⟩

end FileName

/-- **C153** `IsAbsoluteFileName` on Unix: a slash first, quotation marks left out of account. -/
theorem C153_absolute (f : List UInt8) : ∃ b, FileName.isAbsolute f = some b ∧ (b = true ↔ absolute (unquoted f)) := by
  unfold FileName.isAbsolute
  rw [show (0 : Nat) = ([] : List UInt8).length from rfl, FileName.skipQuotes_ok f f [] _ (by simp) (by omega)]
  have h := FileName.at_off f _ (FileName.drop_suffix f) 0
  simp only [Nat.add_zero, unquoted] at h
  simp only [Option.bind_eq_bind, Option.bind_some, h]
  unfold absolute unquoted
  cases f.dropWhile (· == 34) with
  | nil => exact ⟨_, rfl, by simp⟩
  | cons c r => exact ⟨_, rfl, by simp⟩

example : FileName.isAbsolute [34, 47, 97] = some true ∧ FileName.isAbsolute [97, 47] = some false := by decide

/-- **C153** `IsAbsoluteFileName` on Windows, for names that do not begin with a character above 127. -/
theorem C153_absolute_windows (f : List UInt8) (hc : ∀ c r, unquoted f = c :: r → c.toNat < 128) :
    ∃ b, FileName.isAbsoluteWin f = some b ∧ (b = true ↔ winAbsolute (unquoted f)) := by
  unfold FileName.isAbsoluteWin
  rw [show (0 : Nat) = ([] : List UInt8).length from rfl, FileName.skipQuotes_ok f f [] _ (by simp) (by omega)]
  have h := FileName.at_off f _ (FileName.drop_suffix f)
  have h0 := h 0
  have h1 := h 1
  have h2 := h 2
  simp only [Nat.add_zero, unquoted] at h0 h1 h2
  simp only [Option.bind_eq_bind, Option.bind_some, h0, h1, h2]
  unfold winAbsolute
  unfold unquoted at hc ⊢
  have hsep : ∀ c, FileName.winSep c = true ↔ winSep c := by
    intro c; simp [FileName.winSep, winSep, or_comm]
  have hal : ∀ c : UInt8, c.toNat < 128 → ∃ b, FileName.isalpha c = some b ∧ (b = true ↔ letter c) := by
    intro c hc
    refine ⟨_, if_neg (by rw [UInt8.le_iff_toNat_le]; have : (128 : UInt8).toNat = 128 := rfl; omega), ?_⟩
    simp only [Bool.or_eq_true, Bool.and_eq_true, decide_eq_true_eq, UInt8.le_iff_toNat_le, letter]
    exact Iff.rfl
  generalize f.dropWhile (· == 34) = g at hc
  cases g with
  | nil =>
    refine ⟨false, by decide, by simp⟩
  | cons c r =>
    have hc' := hc c r rfl
    obtain ⟨b, hb, hbl⟩ := hal c hc'
    simp only [List.cons_append, List.getElem?_cons_zero, List.getElem?_cons_succ, Option.bind_some, hb]
    by_cases hs : FileName.winSep c = true
    · have hnl : b = false := by
        cases b with
        | false => rfl
        | true =>
          have := hbl.1 rfl
          rcases (hsep c).1 hs with rfl | rfl <;> (revert this; unfold letter; decide)
      have hw : (∃ c' r', winSep c' ∧ c :: r = c' :: r') := ⟨c, r, (hsep c).1 hs, rfl⟩
      rw [if_pos hs]
      cases r with
      | nil => exact ⟨true, by subst hnl; simp [hs, show FileName.winSep 0 = false from rfl], iff_of_true rfl (.inl hw)⟩
      | cons d r =>
        simp only [List.cons_append, List.getElem?_cons_zero, Option.map_some, Option.bind_some]
        by_cases hd : FileName.winSep d = true
        · exact ⟨true, by simp [hd], iff_of_true rfl (.inl hw)⟩
        · exact ⟨true, by simp [hd, hnl, hs], iff_of_true rfl (.inl hw)⟩
    · have hs' : FileName.winSep c = false := by simpa using hs
      have hnw : ¬ ∃ c' r', winSep c' ∧ c :: r = c' :: r' := by
        rintro ⟨c', r', h, e⟩
        injection e with e _
        subst e
        exact hs ((hsep _).2 h)
      simp only [hs', Bool.false_eq_true, if_false, Option.bind_some]
      cases b with
      | false =>
        refine ⟨false, by simp, ?_⟩
        simp only [Bool.false_eq_true, false_iff, not_or]
        refine ⟨hnw, ?_⟩
        rintro ⟨d, x, y, hl, _, e⟩
        injection e with e _
        subst e
        exact absurd (hbl.2 hl) (by simp)
      | true =>
        simp only [if_true]
        have hl : letter c := hbl.1 rfl
        have hiff : ∀ x : Bool, (x = true ↔ ∃ e q, winSep e ∧ r = 58 :: e :: q) → (x = true ↔
            (∃ c' r', winSep c' ∧ c :: r = c' :: r') ∨ ∃ d e q, letter d ∧ winSep e ∧ c :: r = d :: 58 :: e :: q) := by
          intro x hx
          rw [hx]
          constructor
          · rintro ⟨e, q, a, rfl⟩; exact .inr ⟨c, e, q, hl, a, rfl⟩
          · rintro (h | ⟨d, e, q, _, a, h⟩)
            · exact absurd h hnw
            · injection h with _ h; exact ⟨e, q, a, h⟩
        cases r with
        | nil => exact ⟨false, by simp, hiff _ (by simp)⟩
        | cons d r =>
          simp only [List.cons_append, List.getElem?_cons_zero, Option.bind_some]
          by_cases hd : d = 58
          · subst hd
            cases r with
            | nil => exact ⟨false, by simp [FileName.winSep], hiff _ (by simp)⟩
            | cons e q =>
              refine ⟨FileName.winSep e, ?_, hiff _ ?_⟩
              · cases he : FileName.winSep e <;> simp [he]
              · rw [hsep e]
                constructor
                · intro h; exact ⟨e, q, h, rfl⟩
                · rintro ⟨e', q', h, e1⟩
                  simp only [List.cons.injEq, true_and] at e1
                  rw [e1.1]; exact h
          · refine ⟨false, by simp [hd], hiff _ ?_⟩
            simp only [Bool.false_eq_true, false_iff]
            rintro ⟨e, q, _, e1⟩
            injection e1 with e1 _
            exact hd e1

example : FileName.isAbsoluteWin [34, 99, 58, 92] = some true ∧ FileName.isAbsoluteWin [99, 58, 97] = some false ∧
    FileName.isAbsoluteWin [92, 92, 115] = some true := by decide

/-! ## Slashes -/

namespace FileName

theorem strchr_ok (a : UInt8) (ha : a ≠ 0) : ∀ (s : List UInt8) (rest : List (Option UInt8)), 0 ∉ s →
    (a ∉ s ∧ strchr a (s.map some ++ some 0 :: rest) = some none) ∨
    ∃ pre post, s = pre ++ a :: post ∧ a ∉ pre ∧ strchr a (s.map some ++ some 0 :: rest) = some (some pre.length) := by
  intro s
  induction s with
  | nil => intro rest _; left; simp [strchr, ha.symm]
  | cons c s ih =>
    intro rest h0
    simp only [List.mem_cons, not_or] at h0
    by_cases hc : c = a
    · right; exact ⟨[], s, by simp [hc], by simp, by simp [strchr, hc]⟩
    · have hc0 : c ≠ 0 := fun e => h0.1 e.symm
      have hca : ¬ a = c := fun e => hc e.symm
      rcases ih rest h0.2 with ⟨h1, h2⟩ | ⟨pre, post, h1, h2, h3⟩
      · left
        exact ⟨by simp [h1, hca], by simp [strchr, hc, hc0, h2]⟩
      · right
        exact ⟨c :: pre, post, by simp [h1], by simp [h2, hca], by simp [strchr, hc, hc0, h3]⟩

theorem swapped_free {a b : UInt8} {s : List UInt8} (h : a ∉ s) : swapped a b s = s := by
  unfold swapped
  refine (List.map_congr_left ?_).trans (List.map_id s)
  intro c hc
  have : c ≠ a := fun e => h (e ▸ hc)
  simp [this]

theorem mapLoop_ok (a b : UInt8) (ha : a ≠ 0) (hb : b ≠ 0) (hab : a ≠ b) : ∀ (n : Nat) (pre s : List UInt8) (rest : List (Option UInt8)) (fuel : Nat),
    s.length ≤ n → 0 ∉ s → s.count a < fuel →
    mapLoop a b (pre.map some ++ (s.map some ++ some 0 :: rest)) pre.length fuel =
      some (pre.map some ++ ((swapped a b s).map some ++ some 0 :: rest)) := by
  intro n
  induction n with
  | zero =>
    intro pre s rest fuel hn h0 hf
    have : s = [] := List.length_eq_zero_iff.1 (by omega)
    subst this
    obtain ⟨k, rfl⟩ : ∃ k, fuel = k + 1 := ⟨fuel - 1, by omega⟩
    simp [mapLoop, strchr, ha.symm, swapped]
  | succ n ih =>
    intro pre s rest fuel hn h0 hf
    obtain ⟨k, rfl⟩ : ∃ k, fuel = k + 1 := ⟨fuel - 1, by omega⟩
    have hd : (pre.map some ++ (s.map some ++ some 0 :: rest)).drop pre.length = s.map some ++ some 0 :: rest := by
      rw [List.drop_left' (by simp)]
    rw [mapLoop, hd]
    rcases strchr_ok a ha s rest h0 with ⟨h1, h2⟩ | ⟨p, q, rfl, h2, h3⟩
    · simp [h2, swapped_free h1]
    · simp only [h3, Option.bind_eq_bind, Option.bind_some]
      have hw : CMem.write (pre.map some ++ ((p ++ a :: q).map some ++ some 0 :: rest)) (pre.length + p.length) (some b) =
          some ((pre ++ p).map some ++ ((b :: q).map some ++ some 0 :: rest)) := by
        unfold CMem.write
        rw [if_pos (by simp)]
        congr 1
        rw [show pre.map some ++ ((p ++ a :: q).map some ++ some 0 :: rest) = (pre ++ p).map some ++ (some a :: (q.map some ++ some 0 :: rest)) by simp]
        rw [List.set_append_right _ _ (by simp)]
        simp
      rw [hw, Option.bind_some]
      have h0q : (0 : UInt8) ∉ b :: q := by
        simp only [List.mem_append, List.mem_cons, not_or] at h0 ⊢
        exact ⟨fun e => hb e.symm, h0.2.2⟩
      cases k with
      | zero => simp [List.count_append] at hf
      | succ k =>
      -- the next search starts at the character just written
      have hlen : pre.length + p.length = (pre ++ p).length := by simp
      rw [hlen]
      by_cases hq : a ∈ q
      · have hb' : swapped a b (p ++ a :: q) = p ++ b :: swapped a b q := by
          have := swapped_free (b := b) h2
          unfold swapped at this ⊢
          rw [List.map_append, this]; simp
        -- one more step of the induction, on the shorter tail when the prefix is not empty
        have hs : mapLoop a b ((pre ++ p).map some ++ ((b :: q).map some ++ some 0 :: rest)) (pre ++ p).length (k + 1) =
            mapLoop a b ((pre ++ p ++ [b]).map some ++ (q.map some ++ some 0 :: rest)) (pre ++ p ++ [b]).length (k + 1) := by
          rw [mapLoop, mapLoop]
          have e1 : ((pre ++ p).map some ++ ((b :: q).map some ++ some 0 :: rest)).drop (pre ++ p).length = some b :: (q.map some ++ some 0 :: rest) := by
            rw [List.drop_left' (by simp)]; simp
          have e2 : ((pre ++ p ++ [b]).map some ++ (q.map some ++ some 0 :: rest)).drop (pre ++ p ++ [b]).length = q.map some ++ some 0 :: rest := by
            rw [List.drop_left' (by simp)]
          have e3 : (pre ++ p).map some ++ ((b :: q).map some ++ some 0 :: rest) = (pre ++ p ++ [b]).map some ++ (q.map some ++ some 0 :: rest) := by simp
          rw [e1, e2, e3]
          simp only [strchr, if_neg (fun e : b = a => hab e.symm), if_neg hb]
          cases strchr a (q.map some ++ some 0 :: rest) with
          | none => rfl
          | some o =>
            cases o with
            | none => rfl
            | some j =>
              simp only [Option.map_some, Option.bind_eq_bind, Option.bind_some, List.length_append, List.length_cons, List.length_nil]
              rw [show pre.length + p.length + (j + 1) = pre.length + p.length + (0 + 1) + j by omega]
        rw [hs, ih (pre ++ p ++ [b]) q rest (k + 1) (by simp at hn; omega) (by simp at h0q; exact h0q.2) (by
          simp only [List.count_append, List.count_cons_self] at hf; omega), hb']
        simp
      · have hb' : swapped a b (p ++ a :: q) = p ++ b :: q := by
          have h1 := swapped_free (b := b) h2
          have h3 := swapped_free (b := b) hq
          unfold swapped at h1 h3 ⊢
          rw [List.map_append, h1, List.map_cons, h3]; simp
        have hfree : a ∉ b :: q := by simp [hab, hq]
        have e1 : ((pre ++ p).map some ++ ((b :: q).map some ++ some 0 :: rest)).drop (pre ++ p).length = (b :: q).map some ++ some 0 :: rest := by
          rw [List.drop_left' (by simp)]
        rw [mapLoop, e1]
        rcases strchr_ok a ha (b :: q) rest h0q with ⟨_, h5⟩ | ⟨p', q', e, _, _⟩
        · rw [h5, hb']; simp
        · exact absurd (by rw [e]; simp) hfree

end FileName

/-- **C153** `MapName` and `MapNameCopy` on Windows: every slash becomes a backslash and nothing else changes; what follows the string in memory is left alone, and `MapName` returns its argument. -/
theorem C153_map_windows (s : List UInt8) (h0 : 0 ∉ s) (rest : List (Option UInt8)) :
    FileName.mapNameWin (s.map some ++ some 0 :: rest) = some ((swapped 47 92 s).map some ++ some 0 :: rest, some 0) ∧
    FileName.mapNameCopyWin s = some ((swapped 47 92 s ++ [0]).map some) := by
  constructor
  · unfold FileName.mapNameWin
    have := FileName.mapLoop_ok 47 92 (by decide) (by decide) (by decide) s.length [] s rest ((s.map some ++ some 0 :: rest).length + 1)
      (by omega) h0 (by have := List.count_le_length (a := (47 : UInt8)) (l := s); simp; omega)
    simp only [List.map_nil, List.nil_append] at this
    rw [show ([] : List UInt8).length = 0 from rfl] at this
    rw [this]
    rfl
  · unfold FileName.mapNameCopyWin
    have := FileName.mapLoop_ok 47 92 (by decide) (by decide) (by decide) s.length [] s [] (s.length + 2)
      (by omega) h0 (by have := List.count_le_length (a := (47 : UInt8)) (l := s); omega)
    simp only [List.map_nil, List.nil_append, List.length_nil] at this
    simpa using this

example : FileName.mapNameCopyWin [97, 47, 47, 98] = some [some 97, some 92, some 92, some 98, some 0] := by decide

/-- **C153** `MapNameForward`: every backslash becomes a slash and nothing else changes. -/
theorem C153_map_forward (s : List UInt8) (h0 : 0 ∉ s) (rest : List (Option UInt8)) :
    ∃ r, FileName.mapNameForward (s.map some ++ some 0 :: rest) = some ((swapped 92 47 s).map some ++ some 0 :: rest, r) := by
  unfold FileName.mapNameForward
  have := FileName.mapLoop_ok 92 47 (by decide) (by decide) (by decide) s.length [] s rest ((s.map some ++ some 0 :: rest).length + 1)
    (by omega) h0 (by have := List.count_le_length (a := (92 : UInt8)) (l := s); simp; omega)
  simp only [List.map_nil, List.nil_append] at this
  rw [show ([] : List UInt8).length = 0 from rfl] at this
  rw [this]
  exact ⟨none, rfl⟩

/-- **C153** (negation of "like MapName()"): `MapNameForward` always returns NULL, never the name. -/
theorem C153_forward_returns_null_negated (s : List UInt8) (h0 : 0 ∉ s) (rest : List (Option UInt8)) :
    (FileName.mapNameForward (s.map some ++ some 0 :: rest)).map (·.2) = some none := by
  obtain ⟨r, h⟩ := C153_map_forward s h0 rest
  unfold FileName.mapNameForward at h ⊢
  rw [Option.bind_eq_bind, Option.bind_eq_some_iff] at h
  obtain ⟨m, h1, _⟩ := h
  rw [h1]
  rfl

/-! ## Cygwin -/

namespace FileName

theorem cygLoop_names (s cur : List UInt8) :
    names (· == 47) cur (cygLoop s) = names winSep cur s := by
  induction s generalizing cur with
  | nil => rfl
  | cons c s ih =>
    rw [cygLoop.eq_def]
    simp only
    by_cases hc : winSep c = true
    · cases s with
      | nil =>
        simp only [hc, headSep, Bool.and_false, Bool.false_eq_true, if_false, cygLoop]
        have : (((if c = 92 then 47 else c : UInt8)) == 47) = true := by
          simp only [winSep, Bool.or_eq_true, beq_iff_eq] at hc
          rcases hc with rfl | rfl <;> rfl
        simp [names, this, hc]
      | cons d s =>
        by_cases hd : winSep d = true
        · simp only [hc, headSep, hd, Bool.and_self, if_true]
          rw [ih cur]
          simp only [names, hc, hd, if_true]
        · have hd' : winSep d = false := by simpa using hd
          simp only [hc, headSep, hd', Bool.and_false, Bool.false_eq_true, if_false]
          have : (((if c = 92 then 47 else c : UInt8)) == 47) = true := by
            simp only [winSep, Bool.or_eq_true, beq_iff_eq] at hc
            rcases hc with rfl | rfl <;> rfl
          rw [names, if_pos this, names, if_pos hc, ih []]
    · have hc' : winSep c = false := by simpa using hc
      simp only [hc', Bool.false_and, Bool.false_eq_true, if_false]
      have h92 : c ≠ 92 := by rintro rfl; exact hc rfl
      have h47 : (c == 47) = false := by
        simp only [beq_eq_false_iff_ne]; rintro rfl; exact hc rfl
      simp only [if_neg h92]
      rw [names, names, hc', h47]
      simp only [Bool.false_eq_true, if_false]
      exact ih _

theorem cygLoop_single (s : List UInt8) : ¬ [47, 47] <:+: cygLoop s ∧ 92 ∉ cygLoop s ∧ ((cygLoop s).head? = some 47 → ∃ c r, s = c :: r ∧ winSep c = true) := by
  induction s with
  | nil => simp [cygLoop]
  | cons c s ih =>
    obtain ⟨i1, i2, i3⟩ := ih
    have hcy : cygLoop (c :: s) = if (winSep c && headSep s) = true then cygLoop s
        else (if c = 92 then 47 else c) :: cygLoop s := by rw [cygLoop.eq_def]
    rw [hcy]
    by_cases h : (winSep c && headSep s) = true
    · rw [if_pos h]
      simp only [Bool.and_eq_true] at h
      exact ⟨i1, i2, fun _ => ⟨c, s, rfl, h.1⟩⟩
    · rw [if_neg h]
      have h47 : (if c = 92 then 47 else c : UInt8) = 47 → winSep c = true := by
        intro e
        by_cases h92 : c = 92
        · subst h92; rfl
        · rw [if_neg h92] at e; subst e; rfl
      refine ⟨?_, ?_, ?_⟩
      · rw [List.infix_cons_iff]
        rintro (hp | hp)
        · obtain ⟨t, ht⟩ := hp
          simp only [List.cons_append, List.nil_append, List.cons.injEq] at ht
          obtain ⟨e1, e2⟩ := ht
          obtain ⟨d, r, rfl, hd⟩ := i3 (by rw [← e2]; rfl)
          exact h (by simp [h47 e1.symm, hd, headSep])
        · exact i1 hp
      · simp only [List.mem_cons, not_or]
        refine ⟨?_, i2⟩
        intro e
        by_cases h92 : c = 92
        · rw [if_pos h92] at e; exact absurd e (by decide)
        · rw [if_neg h92] at e; exact h92 e.symm
      · intro e
        exact ⟨c, s, rfl, h47 (by simpa using e)⟩

end FileName

/-- **C153** `MapNameCopy` on Cygwin: a drive `x:` becomes `/cygdrive/x`; of the rest, the names between separators stay the same, all separators are single slashes. -/
theorem C153_map_cygwin (s : List UInt8) (hc : ∀ c r, s = c :: r → c.toNat < 128) :
    ∃ drive path out, FileName.mapNameCopyCyg s = some (drive ++ out) ∧
      ((drive = [] ∧ path = s ∧ ¬ ∃ c r, s = c :: 58 :: r ∧ letter c) ∨
        ∃ c, letter c ∧ s = c :: 58 :: path ∧ drive = [47, 99, 121, 103, 100, 114, 105, 118, 101, 47, c]) ∧
      names (· == 47) [] out = names (fun c => c == 92 || c == 47) [] path ∧ ¬ [47, 47] <:+: out ∧ 92 ∉ out := by
  have key : ∀ p, names (· == 47) [] (FileName.cygLoop p) = names (fun c => c == 92 || c == 47) [] p ∧
      ¬ [47, 47] <:+: FileName.cygLoop p ∧ 92 ∉ FileName.cygLoop p := fun p =>
    ⟨FileName.cygLoop_names p [], (FileName.cygLoop_single p).1, (FileName.cygLoop_single p).2.1⟩
  cases s with
  | nil => exact ⟨[], [], [], rfl, .inl ⟨rfl, rfl, by simp⟩, key []⟩
  | cons c r =>
    have hc' := hc c r rfl
    have hal : ∃ b, FileName.isalpha c = some b ∧ (b = true ↔ letter c) := by
      refine ⟨_, if_neg (by rw [UInt8.le_iff_toNat_le]; have : (128 : UInt8).toNat = 128 := rfl; omega), ?_⟩
      simp only [Bool.or_eq_true, Bool.and_eq_true, decide_eq_true_eq, UInt8.le_iff_toNat_le, letter]
      exact Iff.rfl
    obtain ⟨b, hb, hl⟩ := hal
    simp only [FileName.mapNameCopyCyg, hb, Option.bind_eq_bind, Option.bind_some]
    split
    · rename_i r
      exact ⟨_, r, _, rfl, .inr ⟨c, hl.1 rfl, rfl, rfl⟩, key r⟩
    · rename_i hx
      refine ⟨[], c :: r, FileName.cygLoop (c :: r), rfl, .inl ⟨rfl, rfl, ?_⟩, key _⟩
      rintro ⟨d, q, e, hd⟩
      simp only [List.cons.injEq] at e
      obtain ⟨rfl, rfl⟩ := e
      exact hx q (hl.2 hd) rfl

example : FileName.mapNameCopyCyg [99, 58, 92, 97, 92, 92, 98] = some [47, 99, 121, 103, 100, 114, 105, 118, 101, 47, 99, 47, 97, 47, 98] := by decide

/-- **C153** `MapName` on Cygwin, with a buffer of the 254 bytes it asks for: the buffer then holds the mapped name, or the process ends because it has 254 bytes or more. -/
theorem C153_map_cygwin_in_place (s t : List UInt8) (m : List (Option UInt8)) (h : FileName.mapNameCopyCyg s = some t) (h0 : 0 ∉ t) (hm : 254 ≤ m.length) :
    (t.length < 254 → ∃ rest, FileName.mapNameCyg m s = some (.inl (t.map some ++ some 0 :: rest)) ∧ (t.map some ++ some 0 :: rest).length = m.length) ∧
    (254 ≤ t.length → FileName.mapNameCyg m s = some (.inr ())) := by
  obtain ⟨q, h1, h2⟩ := C37_strlcpy t m FileName.maxFilename h0 (by decide) hm
  simp only [FileName.mapNameCyg, h, Option.bind_eq_bind, Option.bind_some, h1]
  refine ⟨fun hl => ?_, fun hl => by rw [if_pos (show t.length ≥ FileName.maxFilename from hl)]⟩
  rw [if_neg (show ¬ t.length ≥ FileName.maxFilename by simp [FileName.maxFilename]; omega)]
  obtain ⟨hsz, _, _, _, rest, hr⟩ := h2
  rw [List.take_of_length_le (by simp [FileName.maxFilename]; omega)] at hr
  exact ⟨rest, by rw [hr], by rw [← hr, hsz]⟩

/-- Finding: the string may become longer, and `MapName` cannot know whether there is room: in a buffer that is just large enough for "c:" it writes outside. -/
theorem C153_cygwin_overflow_negated : FileName.mapNameCyg ([99, 58, 0].map some) [99, 58] = none := by decide

example : FileName.mapNameCyg ((List.replicate 254 (0 : UInt8)).map some) [99, 58] = some (.inl (([47, 99, 121, 103, 100, 114, 105, 118, 101, 47, 99] ++ List.replicate 243 (0 : UInt8)).map some)) := by decide +kernel


/-! ## `File_CopyToDir` -/

/-- **C153** `File_CopyToDir`: copies to the directory's name followed by the part of the source behind its last slash, if there is such a part and the name has fewer than 4096 bytes, and
reports what the copying reports; otherwise it copies nothing and fails. -/
theorem C153_copy_to_dir (copy : List UInt8 → List UInt8 → Bool) (src dir : List UInt8) :
    (∃ pre base, src = pre ++ base ∧ base ≠ [] ∧ 47 ∉ base ∧ (pre = [] ∨ pre.getLast? = some 47) ∧
      (FileName.copyToDir copy src dir = if dir.length + base.length < 4096 then (copy src (dir ++ base), some (dir ++ base)) else (false, none))) ∨
    ((src = [] ∨ src.getLast? = some 47) ∧ FileName.copyToDir copy src dir = (false, none)) := by
  have hb : (∃ pre base, src = pre ++ base ∧ 47 ∉ base ∧ (pre = [] ∨ pre.getLast? = some 47) ∧
      Path.basename src = if pre.length = src.length then none else some pre.length) := by
    unfold Path.basename Path.strrchr
    cases h : src.reverse.findIdx? (· == 47) with
    | none =>
      refine ⟨[], src, rfl, ?_, .inl rfl, rfl⟩
      rw [List.findIdx?_eq_none_iff] at h
      intro hm
      exact absurd (h 47 (by simpa using hm)) (by decide)
    | some j =>
      rw [List.findIdx?_eq_some_iff_getElem] at h
      obtain ⟨hj, hj1, hj2⟩ := h
      have hlen : j < src.length := by simpa using hj
      refine ⟨src.take (src.length - 1 - j + 1), src.drop (src.length - 1 - j + 1), by simp, ?_, .inr ?_, ?_⟩
      · intro hm
        obtain ⟨i, hi, hi'⟩ := List.getElem_of_mem hm
        simp only [List.length_drop] at hi
        rw [List.getElem_drop] at hi'
        have := hj2 (src.length - 1 - (src.length - 1 - j + 1 + i)) (by omega)
        rw [List.getElem_reverse] at this
        apply this
        rw [beq_iff_eq, ← hi']
        congr 1
        omega
      · rw [List.getElem_reverse] at hj1
        rw [List.getLast?_take, if_neg (by omega)]
        simp only [Nat.add_sub_cancel]
        rw [List.getElem?_eq_getElem (by omega)]
        simp only [Option.some_or, Option.some.injEq]
        simpa using hj1
      · simp only [List.length_take]
        rw [show min (src.length - 1 - j + 1) src.length = src.length - 1 - j + 1 by omega]
  obtain ⟨pre, base, hs, hbase, hpre, hbn⟩ := hb
  have hlen : src.length = pre.length + base.length := by rw [hs]; simp
  by_cases hbe : base = []
  · right
    subst hbe
    simp only [List.append_nil] at hs
    subst hs
    refine ⟨hpre, ?_⟩
    simp [FileName.copyToDir, hbn]
  · left
    refine ⟨pre, base, hs, hbe, hbase, hpre, ?_⟩
    have : ¬ pre.length = src.length := by
      have := List.length_pos_iff.2 hbe
      omega
    rw [if_neg this] at hbn
    have hd : src.drop pre.length = base := by rw [hs]; simp
    unfold FileName.copyToDir
    simp only [hbn, hd, List.length_append, FileName.pathMax]
    by_cases h4 : dir.length + base.length < 4096
    · rw [if_neg (by omega), if_pos h4]
      cases copy src (dir ++ base) <;> rfl
    · rw [if_pos (by omega), if_neg h4]

example : FileName.copyToDir (fun _ _ => true) [47, 97, 47, 98] [47, 116, 47] = (true, some [47, 116, 47, 98]) := by decide
