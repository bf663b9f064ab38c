import Verif.Model.StrTrim
import Verif.Props.StrCopy
/-! # C42 (trimming), C43 (case), C44 (canonification), C49 (escaping) -/
open StrSpec CMem TrimSpec

namespace Str

/-- A statement about all bytes by computation over the 256 values. -/
theorem byte_all {P : UInt8 → Prop} (h : ∀ k : Fin 256, P (UInt8.ofNat k.val)) (c : UInt8) : P c := by
  have := h ⟨c.toNat, c.toNat_lt⟩
  simpa using this

theorem isspace_eq (c : UInt8) : isspace c = space c := byte_all (P := fun c => isspace c = space c) (by decide +kernel) c
theorem toLower_eq (c : UInt8) : toLower c = lower c := byte_all (P := fun c => toLower c = lower c) (by decide +kernel) c
theorem canon_eq (c : UInt8) : canonChar c = canon c := byte_all (P := fun c => canonChar c = canon c) (by decide +kernel) c
theorem lower_ne (c : UInt8) : c ≠ 0 → lower c ≠ 0 := byte_all (P := fun c => c ≠ 0 → lower c ≠ 0) (by decide +kernel) c
theorem canon_ne (c : UInt8) : canon c ≠ 0 := byte_all (P := fun c => canon c ≠ 0) (by decide +kernel) c
theorem toUpper_eq (c : UInt8) : graphic c = true → toUpper c = upper c := byte_all (P := fun c => graphic c = true → toUpper c = upper c) (by decide +kernel) c
theorem upper_ne (c : UInt8) : c ≠ 0 → upper c ≠ 0 := byte_all (P := fun c => c ≠ 0 → upper c ≠ 0) (by decide +kernel) c

theorem trimRight_prefix (p : UInt8 → Bool) (s : List UInt8) : ∃ t, s = trimRight p s ++ t ∧ ∀ c ∈ t, p c = true := by
  refine ⟨(s.reverse.takeWhile p).reverse, ?_, ?_⟩
  · rw [trimRight, ← List.reverse_append, List.takeWhile_append_dropWhile, List.reverse_reverse]
  · intro c hc
    rw [List.mem_reverse] at hc
    have : ∀ l : List UInt8, ∀ x ∈ l.takeWhile p, p x = true := by
      intro l
      induction l with
      | nil => simp
      | cons a l ih =>
        intro x hx
        by_cases ha : p a = true
        · rw [List.takeWhile_cons_of_pos ha] at hx
          rcases List.mem_cons.1 hx with rfl | hx
          · exact ha
          · exact ih x hx
        · rw [List.takeWhile_cons_of_neg ha] at hx; simp at hx
    exact this _ c hc

theorem trimRight_snoc (p : UInt8 → Bool) (s : List UInt8) (c : UInt8) : trimRight p (s ++ [c]) = if p c then trimRight p s else s ++ [c] := by
  simp only [trimRight, List.reverse_append, List.reverse_cons, List.reverse_nil, List.nil_append, List.cons_append, List.dropWhile_cons]
  split
  · rfl
  · simp

theorem backLoop_ok (p : UInt8 → Bool) (s : List UInt8) (rest : List (Option UInt8)) :
    backLoop p (s.map some ++ rest) s.length = some (trimRight p s).length := by
  obtain ⟨n, hn⟩ : ∃ n, n = s.length := ⟨_, rfl⟩
  induction n generalizing s rest with
  | zero => have : s = [] := List.length_eq_zero_iff.1 hn.symm
            subst this; rfl
  | succ n ih =>
    obtain ⟨t, c, rfl⟩ : ∃ t c, s = t ++ [c] := by
      rcases List.eq_nil_or_concat s with e | ⟨t, c, e⟩
      · subst e; simp at hn
      · exact ⟨t, c, by simpa using e⟩
    rw [trimRight_snoc]
    simp only [List.length_append, List.length_cons, List.length_nil, backLoop]
    have hg : get ((t ++ [c]).map some ++ rest) t.length = some c := by
      have := get_map (t ++ [c]) rest t.length (by simp)
      simpa using this
    rw [hg]
    simp only [Option.bind_eq_bind, Option.bind_some]
    split
    · have := ih t (some c :: rest) (by simp at hn; exact hn)
      simpa using this
    · simp

theorem write_prefix (a b : List UInt8) (rest : List (Option UInt8)) (h : HoldsStr ((a ++ b).map some ++ some 0 :: rest) (a ++ b)) :
    ∃ m', write ((a ++ b).map some ++ some 0 :: rest) a.length (some 0) = some m' ∧ Stored ((a ++ b).map some ++ some 0 :: rest) m' ((a ++ b).length + 1) a := by
  have h0 := h.1
  simp only [List.mem_append, not_or] at h0
  obtain ⟨m', e, hst⟩ := stored_of_store (m := (a ++ b).map some ++ some 0 :: rest) (t := a) (rest := b.map some ++ some 0 :: rest) (by simp) []
    ((a ++ b).length + 1) (by simp; omega) (by simp; omega) h0.1 (by simp)
  rw [List.nil_append, ← write_store] at e
  exact ⟨m', e, by simpa using hst⟩

theorem chopWith_ok (p : UInt8 → Bool) (m : List (Option UInt8)) (s : List UInt8) (maxLength : Nat) (hm : HoldsStr m s) (hmax : maxLength ≠ sizeMax) :
    if s.length ≤ maxLength then ∃ m', chopWith p m maxLength = some (m', 0) ∧ Stored m m' (s.length + 1) (trimRight p s)
    else chopWith p m maxLength = some (m, -1) := by
  have hm0 := hm
  obtain ⟨h0, rest, rfl⟩ := hm
  have hsc := scan_ok (maxLength + 1) 0 s rest h0 (by omega)
  have hss : succSize maxLength = maxLength + 1 := by simp [succSize, hmax]
  by_cases hl : s.length ≤ maxLength
  · rw [if_pos hl]
    rw [show min s.length (0 + (maxLength + 1)) = s.length by omega] at hsc
    obtain ⟨t, ht, htp⟩ := trimRight_prefix p s
    have hb := backLoop_ok p s (some 0 :: rest)
    obtain ⟨r, hr⟩ : ∃ r, r = trimRight p s := ⟨_, rfl⟩
    rw [← hr] at ht hb ⊢
    subst ht
    obtain ⟨m', e, hst⟩ := write_prefix r t rest hm0
    have hg : ∃ c, get ((r ++ t).map some ++ some 0 :: rest) r.length = some c ∧ (c = 0 ∨ p c = true) := by
      cases t with
      | nil => exact ⟨0, by simpa using get_nul r rest, Or.inl rfl⟩
      | cons c t =>
        refine ⟨c, ?_, Or.inr (htp c (by simp))⟩
        have := get_map (r ++ c :: t) (some 0 :: rest) r.length (by simp)
        simpa using this
    obtain ⟨c, hg, hc⟩ := hg
    refine ⟨m', ?_, hst⟩
    simp only [chopWith, hss, hsc, Option.bind_eq_bind, Option.bind_some]
    rw [if_neg (by omega), hb, Option.bind_some, hg, Option.bind_some, if_pos hc, e, Option.bind_some]
  · rw [if_neg hl]
    rw [show min s.length (0 + (maxLength + 1)) = maxLength + 1 by omega] at hsc
    simp only [chopWith, hss, hsc, Option.bind_eq_bind, Option.bind_some]
    rw [if_pos (by omega)]

end Str

/-- C42. `Chop` with a limit at least the string's length removes exactly the trailing white space; a longer string is left alone and -1
returned. -/
theorem C42_chop (m : List (Option UInt8)) (s : List UInt8) (maxLength : Nat) (hm : HoldsStr m s) (hmax : maxLength ≠ Str.sizeMax) :
    if s.length ≤ maxLength then ∃ m', Str.chop m maxLength = some (m', 0) ∧ Stored m m' (s.length + 1) (trimRight space s)
    else Str.chop m maxLength = some (m, -1) := by
  have hsp : Str.isspace = space := funext Str.isspace_eq
  have := Str.chopWith_ok Str.isspace m s maxLength hm hmax
  rw [hsp] at this
  simpa [Str.chop, hsp] using this

/-- C42. `StripTrailingNewline` likewise removes exactly the trailing newlines. -/
theorem C42_stripTrailingNewline (m : List (Option UInt8)) (s : List UInt8) (maxLength : Nat) (hm : HoldsStr m s) (hmax : maxLength ≠ Str.sizeMax) :
    if s.length ≤ maxLength then ∃ m', Str.stripTrailingNewline m maxLength = some (m', 0) ∧ Stored m m' (s.length + 1) (trimRight (· == 10) s)
    else Str.stripTrailingNewline m maxLength = some (m, -1) :=
  Str.chopWith_ok (· == 10) m s maxLength hm hmax

example : HoldsStr [some 97, some 32, some 10, some 0] [97, 32, 10] ∧
    Str.chop [some 97, some 32, some 10, some 0] 3 = some ([some 97, some 0, some 10, some 0], 0) ∧
    Str.stripTrailingNewline [some 97, some 32, some 10, some 0] 3 = some ([some 97, some 32, some 0, some 0], 0) ∧
    Str.chop [some 97, some 32, some 10, some 0] 2 = some ([some 97, some 32, some 10, some 0], -1) :=
  ⟨⟨by decide, [], rfl⟩, by decide, by decide, by decide⟩

/-- Finding: with the limit `SIZE_MAX` the bound wraps to 0: a string that does not start with white space trips the assertion (and is emptied
without assertions). -/
theorem C42_chop_size_max (c : UInt8) (rest : List (Option UInt8)) (h0 : c ≠ 0) (hc : Str.isspace c = false) :
    Str.chop (some c :: rest) Str.sizeMax = none := by
  simp [Str.chop, Str.chopWith, Str.succSize, Str.scan, Str.backLoop, CMem.get, h0, hc]

example : (97 : UInt8) ≠ 0 ∧ Str.isspace 97 = false := by decide

namespace Str

theorem leadLoop_ok : ∀ (n : Nat) (a b : List UInt8) (rest : List (Option UInt8)), 0 ∉ a ++ b → (a ++ b).length - a.length < n →
    leadLoop ((a ++ b).map some ++ some 0 :: rest) a.length n = some (a.length + (b.takeWhile isspace).length) := by
  intro n
  induction n with
  | zero => intro a b rest _ h; simp at h
  | succ n ih =>
    intro a b rest h0 hn
    cases b with
    | nil =>
      have := get_nul a rest
      simp [leadLoop, this, isspace]
    | cons c b =>
      have hg : get ((a ++ c :: b).map some ++ some 0 :: rest) a.length = some c := by
        have := get_map (a ++ c :: b) (some 0 :: rest) a.length (by simp)
        simpa using this
      simp only [leadLoop, hg, Option.bind_eq_bind, Option.bind_some]
      by_cases hc : isspace c = true
      · rw [if_pos hc]
        have := ih (a ++ [c]) b rest (by simpa using h0) (by simp at hn ⊢; omega)
        simp only [List.append_assoc, List.singleton_append, List.length_append, List.length_cons, List.length_nil] at this
        rw [this, List.takeWhile_cons_of_pos hc]
        simp; omega
      · rw [if_neg hc, List.takeWhile_cons_of_neg hc]; simp

theorem endLoop_ok (a : List UInt8) (x : UInt8) (hx : isspace x = false) : ∀ (t : List UInt8) (rest : List (Option UInt8)), (∀ c ∈ t, isspace c = true) →
    endLoop ((a ++ x :: t).map some ++ rest) (a.length + t.length) = some a.length := by
  intro t
  obtain ⟨n, hn⟩ : ∃ n, n = t.length := ⟨_, rfl⟩
  induction n generalizing t with
  | zero =>
    intro rest _
    have : t = [] := List.length_eq_zero_iff.1 hn.symm
    subst this
    have hg : get ((a ++ [x]).map some ++ rest) a.length = some x := by
      have := get_map (a ++ [x]) rest a.length (by simp)
      simpa using this
    cases a with
    | nil =>
      simp only [List.nil_append, List.length_nil, Nat.zero_add] at hg ⊢
      simp only [endLoop, hg, Option.bind_eq_bind, Option.bind_some, hx, Bool.false_eq_true, if_false]
    | cons b a =>
      simp only [List.length_cons, List.length_nil, Nat.add_zero] at hg ⊢
      simp only [endLoop, hg, Option.bind_eq_bind, Option.bind_some, hx, Bool.false_eq_true, if_false]
  | succ n ih =>
    intro rest hsp
    obtain ⟨t', c, rfl⟩ : ∃ t' c, t = t' ++ [c] := by
      rcases List.eq_nil_or_concat t with e | ⟨t, c, e⟩
      · subst e; simp at hn
      · exact ⟨t, c, by simpa using e⟩
    have hg : get ((a ++ x :: (t' ++ [c])).map some ++ rest) (a.length + t'.length + 1) = some c := by
      have := get_map (a ++ x :: (t' ++ [c])) rest (a.length + t'.length + 1) (by simp; omega)
      rw [this]
      congr 1
      rw [List.getElem_append_right (by omega)]
      simp [show a.length + t'.length + 1 - a.length = t'.length + 1 by omega]
    simp only [List.length_append, List.length_cons, List.length_nil, Nat.zero_add]
    rw [← Nat.add_assoc]
    simp only [endLoop, hg, Option.bind_eq_bind, Option.bind_some, hsp c (by simp), if_true]
    have := ih t' (by simp at hn; exact hn) (some c :: rest) (fun d hd => hsp d (by simp [hd]))
    simpa using this

end Str

/-- C42. `TrimWhitespace`: the returned pointer is to the string without leading and trailing white space; nothing outside the string changes. -/
theorem C42_trimWhitespace (m : List (Option UInt8)) (s : List UInt8) (hm : HoldsStr m s) :
    ∃ m' off, Str.trimWhitespace m = some (m', off) ∧ off = (s.takeWhile space).length ∧ HoldsStr (m'.drop off) (trim space s) ∧
      m'.length = m.length ∧ m'.drop (s.length + 1) = m.drop (s.length + 1) := by
  have hsp : Str.isspace = space := funext Str.isspace_eq
  have hm0 := hm
  obtain ⟨h0, rest, rfl⟩ := hm
  have hlead := Str.leadLoop_ok ((s.map some ++ some 0 :: rest).length + 1) [] s rest (by simpa using h0) (by simp; omega)
  simp only [List.nil_append, List.length_nil, Nat.zero_add] at hlead
  rw [hsp] at hlead
  have hsplit := List.takeWhile_append_dropWhile (p := space) (l := s)
  obtain ⟨a, ha⟩ : ∃ a, a = s.takeWhile space := ⟨_, rfl⟩
  have htrim : trim space s = trimRight space (s.dropWhile space) := rfl
  cases hd : s.dropWhile space with
  | nil =>
    rw [hd] at htrim
    rw [hd, List.append_nil] at hsplit
    rw [hsplit] at hlead ⊢
    refine ⟨s.map some ++ some 0 :: rest, s.length, ?_, rfl, ?_, rfl, rfl⟩
    · have hg := get_nul s rest
      simp only [Str.trimWhitespace, hlead, hg, Option.bind_eq_bind, Option.bind_some, if_true]
    · rw [htrim, List.drop_left' (by simp)]
      exact ⟨by simp [trimRight], rest, rfl⟩
  | cons x t =>
    have hxs : space x = false := by
      have := List.head_dropWhile_not (p := space) (l := s) (by rw [hd]; simp)
      simp only [hd, List.head_cons] at this
      exact this
    rw [hd, ← ha] at hsplit
    rw [← ha] at hlead ⊢
    have hx0 : x ≠ 0 := by intro e; exact h0 (by rw [← hsplit, e]; simp)
    obtain ⟨t2, ht2, htp⟩ := Str.trimRight_prefix space (x :: t)
    -- trimRight keeps x
    obtain ⟨r, hr⟩ : ∃ r, trimRight space (x :: t) = x :: r := by
      cases hrr : trimRight space (x :: t) with
      | nil => rw [hrr] at ht2; simp at ht2; have := htp x (by rw [← ht2]; simp); rw [hxs] at this; cases this
      | cons y r => rw [hrr] at ht2; simp at ht2; exact ⟨r, by rw [ht2.1]⟩
    rw [htrim, hd, hr]
    rw [hr] at ht2
    have hs2 : s = a ++ (x :: r) ++ t2 := by rw [← hsplit, ht2]; simp
    -- last non-space of x :: r
    obtain ⟨r', y, hry⟩ : ∃ r' y, x :: r = r' ++ [y] := by
      rcases List.eq_nil_or_concat (x :: r) with e | ⟨t, c, e⟩
      · simp at e
      · exact ⟨t, c, by simpa using e⟩
    have hys : space y = false := by
      have h1 : trimRight space (r' ++ [y]) = r' ++ [y] := by
        rw [← hry, ← hr]
        simp only [trimRight, List.reverse_reverse]
        congr 1
        have : ∀ l : List UInt8, (l.dropWhile space).dropWhile space = l.dropWhile space := by
          intro l
          induction l with
          | nil => rfl
          | cons c l ih =>
            by_cases hc : space c = true
            · simp [hc, ih]
            · simp [hc]
        exact this _
      rw [Str.trimRight_snoc] at h1
      by_cases hc : space y = true
      · rw [if_pos hc] at h1
        obtain ⟨z, hz, _⟩ := Str.trimRight_prefix space r'
        rw [h1] at hz
        have := congrArg List.length hz
        simp at this
      · simpa using hc
    have hstr : CMem.strlen (s.map some ++ some 0 :: rest) a.length = some (x :: t).length := by
      have h1 : (s.map some ++ some 0 :: rest).drop a.length = (x :: t).map some ++ some 0 :: rest := by
        rw [← hsplit, List.map_append, List.append_assoc, List.drop_left' (by simp)]
      simp only [strlen, h1]
      rw [str_holds ⟨by intro h; exact h0 (by rw [← hsplit]; exact List.mem_append_right _ h), rest, rfl⟩]
      rfl
    have hgx : get (s.map some ++ some 0 :: rest) a.length = some x := by
      have := get_map s (some 0 :: rest) a.length (by rw [← hsplit]; simp)
      rw [this]; congr 1
      rw [List.getElem_of_eq hsplit.symm]; simp
    have hend := Str.endLoop_ok (a ++ r') y (by rw [hsp]; exact hys) t2 (some 0 :: rest) (fun c hc => by rw [hsp]; exact htp c hc)
    have hse : a ++ r' ++ y :: t2 = s := by rw [hs2, hry]; simp
    have hlen1 : a.length + (x :: t).length - 1 = (a ++ r').length + t2.length := by
      rw [ht2, hry]; simp; omega
    rw [hse, ← hlen1] at hend
    obtain ⟨m', e, hst⟩ := Str.write_prefix (a ++ x :: r) t2 rest (by rw [← hs2]; exact hm0)
    rw [← hs2] at e hst
    refine ⟨m', a.length, ?_, rfl, ?_, hst.size, hst.outside⟩
    · simp only [Str.trimWhitespace, hlead, hgx, Option.bind_eq_bind, Option.bind_some, if_neg hx0, hstr, hend]
      rw [show (a ++ r').length + 1 = (a ++ x :: r).length by rw [hry]; simp; omega, e]; rfl
    · obtain ⟨hh0, rest', hh⟩ := hst.string
      refine ⟨fun h => hh0 (List.mem_append_right _ h), rest', ?_⟩
      rw [hh, List.map_append, List.append_assoc, List.drop_left' (by simp)]

example : Str.trimWhitespace [some 32, some 97, some 32, some 98, some 32, some 0] = some ([some 32, some 97, some 32, some 98, some 0, some 0], 1) ∧
    trim space [32, 97, 32, 98, 32] = [97, 32, 98] := by decide

/-- C42. `TrimCSVLineCRLF` removes one CR LF at the end of the string, if it is there, and nothing else; the result is the new length. -/
theorem C42_trimCSVLineCRLF (m : List (Option UInt8)) (s : List UInt8) (hm : HoldsStr m s) :
    (∀ t, s = t ++ [13, 10] → ∃ m', Str.trimCRLF m = some (m', t.length) ∧ Stored m m' (s.length + 1) t) ∧
      (¬ [13, 10] <:+ s → Str.trimCRLF m = some (m, s.length)) := by
  have hm0 := hm
  have hlen := strlen_holds hm
  obtain ⟨h0, rest, rfl⟩ := hm
  constructor
  · rintro t rfl
    obtain ⟨m', e, hst⟩ := Str.write_prefix t [13, 10] rest hm0
    have hl : (t ++ [(13 : UInt8), 10]).length = t.length + 2 := by simp
    have g1 : get ((t ++ [(13 : UInt8), 10]).map some ++ some 0 :: rest) t.length = some 13 := by
      have := get_map (t ++ [(13 : UInt8), 10]) (some 0 :: rest) t.length (by simp)
      rw [this]; simp
    have g2 : get ((t ++ [(13 : UInt8), 10]).map some ++ some 0 :: rest) (t.length + 1) = some 10 := by
      have := get_map (t ++ [(13 : UInt8), 10]) (some 0 :: rest) (t.length + 1) (by simp)
      rw [this]; simp
    have hml := hst.size
    have hml2 : m'.length = t.length + 3 + rest.length := by rw [hml]; simp; omega
    obtain ⟨ht0, rest', hh⟩ := hst.string
    have e2 : write m' (t.length + 1) (some 0) = some (m'.set (t.length + 1) (some 0)) := write_eq (by omega)
    refine ⟨m'.set (t.length + 1) (some 0), ?_, ?_, ?_, ?_, ht0, rest'.set 0 (some 0), ?_⟩
    · simp only [Str.trimCRLF, hlen, hl, Option.bind_eq_bind, Option.bind_some]
      rw [if_neg (by omega), show t.length + 2 - 2 = t.length by omega, show t.length + 2 - 1 = t.length + 1 by omega, g1, Option.bind_some, g2, Option.bind_some,
        if_pos ⟨rfl, rfl⟩, e, Option.bind_some, e2, Option.bind_some]
    · simp [hml]
    · rw [List.drop_set, if_pos (by simp)]; exact hst.outside
    · simp; omega
    · rw [hh, List.set_append_right _ _ (by simp)]; simp
  · intro hn
    simp only [Str.trimCRLF, hlen, Option.bind_eq_bind, Option.bind_some]
    by_cases hl : s.length < 2
    · rw [if_pos hl]
    · rw [if_neg hl]
      obtain ⟨t, x, y, rfl⟩ : ∃ t x y, s = t ++ [x, y] := by
        rcases List.eq_nil_or_concat s with e | ⟨t, c, e⟩
        · subst e; simp at hl
        · subst e
          rcases List.eq_nil_or_concat t with e | ⟨t, d, e⟩
          · subst e; simp at hl
          · exact ⟨t, d, c, by simp [e]⟩
      have hl2 : (t ++ [x, y]).length = t.length + 2 := by simp
      have g1 : get ((t ++ [x, y]).map some ++ some 0 :: rest) t.length = some x := by
        have := get_map (t ++ [x, y]) (some 0 :: rest) t.length (by simp)
        rw [this]; simp
      have g2 : get ((t ++ [x, y]).map some ++ some 0 :: rest) (t.length + 1) = some y := by
        have := get_map (t ++ [x, y]) (some 0 :: rest) (t.length + 1) (by simp)
        rw [this]; simp
      rw [hl2, show t.length + 2 - 2 = t.length by omega, show t.length + 2 - 1 = t.length + 1 by omega, g1, Option.bind_some, g2, Option.bind_some, if_neg]
      rintro ⟨rfl, rfl⟩
      exact hn ⟨t, rfl⟩

example : Str.trimCRLF [some 97, some 13, some 10, some 0] = some ([some 97, some 0, some 0, some 0], 1) := by decide

/-- C42. `TrimCSVLineCRLFStrict` with active assertions: for a line of 1 to 4095 bytes that has no white space at its beginning, nor at its end once CR LF is removed, it is `TrimCSVLineCRLF`;
any other line ends the process. -/
theorem C42_trimStrict (m : List (Option UInt8)) (s t : List UInt8) (hm : HoldsStr m s) (ht : s = t ++ [13, 10] ∨ (¬ [13, 10] <:+ s ∧ t = s)) :
    let good := s.length < 4096 ∧ (∃ c, s.head? = some c ∧ space c = false) ∧ ∃ d, t.getLast? = some d ∧ space d = false
    (good → Str.trimCRLFStrict m = Str.trimCRLF m) ∧ (¬ good → Str.trimCRLFStrict m = none) := by
  intro good
  have hr : ∃ m', Str.trimCRLF m = some (m', t.length) ∧ HoldsStr m' t := by
    obtain ⟨h1, h2⟩ := C42_trimCSVLineCRLF m s hm
    rcases ht with ht | ⟨ht, rfl⟩
    · obtain ⟨m', e, st⟩ := h1 t ht
      exact ⟨m', e, st.string⟩
    · exact ⟨m, h2 ht, hm⟩
  obtain ⟨m', e1, e2⟩ := hr
  have hl1 := strlen_holds hm
  have hl2 := strlen_holds e2
  have get_at : ∀ (m : List (Option UInt8)) (s : List UInt8) (i : Nat), HoldsStr m s → CMem.get m i = if i < s.length then s[i]? else if i = s.length then some 0 else CMem.get m i := by
    intro m s i h
    obtain ⟨_, rest, rfl⟩ := h
    split
    · rename_i hi
      rw [get_map s _ i hi]; simp [hi]
    · split
      · rename_i h2; subst h2
        simp [CMem.get]
      · rfl
  cases s with
  | nil =>
    refine ⟨fun h => ?_, fun _ => ?_⟩
    · obtain ⟨_, ⟨c, h, _⟩, _⟩ := h; cases h
    · have hg : CMem.get m 0 = some 0 := by rw [get_at m [] 0 hm]; rfl
      simp only [Str.trimCRLFStrict, hl1, hg, Option.bind_eq_bind, Option.bind_some, List.length_nil]
      rw [if_neg (by omega)]
  | cons c r =>
    have hg : CMem.get m 0 = some c := by rw [get_at m _ 0 hm]; simp
    simp only [Str.trimCRLFStrict, hl1, hg, Option.bind_eq_bind, Option.bind_some]
    by_cases hA : 0 < (c :: r).length ∧ (c :: r).length < 4096 ∧ Str.isspace c = false
    · rw [if_pos hA, e1, Option.bind_some]
      simp only [hl2, Option.bind_some]
      by_cases hB : t = []
      · subst hB
        rw [if_neg (by simp)]
        exact ⟨fun h => (by obtain ⟨_, _, d, h, _⟩ := h; cases h), fun _ => rfl⟩
      · have hpos : 0 < t.length := List.length_pos_iff.2 hB
        rw [if_pos ⟨trivial, hpos⟩]
        have hd : CMem.get m' (t.length - 1) = some (t.getLast hB) := by
          rw [get_at m' t _ e2, if_pos (by omega), List.getLast_eq_getElem, List.getElem?_eq_getElem]
        have hc0 : CMem.get m' 0 = some c := by
          rw [get_at m' t _ e2, if_pos hpos]
          rcases ht with ht | ⟨_, rfl⟩
          · cases t with
            | nil => exact absurd rfl hB
            | cons x t => rw [List.cons_append, List.cons.injEq] at ht; rw [ht.1]; rfl
          · rfl
        simp only [hd, hc0, Option.bind_some]
        by_cases hC : Str.isspace (t.getLast hB) = false
        · rw [if_pos ⟨hC, hA.2.2⟩]
          refine ⟨fun _ => rfl, fun h => ?_⟩
          refine absurd ?_ h
          exact ⟨hA.2.1, ⟨c, rfl, by rw [← Str.isspace_eq]; exact hA.2.2⟩, t.getLast hB, List.getLast?_eq_some_getLast hB, by rw [← Str.isspace_eq]; exact hC⟩
        · rw [if_neg (fun h => hC h.1)]
          refine ⟨fun h => ?_, fun _ => rfl⟩
          obtain ⟨_, _, d, h1, h2⟩ := h
          rw [List.getLast?_eq_some_getLast hB, Option.some.injEq] at h1
          rw [Str.isspace_eq, h1] at hC
          exact absurd h2 hC
    · rw [if_neg hA]
      refine ⟨fun h => ?_, fun _ => rfl⟩
      obtain ⟨h1, ⟨x, h2, h3⟩, _⟩ := h
      simp only [List.head?_cons, Option.some.injEq] at h2
      subst h2
      exact absurd ⟨by simp, h1, by rw [Str.isspace_eq]; exact h3⟩ hA

/-- "ab CRLF" is cut; " b CRLF" and "CRLF" end the process. -/
example : Str.trimCRLFStrict ([97, 98, 13, 10, 0].map some) = some ([97, 98, 0, 0, 0].map some, 2) ∧ Str.trimCRLFStrict ([32, 98, 13, 10, 0].map some) = none ∧
    Str.trimCRLFStrict ([13, 10, 0].map some) = none := by decide

/-- C42. `StringCloseHole(s, start, end)` with `start ≤ end ≤ strlen(s)` removes exactly the bytes from `start` up to `end`. -/
theorem C42_closeHole (m : List (Option UInt8)) (s : List UInt8) (start stop : Nat) (hm : HoldsStr m s) (h1 : start ≤ stop) (h2 : stop ≤ s.length) :
    ∃ m', Str.closeHole m start stop = some m' ∧ Stored m m' (s.length + 1) (s.take start ++ s.drop stop) := by
  have hm0 := hm
  have hlen := strlen_holds hm
  obtain ⟨h0, rest, rfl⟩ := hm
  by_cases he : stop > start
  · have hdrop : (s.map some ++ some 0 :: rest).drop stop = (s.drop stop).map some ++ some 0 :: rest := by
      rw [List.drop_append_of_le_length (by simpa using h2), List.map_drop]
    have hn : strlen (s.map some ++ some 0 :: rest) stop = some (s.length - stop) := by
      simp only [strlen, hdrop]
      rw [str_holds ⟨fun h => h0 (List.mem_of_mem_drop h), rest, rfl⟩]; simp
    have hmv : memmove (s.map some ++ some 0 :: rest) start stop (s.length - stop + 1)
        = some ((s.take start ++ s.drop stop).map some ++ some 0 :: (s.map some ++ some 0 :: rest).drop (start + (s.length - stop + 1))) := by
      rw [memmove, if_pos ⟨by simp; omega, by simp; omega⟩, hdrop]
      congr 1
      have h3 : ((s.drop stop).map some ++ some 0 :: rest).take (s.length - stop + 1) = (s.drop stop).map some ++ [some 0] := by
        rw [List.take_append, List.take_of_length_le (by simp)]; simp
      rw [h3, List.take_append_of_le_length (by simp; omega)]
      simp
    refine ⟨(s.take start ++ s.drop stop).map some ++ some 0 :: (s.map some ++ some 0 :: rest).drop (start + (s.length - stop + 1)), ?_, ?_⟩
    · simp only [Str.closeHole, hlen, Option.bind_eq_bind, Option.bind_some]
      rw [if_pos ⟨h1, h2⟩, if_pos he, hn]
      exact hmv
    · refine ⟨?_, ?_, ?_, ?_, _, rfl⟩
      · simp; omega
      · rw [List.drop_append, List.drop_of_length_le (by simp; omega), List.nil_append]
        rw [show s.length + 1 - ((s.take start ++ s.drop stop).map some).length = (stop - start) + 1 by simp; omega]
        rw [List.drop_succ_cons, List.drop_drop]
        congr 1; omega
      · simp; omega
      · simp only [List.mem_append, not_or]
        exact ⟨fun h => h0 (List.mem_of_mem_take h), fun h => h0 (List.mem_of_mem_drop h)⟩
  · have : stop = start := by omega
    subst this
    refine ⟨s.map some ++ some 0 :: rest, ?_, rfl, rfl, by simp, by simpa using hm0⟩
    simp only [Str.closeHole, hlen, Option.bind_eq_bind, Option.bind_some]
    rw [if_pos ⟨h1, h2⟩, if_neg he]

example : Str.closeHole [some 97, some 98, some 99, some 0, some 7] 1 2 = some [some 97, some 99, some 0, some 0, some 7] := by decide

/-! ## C43, C44 -/

namespace Str

theorem mapLoop_ok (f : UInt8 → UInt8) : ∀ (n : Nat) (a : List UInt8) (s : List UInt8) (rest : List (Option UInt8)), 0 ∉ s → s.length < n →
    mapLoop f (a.map some ++ (s.map some ++ some 0 :: rest)) a.length n = some ((a ++ s.map f).map some ++ some 0 :: rest) := by
  intro n
  induction n with
  | zero => intro a s rest _ h; omega
  | succ n ih =>
    intro a s rest h0 hn
    cases s with
    | nil =>
      have := get_nul a rest
      simp [mapLoop, this]
    | cons c s =>
      simp only [List.mem_cons, not_or, List.length_cons] at h0 hn
      have hg : get (a.map some ++ ((c :: s).map some ++ some 0 :: rest)) a.length = some c := by
        simp [CMem.get]
      have hw : write (a.map some ++ ((c :: s).map some ++ some 0 :: rest)) a.length (some (f c))
          = some ((a ++ [f c]).map some ++ (s.map some ++ some 0 :: rest)) := by
        rw [write_eq (by simp), List.set_append_right _ _ (by simp)]; simp
      simp only [mapLoop, hg, hw, Option.bind_eq_bind, Option.bind_some, if_neg (Ne.symm h0.1)]
      have := ih (a ++ [f c]) s rest h0.2 (by omega)
      rw [show (a ++ [f c]).length = a.length + 1 by simp] at this
      rw [this]; simp

theorem mapLoop_stored (f g : UInt8 → UInt8) (m : List (Option UInt8)) (s : List UInt8) (hm : HoldsStr m s) (hfg : ∀ c ∈ s, f c = g c)
    (hg : ∀ c ∈ s, g c ≠ 0) : ∃ m', mapLoop f m 0 (m.length + 1) = some m' ∧ Stored m m' (s.length + 1) (s.map g) := by
  obtain ⟨h0, rest, rfl⟩ := hm
  have := mapLoop_ok f ((s.map some ++ some 0 :: rest).length + 1) [] s rest h0 (by simp; omega)
  simp only [List.map_nil, List.nil_append, List.length_nil] at this
  have hmap : s.map f = s.map g := List.map_congr_left hfg
  rw [hmap] at this
  refine ⟨_, this, by simp, ?_, by simp, ?_, rest, rfl⟩
  · rw [List.drop_append, List.drop_append, List.drop_of_length_le (l := (s.map g).map some) (by simp), List.drop_of_length_le (l := s.map some) (by simp)]; simp
  · intro h
    obtain ⟨c, hc, he⟩ := List.mem_map.1 h
    exact hg c hc he

end Str

/-- C43. `ToLowerStrInplace` changes exactly the ASCII upper-case letters to lower case, whatever the string. -/
theorem C43_toLowerStr (m : List (Option UInt8)) (s : List UInt8) (hm : HoldsStr m s) :
    ∃ m', Str.toLowerStr m = some m' ∧ Stored m m' (s.length + 1) (s.map lower) :=
  Str.mapLoop_stored Str.toLower lower m s hm (fun c _ => Str.toLower_eq c) (fun c hc => Str.lower_ne c (fun e => hm.1 (e ▸ hc)))

/-- C43, partial: `ToUpperStrInplace` changes exactly the ASCII lower-case letters to upper case, for strings of graphic ASCII characters. Missing:
strings with blanks, control or non-ASCII characters, for which the claim is false (next theorem). -/
theorem C43_toUpperStr_partial (m : List (Option UInt8)) (s : List UInt8) (hm : HoldsStr m s) (hg : ∀ c ∈ s, graphic c = true) :
    ∃ m', Str.toUpperStr m = some m' ∧ Stored m m' (s.length + 1) (s.map upper) :=
  Str.mapLoop_stored Str.toUpper upper m s hm (fun c hc => Str.toUpper_eq c (hg c hc)) (fun c hc => Str.upper_ne c (fun e => hm.1 (e ▸ hc)))

/-- Finding: `ToUpperStrInplace` turns a blank into a NUL byte and so cuts the string there: whatever follows, "a b…" becomes "A". -/
theorem C43_toUpper_cuts_at_blank (a b : List UInt8) (rest : List (Option UInt8)) (ha : 0 ∉ a) (hb : 0 ∉ b) (hga : ∀ c ∈ a, graphic c = true) :
    ∃ m', Str.toUpperStr ((a ++ [32] ++ b).map some ++ some 0 :: rest) = some m' ∧ HoldsStr m' (a.map upper) := by
  have := Str.mapLoop_ok Str.toUpper (((a ++ [32] ++ b).map some ++ some 0 :: rest).length + 1) [] (a ++ [32] ++ b) rest (by simp [ha, hb]) (by simp; omega)
  simp only [List.map_nil, List.nil_append, List.length_nil] at this
  refine ⟨_, this, ?_, ?_⟩
  · intro h
    obtain ⟨c, hc, he⟩ := List.mem_map.1 h
    exact Str.upper_ne c (fun e => ha (e ▸ hc)) he
  · refine ⟨(b.map Str.toUpper).map some ++ some 0 :: rest, ?_⟩
    have hmap : a.map Str.toUpper = a.map upper := List.map_congr_left (fun c hc => Str.toUpper_eq c (hga c hc))
    have h32 : Str.toUpper 32 = 0 := by decide
    simp [hmap, h32]

example : Str.toUpperStr [some 97, some 32, some 98, some 0] = some [some 65, some 0, some 66, some 0] ∧
    Str.toLowerStr [some 65, some 32, some 98, some 0] = some [some 97, some 32, some 98, some 0] := by decide

/-- C43. Case conversions of characters: each is idempotent and lower after upper is lower. -/
theorem C43_case_laws (c : UInt8) : lower (lower c) = lower c ∧ upper (upper c) = upper c ∧ lower (upper c) = lower c ∧
    (lower c ≠ c ↔ upperLetter c = true) ∧ (upper c ≠ c ↔ lowerLetter c = true) :=
  Str.byte_all (P := fun c => lower (lower c) = lower c ∧ upper (upper c) = upper c ∧ lower (upper c) = lower c ∧
    (lower c ≠ c ↔ upperLetter c = true) ∧ (upper c ≠ c ↔ lowerLetter c = true)) (by decide +kernel) c

/-- C44. `CanonifyNameInPlace` keeps letters and digits and makes every other byte an underscore, in place. -/
theorem C44_canonifyInPlace (m : List (Option UInt8)) (s : List UInt8) (hm : HoldsStr m s) :
    ∃ m', Str.canonifyInPlace m = some m' ∧ Stored m m' (s.length + 1) (s.map canon) :=
  Str.mapLoop_stored Str.canonChar canon m s hm (fun c _ => Str.canon_eq c) (fun c _ => Str.canon_ne c)

/-- C44. Canonification is idempotent and its result has only letters, digits and underscores. -/
theorem C44_canon_laws (s : List UInt8) : (s.map canon).map canon = s.map canon ∧
    ∀ c ∈ s.map canon, lowerLetter c = true ∨ upperLetter c = true ∨ digit c = true ∨ c = 95 := by
  have h1 : ∀ c : UInt8, canon (canon c) = canon c ∧ (lowerLetter (canon c) = true ∨ upperLetter (canon c) = true ∨ digit (canon c) = true ∨ canon c = 95) :=
    Str.byte_all (P := fun c => canon (canon c) = canon c ∧ (lowerLetter (canon c) = true ∨ upperLetter (canon c) = true ∨ digit (canon c) = true ∨ canon c = 95))
      (by decide +kernel)
  constructor
  · rw [List.map_map]; exact List.map_congr_left (fun c _ => (h1 c).1)
  · intro c hc
    obtain ⟨d, _, rfl⟩ := List.mem_map.1 hc
    exact (h1 d).2

/-- C44. `StringCanonify` into a block with room for the string stores the canonified text. The returned pointer is to the terminator (not to
the start, as its comment says). -/
theorem C44_stringCanonify (m : List (Option UInt8)) (s : List UInt8) (hl : s.length < m.length) :
    ∃ m', Str.stringCanonify m 0 s = some (m', s.length) ∧ Stored m m' (s.length + 1) (s.map canon) := by
  have key : ∀ (s : List UInt8) (m : List (Option UInt8)) (d : Nat), d + s.length < m.length →
      Str.stringCanonify m d s = (store m d (s.map canon ++ [0])).map fun m' => (m', d + s.length) := by
    intro s
    induction s with
    | nil => intro m d h; simp [Str.stringCanonify, write_store]; cases store m d [0] <;> rfl
    | cons c s ih =>
      intro m d h
      simp only [List.length_cons] at h
      simp only [Str.stringCanonify, List.map_cons, List.cons_append]
      rw [← store_cons, Str.canon_eq, write_eq (by omega)]
      simp only [Option.bind_eq_bind, Option.bind_some]
      rw [ih _ _ (by simp; omega)]
      simp only [List.length_cons]
      congr 1; funext m'; congr 1; omega
  obtain ⟨m', e, hst⟩ := stored_of_store (m := m) (t := []) (rest := m) rfl (s.map canon) (s.length + 1) (by simp) (by omega) (by simp) (by
    intro h; obtain ⟨c, _, he⟩ := List.mem_map.1 h; exact Str.canon_ne c he)
  simp only [List.length_nil, List.nil_append] at e hst
  refine ⟨m', ?_, hst⟩
  rw [key s m 0 (by omega), e]; simp

example : Str.canonifyInPlace [some 97, some 46, some 48, some 0] = some [some 97, some 95, some 48, some 0] ∧
    Str.stringCanonify [none, none, none, none, some 5] 0 [97, 46, 48] = some ([some 97, some 95, some 48, some 0, some 5], 3) := by decide
