import Verif.Lemmas.MustacheTotal
import Verif.Spec.Mustache
/-! # Reading the text of a template tree -/
namespace Mustache
open Json (Bytes Elem)
open MustacheSpec

/-! ## Searching -/

theorem strstr_cons (c : UInt8) (s pat : Bytes) : Str.strstr (c :: s) pat = if pat.isPrefixOf (c :: s) then some 0 else (Str.strstr s pat).map (· + 1) := by
  rw [Str.strstr]

theorem strstr_pair (x : UInt8) (s q : Bytes) (h1 : ¬ [x, x] <:+: s) (h2 : ¬ [x] <:+ s) : Str.strstr (s ++ x :: x :: q) [x, x] = some s.length := by
  induction s with
  | nil => simp [strstr_cons]
  | cons c s ih =>
    have hi := ih (fun h => h1 (h.trans (List.suffix_cons _ _).isInfix)) (fun h => h2 (h.trans (List.suffix_cons _ _)))
    rw [List.cons_append, strstr_cons, if_neg, hi]
    · simp
    · intro h
      rw [List.isPrefixOf_iff_prefix] at h
      cases s with
      | nil =>
        simp only [List.nil_append, List.cons_prefix_cons] at h
        exact h2 ⟨[], by rw [h.1]; rfl⟩
      | cons d s =>
        simp only [List.cons_append, List.cons_prefix_cons] at h
        exact h1 ⟨[], s, by rw [← h.1, ← h.2.1]; rfl⟩

theorem strstr_pair_none (x : UInt8) (s : Bytes) (h1 : ¬ [x, x] <:+: s) : Str.strstr s [x, x] = none := by
  cases h : Str.strstr s [x, x] with
  | none => rfl
  | some i =>
    obtain ⟨h2, _⟩ := Str.strstr_some h
    exact absurd ⟨_, _, h2.symm⟩ h1

theorem strstr_one (x : UInt8) (s q : Bytes) (h : x ∉ s) : Str.strstr (s ++ x :: q) [x] = some s.length := by
  induction s with
  | nil => simp [strstr_cons]
  | cons c s ih =>
    simp only [List.mem_cons, not_or] at h
    rw [List.cons_append, strstr_cons, if_neg, ih h.2]
    · simp
    · intro hp
      rw [List.isPrefixOf_iff_prefix, List.cons_prefix_cons] at hp
      exact h.1 hp.1

/-! ## Plain text -/

theorem infix_append_cases {x : UInt8} {a b : Bytes} (h : [x, x] <:+: a ++ b) : [x, x] <:+: a ∨ [x, x] <:+: b ∨ [x] <:+ a := by
  obtain ⟨p, q, h⟩ := h
  rw [List.append_assoc, List.append_eq_append_iff] at h
  rcases h with ⟨m, h1, h2⟩ | ⟨m, h1, h2⟩
  · -- a = p ++ m, [x,x] ++ q = m ++ b
    cases m with
    | nil => exact Or.inr (Or.inl ⟨[], q, by simpa using h2⟩)
    | cons m0 m =>
      cases m with
      | nil =>
        simp only [List.cons_append, List.cons.injEq, List.nil_append] at h2
        exact Or.inr (Or.inr ⟨p, by rw [h1, h2.1]⟩)
      | cons m1 m =>
        simp only [List.cons_append, List.cons.injEq, List.nil_append] at h2
        exact Or.inl ⟨p, m, by rw [h1, ← h2.1, ← h2.2.1]; simp⟩
  · exact Or.inr (Or.inl ⟨m, q, by rw [h2]; simp⟩)

theorem suffix_append_cases {x : UInt8} {a b : Bytes} (h : [x] <:+ a ++ b) : [x] <:+ b ∨ (b = [] ∧ [x] <:+ a) := by
  cases hb : b with
  | nil => subst hb; exact Or.inr ⟨rfl, by simpa using h⟩
  | cons c b' =>
    refine Or.inl ?_
    obtain ⟨p, hp⟩ := h
    have h1 : (p ++ [x]).getLast? = (a ++ b).getLast? := by rw [hp]
    rw [hb] at h1
    simp only [List.getLast?_append, List.getLast?_singleton, Option.some_or] at h1
    have : (c :: b').getLast? = some x := by
      cases hx : (c :: b').getLast? with
      | none => simp at hx
      | some y => rw [hx] at h1; simpa using h1.symm
    obtain ⟨ys, hys⟩ := List.getLast?_eq_some_iff.mp this
    exact ⟨ys, hys.symm⟩

theorem plain_nil : PlainText [] := by
  refine ⟨fun h => ?_, fun h => ?_⟩
  · have := h.length_le; simp at this
  · have := h.length_le; simp at this

theorem plain_append {a b : Bytes} (ha : PlainText a) (hb : PlainText b) : PlainText (a ++ b) := by
  refine ⟨fun h => ?_, fun h => ?_⟩
  · rcases infix_append_cases h with h | h | h
    · exact ha.1 h
    · exact hb.1 h
    · exact ha.2 h
  · rcases suffix_append_cases h with h | ⟨_, h⟩
    · exact hb.2 h
    · exact ha.2 h

theorem plain_of_not_mem {a : Bytes} (h : 123 ∉ a) : PlainText a :=
  ⟨fun hi => h (hi.subset (by simp)), fun hi => h (hi.subset (by simp))⟩

theorem plain_of_all {p : UInt8 → Bool} (hp : p 123 = false) {a : Bytes} (h : a.all p = true) : PlainText a := by
  apply plain_of_not_mem
  intro hm
  have := List.all_eq_true.mp h _ hm
  rw [hp] at this; cases this

theorem comment_of_not_mem {a : Bytes} (h : 125 ∉ a) : CommentText a :=
  ⟨fun hi => h (hi.subset (by simp)), fun hi => h (hi.subset (by simp))⟩

/-! ## Lines -/

theorem isSpace_eq (c : UInt8) : isSpace c = blank c := rfl

theorem lineBegin_snoc (a z : Bytes) (c : UInt8) : lineBegin (a ++ c :: z) (a.length + 1) =
    if isSpace c then (if a.length = 0 then some (some 0) else lineBegin (a ++ c :: z) a.length) else if c = 10 then some (some (a.length + 1)) else some none := by
  rw [lineBegin]
  have : rd (a ++ c :: z) a.length = some c := by simp [rd]
  simp only [this, Option.bind_eq_bind, Option.bind_some]

theorem lineBegin_line {a : Bytes} (ha : AtLineStart a) : ∀ (n : Nat) (b z : Bytes), b.length = n → b.all blank = true → lineBegin (a ++ b ++ z) (a.length + b.length) = some (some a.length) := by
  intro n
  induction n with
  | zero =>
    intro b z hb _
    have : b = [] := List.length_eq_zero_iff.mp hb
    subst this
    rcases ha with rfl | ⟨a', rfl⟩
    · rfl
    · have := lineBegin_snoc a' z 10
      simp only [show isSpace 10 = false from rfl, Bool.false_eq_true, if_false, if_true] at this
      simpa using this
  | succ n ih =>
    intro b z hb hall
    obtain ⟨b', c, rfl⟩ : ∃ b' c, b = b' ++ [c] := ⟨b.dropLast, b.getLast (by intro h; subst h; simp at hb), (List.dropLast_concat_getLast _).symm⟩
    simp only [List.length_append, List.length_singleton] at hb
    rw [List.all_append, Bool.and_eq_true] at hall
    have hc : isSpace c = true := by rw [isSpace_eq]; simpa using hall.2
    have := lineBegin_snoc (a ++ b') z c
    rw [if_pos hc] at this
    have e1 : a ++ (b' ++ [c]) ++ z = a ++ b' ++ c :: z := by simp
    have e2 : a.length + (b' ++ [c]).length = (a ++ b').length + 1 := by simp; omega
    rw [e1, e2, this]
    split
    · rename_i h
      simp only [List.length_append] at h
      have : a.length = 0 := by omega
      rw [this]
    · have := ih b' (c :: z) (by omega) hall.1
      rw [List.length_append]
      exact this

theorem lineEnd_gap (g z : Bytes) (e : Nat) (h : g.all gap = true) : lineEnd (g ++ 10 :: z) e = some (some (e + g.length + 1)) := by
  induction g generalizing e with
  | nil => rw [List.nil_append, lineEnd.eq_def]; simp [isSpace]
  | cons c g ih =>
    simp only [List.all_cons, Bool.and_eq_true] at h
    have hi := ih (e + 1) h.2
    rw [List.cons_append, lineEnd.eq_def]
    simp only
    by_cases hs : isSpace c = true
    · rw [if_pos hs, hi]; simp; omega
    · have hc : c = 13 := by
        have := h.1
        simp only [gap, Bool.or_eq_true, beq_iff_eq] at this
        simp only [isSpace, Bool.or_eq_true, beq_iff_eq, not_or] at hs
        rcases this with (h | h) | h
        · exact absurd h hs.1
        · exact absurd h hs.2
        · exact h
      subst hc
      rw [if_neg hs, if_neg (by decide), if_pos rfl]
      cases g with
      | nil => simp
      | cons d g =>
        simp only [List.cons_append]
        have hd : d ≠ 10 := by
          intro hd; subst hd
          have := h.2
          simp [gap] at this
        rw [if_neg hd]
        rw [List.cons_append] at hi
        rw [hi]; simp; omega

theorem lineEnd_end (g : Bytes) (e : Nat) (h : g.all gap = true) : lineEnd (g ++ [0]) e = some (some (e + g.length)) := by
  induction g generalizing e with
  | nil => simp [lineEnd, isSpace]
  | cons c g ih =>
    simp only [List.all_cons, Bool.and_eq_true] at h
    have hi := ih (e + 1) h.2
    rw [List.cons_append, lineEnd.eq_def]
    simp only
    by_cases hs : isSpace c = true
    · rw [if_pos hs, hi]; simp; omega
    · have hc : c = 13 := by
        have := h.1
        simp only [gap, Bool.or_eq_true, beq_iff_eq] at this
        simp only [isSpace, Bool.or_eq_true, beq_iff_eq, not_or] at hs
        rcases this with (h | h) | h
        · exact absurd h hs.1
        · exact absurd h hs.2
        · exact h
      subst hc
      rw [if_neg hs, if_neg (by decide), if_pos rfl]
      cases g with
      | nil => simp [lineEnd, isSpace]
      | cons d g =>
        simp only [List.cons_append]
        have hd : d ≠ 10 := by
          intro hd; subst hd
          have := h.2
          simp [gap] at this
        rw [if_neg hd]
        rw [List.cons_append] at hi
        rw [hi]; simp; omega

theorem lineEnd_other (g z : Bytes) (c : UInt8) (e : Nat) (h : g.all gap = true) (hc : gap c = false) (h1 : c ≠ 10) (h2 : c ≠ 0) : lineEnd (g ++ c :: z) e = some none := by
  induction g generalizing e with
  | nil =>
    simp only [gap, Bool.or_eq_false_iff, beq_eq_false_iff_ne] at hc
    simp [lineEnd.eq_def (c :: z), isSpace, hc.1.1, hc.1.2, hc.2, h1, h2]
  | cons c' g ih =>
    simp only [List.all_cons, Bool.and_eq_true] at h
    have hi := ih (e + 1) h.2
    rw [List.cons_append, lineEnd.eq_def]
    simp only
    by_cases hs : isSpace c' = true
    · rw [if_pos hs, hi]
    · have hc' : c' = 13 := by
        have := h.1
        simp only [gap, Bool.or_eq_true, beq_iff_eq] at this
        simp only [isSpace, Bool.or_eq_true, beq_iff_eq, not_or] at hs
        rcases this with (h | h) | h
        · exact absurd h hs.1
        · exact absurd h hs.2
        · exact h
      subst hc'
      rw [if_neg hs, if_neg (by decide), if_pos rfl]
      cases g with
      | nil => simp only [List.nil_append] at hi ⊢; rw [if_neg h1, hi]
      | cons d g =>
        simp only [List.cons_append]
        have hd : d ≠ 10 := by
          intro hd; subst hd
          have := h.2
          simp [gap] at this
        rw [if_neg hd]
        rw [List.cons_append] at hi
        rw [hi]

/-- The text before, in a line, or not. -/
theorem split_pre (pre : Bytes) : (∃ a b, pre = a ++ b ∧ AtLineStart a ∧ b.all blank = true) ∨
    ∃ a c b, pre = a ++ c :: b ∧ blank c = false ∧ c ≠ 10 ∧ b.all blank = true := by
  have key : ∀ (n : Nat) (pre : Bytes), pre.length = n → (∃ a b, pre = a ++ b ∧ AtLineStart a ∧ b.all blank = true) ∨
    ∃ a c b, pre = a ++ c :: b ∧ blank c = false ∧ c ≠ 10 ∧ b.all blank = true := by
    intro n
    induction n with
    | zero =>
      intro pre h
      have : pre = [] := List.length_eq_zero_iff.mp h
      exact Or.inl ⟨[], [], by simp [this], Or.inl rfl, rfl⟩
    | succ n ih =>
      intro pre h
      obtain ⟨p, c, rfl⟩ : ∃ p c, pre = p ++ [c] := ⟨pre.dropLast, pre.getLast (by intro h'; subst h'; simp at h), (List.dropLast_concat_getLast _).symm⟩
      by_cases hc : blank c = true
      · rcases ih p (by simpa using h) with ⟨a, b, h1, h2, h3⟩ | ⟨a, d, b, h1, h2, h3, h4⟩
        · exact Or.inl ⟨a, b ++ [c], by rw [h1]; simp, h2, by rw [List.all_append, h3]; simp [hc]⟩
        · exact Or.inr ⟨a, d, b ++ [c], by rw [h1]; simp, h2, h3, by rw [List.all_append, h4]; simp [hc]⟩
      · by_cases hn : c = 10
        · exact Or.inl ⟨p ++ [c], [], by simp, Or.inr ⟨p, by rw [hn]⟩, rfl⟩
        · exact Or.inr ⟨p, c, [], rfl, by simpa using hc, hn, rfl⟩
  exact key _ pre rfl

theorem lineBegin_other {a : Bytes} {c : UInt8} (hc : blank c = false) (h1 : c ≠ 10) : ∀ (n : Nat) (b z : Bytes), b.length = n → b.all blank = true →
    lineBegin (a ++ c :: b ++ z) (a.length + 1 + b.length) = some none := by
  intro n
  induction n with
  | zero =>
    intro b z hb _
    have : b = [] := List.length_eq_zero_iff.mp hb
    subst this
    have := lineBegin_snoc a z c
    rw [isSpace_eq, hc] at this
    simp only [Bool.false_eq_true, if_false, if_neg h1] at this
    simpa using this
  | succ n ih =>
    intro b z hb hall
    obtain ⟨b', d, rfl⟩ : ∃ b' c, b = b' ++ [c] := ⟨b.dropLast, b.getLast (by intro h; subst h; simp at hb), (List.dropLast_concat_getLast _).symm⟩
    simp only [List.length_append, List.length_singleton] at hb
    rw [List.all_append, Bool.and_eq_true] at hall
    have hd : isSpace d = true := by rw [isSpace_eq]; simpa using hall.2
    have := lineBegin_snoc (a ++ c :: b') z d
    rw [if_pos hd, if_neg (by simp)] at this
    have e1 : a ++ c :: (b' ++ [d]) ++ z = a ++ c :: b' ++ d :: z := by simp
    have e2 : a.length + 1 + (b' ++ [d]).length = (a ++ c :: b').length + 1 := by simp; omega
    rw [e1, e2, this]
    have := ih b' (d :: z) (by omega) hall.1
    rw [show (a ++ c :: b').length = a.length + 1 + b'.length by simp; omega]
    exact this

theorem split_post (post : Bytes) (h0 : (0 : UInt8) ∉ post) : (∃ a b, post = a ++ b ∧ a.all gap = true ∧ (b = [] ∨ ∃ c, b = 10 :: c)) ∨
    ∃ g c z, post = g ++ c :: z ∧ g.all gap = true ∧ gap c = false ∧ c ≠ 10 ∧ c ≠ 0 := by
  have e : post = post.takeWhile gap ++ post.dropWhile gap := (List.takeWhile_append_dropWhile).symm
  have hg : (post.takeWhile gap).all gap = true := by
    rw [List.all_eq_true]
    intro x hx
    exact List.all_eq_true.mp (Str.all_takeWhile gap post) x hx
  cases hd : post.dropWhile gap with
  | nil => exact Or.inl ⟨post.takeWhile gap, [], by rw [← hd]; exact e, hg, Or.inl rfl⟩
  | cons c z =>
    rw [hd] at e
    by_cases hc : c = 10
    · exact Or.inl ⟨_, _, e, hg, Or.inr ⟨z, by rw [hc]⟩⟩
    · refine Or.inr ⟨_, c, z, e, hg, Str.head_dropWhile gap post c z hd, hc, ?_⟩
      intro h; subst h
      exact h0 (by rw [e]; simp)

/-- The surroundings of a tag `tg` laid out as `lay`. -/
theorem standalone_layout {pre post tg : Bytes} {lay : Layout} (h0 : (0 : UInt8) ∉ post) (h : lay.wf pre post) :
    ∃ lead trail, lay.print tg = lead ++ tg ++ trail ∧ PlainText lead ∧ PlainText trail ∧
      (isTagStandalone (pre ++ lay.print tg ++ post) (pre.length + lead.length) (pre.length + lead.length + tg.length) =
        some (some (pre.length, pre.length + (lay.print tg).length)) ∨
      (isTagStandalone (pre ++ lay.print tg ++ post) (pre.length + lead.length) (pre.length + lead.length + tg.length) = some none ∧ lead = [] ∧ trail = [])) := by
  cases lay with
  | inline =>
    refine ⟨[], [], by simp [Layout.print], plain_nil, plain_nil, Or.inr ⟨?_, rfl, rfl⟩⟩
    unfold isTagStandalone
    simp only [Layout.print, List.length_nil, Nat.add_zero]
    rcases split_pre pre with ⟨a, b, h1, h2, h3⟩ | ⟨a, c, b, h1, h2, h3, h4⟩
    · have hb := lineBegin_line h2 _ b (tg ++ post) rfl h3
      have e1 : pre ++ tg ++ post = a ++ b ++ (tg ++ post) := by rw [h1]; simp
      have e2 : pre.length = a.length + b.length := by rw [h1]; simp
      rw [show lineBegin (pre ++ tg ++ post) pre.length = some (some a.length) by rw [e1, e2]; exact hb]
      simp only [Option.bind_eq_bind, Option.bind_some]
      have hd : (pre ++ tg ++ post ++ [0]).drop (pre.length + tg.length) = post ++ [0] := by
        rw [show pre ++ tg ++ post ++ [0] = (pre ++ tg) ++ (post ++ [0]) by simp, List.drop_left' (by simp)]
      rw [hd]
      rcases split_post post h0 with hh | ⟨g, c, z, k1, k2, k3, k4, k5⟩
      · exact absurd ⟨⟨a, b, h1, h2, h3⟩, hh⟩ h
      · rw [k1, List.append_assoc, List.cons_append, lineEnd_other g (z ++ [0]) c _ k2 k3 k4 k5]
        rfl
    · have hb := lineBegin_other (a := a) h2 h3 _ b (tg ++ post) rfl h4
      have e1 : pre ++ tg ++ post = a ++ c :: b ++ (tg ++ post) := by rw [h1]; simp
      have e2 : pre.length = a.length + 1 + b.length := by rw [h1]; simp; omega
      rw [show lineBegin (pre ++ tg ++ post) pre.length = some none by rw [e1, e2]; exact hb]
      rfl
  | line lead trail =>
    obtain ⟨h1, h2, g, h3, h4⟩ := h
    have hlead : PlainText lead := plain_of_all (p := blank) rfl h2
    have hg : PlainText g := plain_of_all (p := gap) rfl h3
    refine ⟨lead, trail, rfl, hlead, ?_, Or.inl ?_⟩
    · rcases h4 with rfl | ⟨rfl, _⟩
      · exact plain_append hg (plain_of_not_mem (by simp))
      · exact hg
    · unfold isTagStandalone
      simp only [Layout.print]
      have hb := lineBegin_line h1 _ lead (tg ++ trail ++ post) rfl h2
      rw [show pre ++ (lead ++ tg ++ trail) ++ post = pre ++ lead ++ (tg ++ trail ++ post) by simp, hb]
      simp only [Option.bind_eq_bind, Option.bind_some]
      have hd : (pre ++ lead ++ (tg ++ trail ++ post) ++ [0]).drop (pre.length + lead.length + tg.length) = trail ++ post ++ [0] := by
        rw [show pre ++ lead ++ (tg ++ trail ++ post) ++ [0] = (pre ++ lead ++ tg) ++ (trail ++ post ++ [0]) by simp, List.drop_left' (by simp; omega)]
      rw [hd]
      rcases h4 with rfl | ⟨rfl, rfl⟩
      · rw [show g ++ [10] ++ post ++ [0] = g ++ 10 :: (post ++ [0]) by simp, lineEnd_gap _ _ _ h3]
        simp; omega
      · rw [List.append_nil, lineEnd_end _ _ h3]
        simp; omega

/-! ## Tags -/

theorem trimLead_blanks (l rest : Bytes) (c : UInt8) (content len : Nat) (h : l.all blank = true) (hc : blank c = false) (hl : l.length ≤ len) :
    trimLead (l ++ c :: rest) content len = some (content + l.length, len - l.length) := by
  induction l generalizing content len with
  | nil => simp [trimLead, isSpace_eq, hc]
  | cons a l ih =>
    simp only [List.all_cons, Bool.and_eq_true] at h
    rw [List.cons_append, trimLead, isSpace_eq, if_pos h.1]
    simp only [List.length_cons] at hl ⊢
    rw [if_neg (by omega), ih _ _ h.2 (by omega)]
    simp; omega

theorem trimTrail_blanks {t : Bytes} {content k : Nat} (hk : k = 0 ∨ ∃ j c, k = j + 1 ∧ rd t (content + j) = some c ∧ blank c = false) : ∀ n,
    (∀ i, k ≤ i → i < k + n → ∃ c, rd t (content + i) = some c ∧ blank c = true) → trimTrail t content (k + n) = some k := by
  intro n
  induction n with
  | zero =>
    intro _
    rcases hk with rfl | ⟨j, c, rfl, h1, h2⟩
    · rfl
    · rw [Nat.add_zero, trimTrail]
      simp only [h1, Option.bind_eq_bind, Option.bind_some, isSpace_eq, h2, Bool.false_eq_true, if_false]
  | succ n ih =>
    intro h
    obtain ⟨c, h1, h2⟩ := h (k + n) (by omega) (by omega)
    rw [← Nat.add_assoc, trimTrail]
    simp only [h1, Option.bind_eq_bind, Option.bind_some, isSpace_eq, h2, if_true]
    exact ih fun i hi hi2 => h i hi (by omega)

/-- The content of a tag between `A` and `125 :: z`. -/
theorem trim_name (A z : Bytes) (n : Name) (h : n.wf) : ∃ (c : Nat × Nat) (l : Nat), trimLead (n.print ++ 125 :: z ++ [0]) A.length n.print.length = some (c.1, c.2) ∧
    trimTrail (A ++ n.print ++ 125 :: z) c.1 c.2 = some l ∧ ((A ++ n.print ++ 125 :: z).drop c.1).take l = n.name := by
  obtain ⟨L, m, R⟩ := n
  obtain ⟨h1, h2, h3, h4, h5⟩ := h
  simp only [Name.print] at *
  cases m with
  | nil =>
    refine ⟨(A.length + (L ++ R).length, 0), 0, ?_, rfl, by simp⟩
    have := trimLead_blanks (L ++ R) (z ++ [0]) 125 A.length (L ++ R).length (by rw [List.all_append, h1, h2]; rfl) rfl (Nat.le_refl _)
    simpa using this
  | cons m0 m =>
    have hm0 : blank m0 = false := h4 m0 rfl
    refine ⟨(A.length + L.length, (m0 :: m).length + R.length), (m0 :: m).length, ?_, ?_, ?_⟩
    · have := trimLead_blanks L (m ++ R ++ 125 :: z ++ [0]) m0 A.length (L ++ m0 :: m ++ R).length h1 hm0 (by simp)
      rw [show L ++ m0 :: m ++ R ++ 125 :: z ++ [0] = L ++ m0 :: (m ++ R ++ 125 :: z ++ [0]) by simp, this]
      simp; omega
    · have hrd : ∀ i, i < (m0 :: m ++ R).length → rd (A ++ (L ++ m0 :: m ++ R) ++ 125 :: z) (A.length + L.length + i) = (m0 :: m ++ R)[i]? := by
        intro i hi
        unfold rd
        rw [show A ++ (L ++ m0 :: m ++ R) ++ 125 :: z ++ [0] = (A ++ L) ++ ((m0 :: m ++ R) ++ (125 :: z ++ [0])) by simp,
          show A.length + L.length + i = (A ++ L).length + i by simp, List.getElem?_append_right (Nat.le_add_right _ _), Nat.add_sub_cancel_left,
          List.getElem?_append_left hi]
      apply trimTrail_blanks
      · refine Or.inr ⟨m.length, (m0 :: m).getLast (by simp), rfl, ?_, h5 _ (List.getLast?_eq_some_getLast _)⟩
        rw [hrd _ (by simp; omega), List.getElem?_append_left (by simp), List.getLast_eq_getElem, List.getElem?_eq_getElem (by simp)]
        simp
      · intro i hi hi2
        have hi3 : i - (m0 :: m).length < R.length := by omega
        refine ⟨R[i - (m0 :: m).length], ?_, List.all_eq_true.mp h2 _ (List.getElem_mem _)⟩
        rw [hrd _ (by simp at hi2 ⊢; omega), List.getElem?_append_right hi, List.getElem?_eq_getElem]
    · rw [show A ++ (L ++ m0 :: m ++ R) ++ 125 :: z = (A ++ L) ++ ((m0 :: m) ++ (R ++ 125 :: z)) by simp, List.drop_left' (by simp), List.take_left' rfl]

/-- The content of any tag. -/
theorem trim_any (A inner z : Bytes) : ∃ (c : Nat × Nat) (l : Nat), trimLead (inner ++ 125 :: z ++ [0]) A.length inner.length = some (c.1, c.2) ∧
    trimTrail (A ++ inner ++ 125 :: z) c.1 c.2 = some l ∧ ∀ n : Name, n.wf → inner = n.print → ((A ++ inner ++ 125 :: z).drop c.1).take l = n.name := by
  by_cases h : ∃ n : Name, n.wf ∧ inner = n.print
  · obtain ⟨n, h1, rfl⟩ := h
    obtain ⟨c, l, a, b, d⟩ := trim_name A z n h1
    refine ⟨c, l, a, b, ?_⟩
    intro n' h' he
    obtain ⟨c', l', a', b', d'⟩ := trim_name A z n' h'
    rw [← he, a] at a'
    simp only [Option.some.injEq, Prod.mk.injEq] at a'
    rw [← he, ← a'.1, ← a'.2, b] at b'
    cases b'
    rw [← he, ← a'.1] at d'
    exact d'
  · obtain ⟨j, h1, h2⟩ := trimLead_ok (inner ++ 125 :: z ++ [0]) A.length inner.length ⟨125, by simp, rfl⟩
    obtain ⟨l, h3, h4⟩ := trimTrail_ok (A ++ inner ++ 125 :: z) (A.length + j) (inner.length - j) (by simp; omega)
    exact ⟨(A.length + j, inner.length - j), l, h2, h4, fun n hn he => absurd ⟨n, hn, he⟩ h⟩

theorem strstr_first {pre acc q : Bytes} (hacc : PlainText acc) : Str.strstr ((pre ++ acc ++ 123 :: 123 :: q).drop pre.length) [123, 123] = some acc.length := by
  rw [List.append_assoc, List.drop_left]
  exact strstr_pair 123 acc q hacc.1 hacc.2

/-- Reading a tag after plain text. -/
theorem nextTag_plain {t pre acc sig inner post : Bytes} {c : UInt8} {ty : TagType} (ht : t = pre ++ acc ++ tag (sig ++ inner) ++ post) (hacc : PlainText acc)
    (hin : CommentText inner) (hc : (sig ++ inner ++ [125]).head? = some c) (hk : tagKind c = (ty, sig.length, none)) :
    ∃ co l, nextTag t pre.length [123, 123] [125, 125] = some (Tag.mk ty (some (pre.length + acc.length))
        (some (pre.length + acc.length + (tag (sig ++ inner)).length)) co l) ∧
      ∀ n : Name, n.wf → inner = n.print → (t.drop co).take l = n.name := by
  obtain ⟨co, l, a, b, d⟩ := trim_any (pre ++ acc ++ 123 :: 123 :: sig) inner (125 :: post)
  have ht' : t = pre ++ acc ++ 123 :: 123 :: sig ++ inner ++ 125 :: 125 :: post := by rw [ht, tag]; simp
  have hs : Str.strstr (t.drop pre.length) [123, 123] = some acc.length := by
    rw [ht', show pre ++ acc ++ 123 :: 123 :: sig ++ inner ++ 125 :: 125 :: post = pre ++ acc ++ 123 :: 123 :: (sig ++ inner ++ 125 :: 125 :: post) by simp]
    exact strstr_first hacc
  have hr : rd t (pre.length + acc.length + 2) = some c := by
    unfold rd
    rw [ht', show pre ++ acc ++ 123 :: 123 :: sig ++ inner ++ 125 :: 125 :: post ++ [0] = (pre ++ acc ++ [123, 123]) ++ ((sig ++ inner ++ [125]) ++ (125 :: post ++ [0])) by simp,
      List.getElem?_append_right (by simp; omega)]
    have e0 : pre.length + acc.length + 2 - (pre ++ acc ++ [123, 123]).length = 0 := by simp; omega
    rw [e0, ← List.head?_eq_getElem?, List.head?_append, hc]
    rfl
  have hA : (pre ++ acc ++ 123 :: 123 :: sig).length = pre.length + acc.length + 2 + sig.length := by simp; omega
  have hde : tagEnd t [125, 125] (pre.length + acc.length + 2 + sig.length) none = some (inner.length, pre.length + acc.length + (tag (sig ++ inner)).length) := by
    have : Str.strstr (t.drop (pre.length + acc.length + 2 + sig.length)) [125, 125] = some inner.length := by
      rw [ht', List.append_assoc (pre ++ acc ++ 123 :: 123 :: sig), List.drop_left' hA]
      exact strstr_pair 125 inner post hin.1 hin.2
    unfold tagEnd
    rw [this]
    simp [tag]; omega
  refine ⟨co.1, l, ?_, ?_⟩
  · unfold nextTag
    rw [hs]
    simp only [List.length_cons, List.length_nil, Nat.zero_add, show (1 : Nat) + 1 = 2 from rfl, hr, Option.bind_eq_bind, Option.bind_some, hk, hde]
    have : (t ++ [0]).drop (pre.length + acc.length + 2 + sig.length) = inner ++ 125 :: (125 :: post) ++ [0] := by
      rw [ht', List.append_assoc, List.append_assoc (pre ++ acc ++ 123 :: 123 :: sig), List.drop_left' hA, ← List.append_assoc]
    rw [this, ← hA, a]
    simp only [Option.bind_some]
    rw [ht', b]
    rfl
  · intro n hn he
    rw [ht']
    exact d n hn he

/-- Reading `{{{name}}}` after plain text. -/
theorem nextTag_triple {t pre acc inner post : Bytes} (ht : t = pre ++ acc ++ tag (123 :: inner ++ [125]) ++ post) (hacc : PlainText acc) (hin : 125 ∉ inner) :
    ∃ co l, nextTag t pre.length [123, 123] [125, 125] = some (Tag.mk .varUnescaped (some (pre.length + acc.length))
        (some (pre.length + acc.length + (tag (123 :: inner ++ [125])).length)) co l) ∧
      ∀ n : Name, n.wf → inner = n.print → (t.drop co).take l = n.name := by
  obtain ⟨co, l, a, b, d⟩ := trim_any (pre ++ acc ++ [123, 123, 123]) inner (125 :: 125 :: post)
  have ht' : t = pre ++ acc ++ [123, 123, 123] ++ inner ++ 125 :: 125 :: 125 :: post := by rw [ht, tag]; simp
  have hs : Str.strstr (t.drop pre.length) [123, 123] = some acc.length := by
    rw [ht', show pre ++ acc ++ [123, 123, 123] ++ inner ++ 125 :: 125 :: 125 :: post = pre ++ acc ++ 123 :: 123 :: (123 :: inner ++ 125 :: 125 :: 125 :: post) by simp]
    exact strstr_first hacc
  have hr : rd t (pre.length + acc.length + 2) = some 123 := by
    unfold rd
    rw [ht', show pre ++ acc ++ [123, 123, 123] ++ inner ++ 125 :: 125 :: 125 :: post ++ [0] = (pre ++ acc ++ [123, 123]) ++ 123 :: (inner ++ 125 :: 125 :: 125 :: post ++ [0]) by simp,
      List.getElem?_append_right (by simp; omega)]
    have e0 : pre.length + acc.length + 2 - (pre ++ acc ++ [123, 123]).length = 0 := by simp; omega
    rw [e0]
    rfl
  have hA : (pre ++ acc ++ [123, 123, 123]).length = pre.length + acc.length + 2 + 1 := by simp; omega
  have hde : tagEnd t [125, 125] (pre.length + acc.length + 2 + 1) (some 125) = some (inner.length, pre.length + acc.length + (tag (123 :: inner ++ [125])).length) := by
    have : Str.strstr (t.drop (pre.length + acc.length + 2 + 1)) [125] = some inner.length := by
      rw [ht', List.append_assoc (pre ++ acc ++ [123, 123, 123]), List.drop_left' hA]
      exact strstr_one 125 inner _ hin
    unfold tagEnd
    simp only [this]
    have hp : List.isPrefixOf [125, 125] (t.drop (pre.length + acc.length + 2 + 1 + inner.length + 1)) = true := by
      rw [ht', show pre ++ acc ++ [123, 123, 123] ++ inner ++ 125 :: 125 :: 125 :: post = (pre ++ acc ++ [123, 123, 123] ++ inner ++ [125]) ++ (125 :: 125 :: post) by simp,
        List.drop_left' (by simp; omega)]
      rfl
    simp only [hp, if_true]
    simp [tag]; omega
  refine ⟨co.1, l, ?_, ?_⟩
  · unfold nextTag
    rw [hs]
    simp only [List.length_cons, List.length_nil, Nat.zero_add, show (1 : Nat) + 1 = 2 from rfl, hr, Option.bind_eq_bind, Option.bind_some,
      show tagKind 123 = (.varUnescaped, 1, some 125) from rfl, hde]
    have : (t ++ [0]).drop (pre.length + acc.length + 2 + 1) = inner ++ 125 :: (125 :: 125 :: post) ++ [0] := by
      rw [ht', List.append_assoc, List.append_assoc (pre ++ acc ++ [123, 123, 123]), List.drop_left' hA, ← List.append_assoc]
    rw [this, ← hA, a]
    simp only [Option.bind_some]
    rw [ht', b]
    rfl
  · intro n hn he
    rw [ht']
    exact d n hn he

theorem nextTag_end {t pre acc : Bytes} (ht : t = pre ++ acc) (hacc : PlainText acc) : nextTag t pre.length [123, 123] [125, 125] = some { type := .none } := by
  unfold nextTag
  rw [ht, List.drop_left, strstr_pair_none 123 acc hacc.1]

/-- The type of a variable tag. -/
def kindType : Kind → TagType
  | .escaped => .var
  | .amp | .triple => .varUnescaped
  | .pretty => .varSerialized
  | .compact => .varSerializedCompact

theorem name_no_brace {n : Name} (h : n.wf) : 125 ∉ n.print := by
  intro hm
  simp only [Name.print, List.mem_append] at hm
  rcases hm with (hm | hm) | hm
  · have := List.all_eq_true.mp h.left _ hm; cases this
  · exact h.brace hm
  · have := List.all_eq_true.mp h.right _ hm; cases this

theorem tagKind_other (c : UInt8) : c ∉ sigils → tagKind c = (.var, 0, none) :=
  Str.byte_all (P := fun c => c ∉ sigils → tagKind c = (.var, 0, none)) (by decide +kernel) c

theorem nextTag_var {t pre acc post : Bytes} {k : Kind} {n : Name} (ht : t = pre ++ acc ++ k.print n.print ++ post) (hacc : PlainText acc) (hn : n.wf)
    (hs : k = .escaped → ∀ c, n.print.head? = some c → c ∉ sigils) :
    ∃ co l, nextTag t pre.length [123, 123] [125, 125] = some (Tag.mk (kindType k) (some (pre.length + acc.length))
        (some (pre.length + acc.length + (k.print n.print).length)) co l) ∧ (t.drop co).take l = n.name := by
  have hb := comment_of_not_mem (name_no_brace hn)
  cases k with
  | escaped =>
    have hc : ∃ c, (([] : Bytes) ++ n.print ++ [125]).head? = some c ∧ tagKind c = (.var, 0, none) := by
      cases hp : n.print with
      | nil => exact ⟨125, rfl, rfl⟩
      | cons c l => exact ⟨c, rfl, tagKind_other c (hs rfl c (by rw [hp]; rfl))⟩
    obtain ⟨c, hc, hk⟩ := hc
    obtain ⟨co, l, h1, h2⟩ := nextTag_plain (t := t) (pre := pre) (acc := acc) (sig := []) (inner := n.print) (post := post) ht hacc hb hc hk
    exact ⟨co, l, h1, h2 n hn rfl⟩
  | amp =>
    obtain ⟨co, l, h1, h2⟩ := nextTag_plain (t := t) (pre := pre) (acc := acc) (sig := [38]) (inner := n.print) (post := post) ht hacc hb rfl rfl
    exact ⟨co, l, h1, h2 n hn rfl⟩
  | pretty =>
    obtain ⟨co, l, h1, h2⟩ := nextTag_plain (t := t) (pre := pre) (acc := acc) (sig := [37]) (inner := n.print) (post := post) ht hacc hb rfl rfl
    exact ⟨co, l, h1, h2 n hn rfl⟩
  | compact =>
    obtain ⟨co, l, h1, h2⟩ := nextTag_plain (t := t) (pre := pre) (acc := acc) (sig := [36]) (inner := n.print) (post := post) ht hacc hb rfl rfl
    exact ⟨co, l, h1, h2 n hn rfl⟩
  | triple =>
    obtain ⟨co, l, h1, h2⟩ := nextTag_triple (t := t) (pre := pre) (acc := acc) (inner := n.print) (post := post) ht hacc (name_no_brace hn)
    exact ⟨co, l, h1, h2 n hn rfl⟩

/-- Reading a tag with a layout after plain text, and its surroundings. -/
theorem nextTag_lay {t pre acc post inner : Bytes} {lay : Layout} {c : UInt8} {ty : TagType} (h0 : (0 : UInt8) ∉ t)
    (ht : t = pre ++ acc ++ lay.print (tag (c :: inner)) ++ post) (hacc : PlainText acc) (hin : CommentText inner) (hk : tagKind c = (ty, 1, none))
    (hty : isTagTypeRenderable ty = false) (hlay : lay.wf (pre ++ acc) post) :
    ∃ lead trail co l, lay.print (tag (c :: inner)) = lead ++ tag (c :: inner) ++ trail ∧ PlainText lead ∧ PlainText trail ∧
      nextTag t pre.length [123, 123] [125, 125] = some (Tag.mk ty (some (pre.length + (acc ++ lead).length))
        (some (pre.length + (acc ++ lead).length + (tag (c :: inner)).length)) co l) ∧
      bounds t (Tag.mk ty (some (pre.length + (acc ++ lead).length)) (some (pre.length + (acc ++ lead).length + (tag (c :: inner)).length)) co l) =
        some (some (pre.length + acc.length), some (pre.length + acc.length + (lay.print (tag (c :: inner))).length)) ∧
      ∀ n : Name, n.wf → inner = n.print → (t.drop co).take l = n.name := by
  have h0' : (0 : UInt8) ∉ post := fun hm => h0 (by rw [ht]; simp [hm])
  obtain ⟨lead, trail, e1, e2, e3, e4⟩ := standalone_layout (tg := tag (c :: inner)) h0' hlay
  obtain ⟨co, l, f1, f2⟩ := nextTag_plain (t := t) (pre := pre) (acc := acc ++ lead) (sig := [c]) (inner := inner) (post := trail ++ post)
    (by rw [ht, e1]; simp) (plain_append hacc e2) hin rfl hk
  refine ⟨lead, trail, co, l, e1, e2, e3, f1, ?_, f2⟩
  unfold bounds
  simp only [hty]
  rw [show pre.length + (acc ++ lead).length = (pre ++ acc).length + lead.length by simp; omega]
  rcases e4 with e4 | ⟨e4, e5, e6⟩
  · rw [ht, e4]
    simp
  · rw [ht, e4, e1]
    simp [e5, e6]

/-! ## Objects that are iterated over -/

theorem print_at {n : Name} (h : n.wf) : n.print = [64] ↔ n = ⟨[], [64], []⟩ := by
  obtain ⟨L, m, R⟩ := n
  constructor
  · intro e
    simp only [Name.print] at e
    have hL : L = [] := by
      cases L with
      | nil => rfl
      | cons a l =>
        have := h.left
        simp only [List.cons_append, List.cons.injEq] at e
        simp only [List.all_cons, Bool.and_eq_true] at this
        rw [e.1] at this
        exact absurd this.1 (by decide)
    subst hL
    cases m with
    | nil =>
      have := h.right
      simp only [List.nil_append] at e
      rw [e] at this
      exact absurd this (by decide)
    | cons a m =>
      simp only [List.nil_append, List.cons_append, List.cons.injEq, List.append_eq_nil_iff] at e
      obtain ⟨rfl, rfl, rfl⟩ := e
      rfl
  · intro e; rw [e]; rfl

theorem prefix_close {inner post : Bytes} (h : 125 ∉ inner) : [125, 125] <+: (inner ++ 125 :: 125 :: post) ↔ inner = [] := by
  constructor
  · intro hp
    cases inner with
    | nil => rfl
    | cons a l =>
      simp only [List.cons_append, List.cons_prefix_cons] at hp
      exact absurd hp.1 (fun e => h (by simp [← e]))
  · rintro rfl; exact ⟨post, rfl⟩

theorem prefix_at {inner post q : Bytes} (h : 125 ∉ inner) : (64 :: 125 :: q) <+: (inner ++ 125 :: post) ↔ inner = [64] ∧ q <+: post := by
  constructor
  · intro hp
    cases inner with
    | nil => simp only [List.nil_append, List.cons_prefix_cons] at hp; exact absurd hp.1 (by decide)
    | cons a l =>
      simp only [List.cons_append, List.cons_prefix_cons] at hp
      cases l with
      | nil => simp only [List.nil_append, List.cons_prefix_cons] at hp; exact ⟨by rw [hp.1], hp.2.2⟩
      | cons b l =>
        simp only [List.cons_append, List.cons_prefix_cons] at hp
        exact absurd hp.2.1 (fun e => h (by simp [← e]))
  · rintro ⟨rfl, hq⟩
    rw [List.cons_append, List.nil_append, List.cons_prefix_cons, List.cons_prefix_cons]
    exact ⟨rfl, rfl, hq⟩

theorem isKey_var {t A post : Bytes} {k : Kind} {n : Name} (ht : t = A ++ k.print n.print ++ post) (hn : n.wf) (hk : k = .escaped ∨ k = .amp ∨ k = .triple) :
    isKeyExtensionVar t (kindType k) A.length [123, 123] [125, 125] = some (decide (n = ⟨[], [64], []⟩)) := by
  have hb := name_no_brace hn
  have hd : ∀ X Y : Bytes, t = X ++ Y → ∀ i, X.length = i → t.drop i = Y := by
    intro X Y e i hi
    rw [e, List.drop_left' hi]
  have hrd : ∀ X Y : Bytes, ∀ c, t = X ++ c :: Y → ∀ i, X.length = i → rd t i = some c := by
    intro X Y c e i hi
    unfold rd
    rw [e, ← hi]
    simp
  rcases hk with rfl | rfl | rfl
  · -- {{@}}
    have e1 : t = A ++ (123 :: 123 :: (n.print ++ 125 :: 125 :: post)) := by rw [ht]; simp [Kind.print, tag]
    have e2 : t = (A ++ [123, 123]) ++ (n.print ++ 125 :: 125 :: post) := by rw [ht]; simp [Kind.print, tag]
    have s1 : startsAt t A.length [123, 123] = some true := by
      rw [startsAt_eq, hd _ _ e1 _ rfl]; rfl
    unfold isKeyExtensionVar
    simp only [kindType, if_true, s1, Option.bind_eq_bind, Option.bind_some, List.length_cons, List.length_nil, Nat.zero_add, show (1 : Nat) + 1 = 2 from rfl,
      Bool.not_true, Bool.false_eq_true, if_false]
    cases hp : n.print with
    | nil =>
      rw [hp] at e2
      rw [hrd _ _ 125 e2 (A.length + 2) (by simp)]
      simp only [Option.bind_some]
      rw [if_pos (by decide)]
      congr 1
      symm
      rw [decide_eq_false_iff_not, ← print_at hn, hp]
      simp
    | cons a l =>
      rw [hp] at e2 hb
      rw [hrd _ _ a e2 (A.length + 2) (by simp)]
      simp only [Option.bind_some]
      by_cases ha : a = 64
      · subst ha
        rw [if_neg (by simp), startsAt_eq, hd (A ++ [123, 123] ++ [64]) (l ++ 125 :: 125 :: post) (by rw [e2]; simp) _ (by simp)]
        congr 1
        rw [Bool.eq_iff_iff, decide_eq_true_iff, ← print_at hn, hp, List.isPrefixOf_iff_prefix, prefix_close (fun h => hb (by simp [h]))]
        simp
      · rw [if_pos ha]
        congr 1
        symm
        rw [decide_eq_false_iff_not, ← print_at hn, hp]
        simp [ha]
  · -- {{&@}}
    have e1 : t = A ++ (123 :: 123 :: 38 :: (n.print ++ 125 :: 125 :: post)) := by rw [ht]; simp [Kind.print, tag]
    have s1 : startsAt t A.length [123, 123] = some true := by
      rw [startsAt_eq, hd _ _ e1 _ rfl]; rfl
    have s2 : startsAt t (A.length + 2) [38, 64] = some (decide (n.print.head? = some 64)) := by
      rw [startsAt_eq, hd (A ++ [123, 123]) (38 :: (n.print ++ 125 :: 125 :: post)) (by rw [e1]; simp) _ (by simp)]
      congr 1
      rw [Bool.eq_iff_iff, decide_eq_true_iff, List.isPrefixOf_iff_prefix, List.cons_prefix_cons]
      cases hp : n.print with
      | nil => simp
      | cons a l => simp [eq_comm, List.cons_prefix_cons]
    have s4 : startsAt t A.length [123, 123, 123, 64, 125, 125, 125] = some false := by
      rw [startsAt_eq, hd _ _ e1 _ rfl]
      rfl
    unfold isKeyExtensionVar
    rw [if_neg (by simp [kindType]), if_pos (by rfl)]
    simp only [s1, Option.bind_eq_bind, Option.bind_some, List.length_cons, List.length_nil, Nat.zero_add, show (1 : Nat) + 1 = 2 from rfl, if_true, s2]
    by_cases hx : n.print.head? = some 64
    · obtain ⟨l, hl⟩ := List.head?_eq_some_iff.mp hx
      have s3 : startsAt t (A.length + 2 + 2) [125, 125] = some (decide (l = [])) := by
        rw [startsAt_eq, hd (A ++ [123, 123] ++ [38, 64]) (l ++ 125 :: 125 :: post) (by rw [e1, hl]; simp) _ (by simp)]
        congr 1
        rw [Bool.eq_iff_iff, decide_eq_true_iff, List.isPrefixOf_iff_prefix, prefix_close (fun h => hb (by rw [hl]; simp [h]))]
      rw [show decide (n.print.head? = some 64) = true from decide_eq_true hx]
      simp only [if_true, s3, Option.bind_some, s4]
      have : (n = ⟨[], [64], []⟩) ↔ l = [] := by rw [← print_at hn, hl]; simp
      by_cases hle : l = []
      · simp [hle, this]
      · simp [hle, this]
    · rw [show decide (n.print.head? = some 64) = false from decide_eq_false hx]
      have : ¬ n = ⟨[], [64], []⟩ := by
        rw [← print_at hn]
        intro e; exact hx (by rw [e]; rfl)
      simp [s4, this]
  · -- {{{@}}}
    have e1 : t = A ++ (123 :: 123 :: 123 :: (n.print ++ 125 :: 125 :: 125 :: post)) := by rw [ht]; simp [Kind.print, tag]
    have s1 : startsAt t A.length [123, 123] = some true := by
      rw [startsAt_eq, hd _ _ e1 _ rfl]; rfl
    have s2 : startsAt t (A.length + 2) [38, 64] = some false := by
      rw [startsAt_eq, hd (A ++ [123, 123]) (123 :: (n.print ++ 125 :: 125 :: 125 :: post)) (by rw [e1]; simp) _ (by simp)]
      rfl
    have s4 : startsAt t A.length [123, 123, 123, 64, 125, 125, 125] = some (decide (n = ⟨[], [64], []⟩)) := by
      rw [startsAt_eq, hd _ _ e1 _ rfl]
      congr 1
      rw [Bool.eq_iff_iff, decide_eq_true_iff, List.isPrefixOf_iff_prefix, List.cons_prefix_cons, List.cons_prefix_cons, List.cons_prefix_cons, prefix_at hb, print_at hn]
      simp
    unfold isKeyExtensionVar
    rw [if_neg (by simp [kindType]), if_pos (by rfl)]
    simp only [s1, Option.bind_eq_bind, Option.bind_some, List.length_cons, List.length_nil, Nat.zero_add, show (1 : Nat) + 1 = 2 from rfl, if_true, s2,
      Bool.false_eq_true, if_false, and_self, s4]

theorem layout_length (lay : Layout) (tg : Bytes) : tg.length ≤ (lay.print tg).length := by
  cases lay <;> simp [Layout.print]; omega

theorem shouldIterate_tree {t : Bytes} (h0 : (0 : UInt8) ∉ t) : ∀ (body : Tpl) (pre acc post : Bytes) (fuel : Nat) (clay : Layout) (cl : Name) (more : Bytes),
    t = pre ++ acc ++ body.print ++ post → post = clay.print (closeTag cl) ++ more → PlainText acc → body.wf (pre ++ acc) post →
    clay.wf (pre ++ acc ++ body.print) more → cl.wf → t.length < fuel + pre.length →
    shouldIterate t fuel pre.length [123, 123] [125, 125] = some (some body.usesKey) := by
  intro body
  induction body with
  | nil =>
    intro pre acc post fuel clay cl more ht hpost hacc _ hclay hcl hf
    obtain ⟨fuel, rfl⟩ : ∃ f, fuel = f + 1 := ⟨fuel - 1, by rw [ht] at hf; simp at hf; omega⟩
    have ht' : t = pre ++ acc ++ clay.print (tag (47 :: cl.print)) ++ more := by rw [ht, hpost]; simp [Tpl.print, closeTag]
    obtain ⟨lead, trail, co, l, _, _, _, f1, _, _⟩ := nextTag_lay (ty := .sectionEnd) h0 ht' hacc (comment_of_not_mem (name_no_brace hcl)) rfl rfl
      (by simpa [Tpl.print] using hclay)
    rw [shouldIterate, f1]
    rfl
  | text s rest ih =>
    intro pre acc post fuel clay cl more ht hpost hacc hwf hclay hcl hf
    exact ih pre (acc ++ s) post fuel clay cl more (by rw [ht]; simp [Tpl.print]) hpost (plain_append hacc hwf.1) (by rw [← List.append_assoc]; exact hwf.2)
      (by simpa [Tpl.print] using hclay) hcl hf
  | var k n rest ih =>
    intro pre acc post fuel clay cl more ht hpost hacc hwf hclay hcl hf
    obtain ⟨fuel, rfl⟩ : ∃ f, fuel = f + 1 := ⟨fuel - 1, by rw [ht] at hf; simp at hf; omega⟩
    have ht' : t = pre ++ acc ++ k.print n.print ++ (rest.print ++ post) := by rw [ht]; simp [Tpl.print]
    obtain ⟨co, l, f1, f2⟩ := nextTag_var ht' hacc hwf.1 hwf.2.1
    have hgo : shouldIterate t fuel (pre.length + acc.length + (k.print n.print).length) [123, 123] [125, 125] = some (some rest.usesKey) := by
      have := ih (pre ++ acc ++ k.print n.print) [] post fuel clay cl more (by rw [ht]; simp [Tpl.print]) hpost plain_nil (by simpa using hwf.2.2)
        (by simpa [Tpl.print] using hclay) hcl (by
          have : 0 < (k.print n.print).length := by cases k <;> simp [Kind.print, tag]
          simp; omega)
      rw [← this]; congr 1; simp; omega
    rw [shouldIterate, f1]
    simp only [Option.bind_eq_bind, Option.bind_some, Tpl.usesKey]
    have hvar : (k = .escaped ∨ k = .amp ∨ k = .triple) → ((some (pre.length + acc.length)).bind fun b => (isKeyExtensionVar t (kindType k) b [123, 123] [125, 125]).bind fun kk =>
        if kk = true then some (some true) else (some (pre.length + acc.length + (k.print n.print).length)).bind fun fin => shouldIterate t fuel fin [123, 123] [125, 125]) =
        some (some (((k = .escaped || k = .amp || k = .triple) && n = ⟨[], [64], []⟩) || rest.usesKey)) := by
      intro hk
      rw [Option.bind_some, show pre.length + acc.length = (pre ++ acc).length by simp, isKey_var ht' hwf.1 hk, Option.bind_some, Option.bind_some]
      rw [List.length_append, hgo]
      have : (decide (k = .escaped) || decide (k = .amp) || decide (k = .triple)) = true := by
        rcases hk with h | h | h <;> simp [h]
      rw [this]
      by_cases hn : n = ⟨[], [64], []⟩ <;> simp [hn]
    cases k with
    | escaped => exact hvar (Or.inl rfl)
    | amp => exact hvar (Or.inr (Or.inl rfl))
    | triple => exact hvar (Or.inr (Or.inr rfl))
    | pretty => simp only [kindType, Option.bind_some]; rw [hgo]; simp
    | compact => simp only [kindType, Option.bind_some]; rw [hgo]; simp
  | comment lay s rest ih =>
    intro pre acc post fuel clay cl more ht hpost hacc hwf hclay hcl hf
    obtain ⟨fuel, rfl⟩ : ∃ f, fuel = f + 1 := ⟨fuel - 1, by rw [ht] at hf; simp at hf; omega⟩
    have ht' : t = pre ++ acc ++ lay.print (tag (33 :: s)) ++ (rest.print ++ post) := by rw [ht]; simp [Tpl.print]
    obtain ⟨lead, trail, co, l, e1, e2, e3, f1, _, _⟩ := nextTag_lay (ty := .comment) h0 ht' hacc hwf.1 rfl rfl hwf.2.1
    rw [shouldIterate, f1]
    simp only [Option.bind_eq_bind, Option.bind_some, Tpl.usesKey]
    have := ih (pre ++ acc ++ lead ++ tag (33 :: s)) trail post fuel clay cl more (by rw [ht]; simp [Tpl.print, e1]) hpost e3
      (by have := hwf.2.2; rw [e1] at this; simpa using this) (by rw [Tpl.print, e1] at hclay; simpa using hclay) hcl (by
          have : 0 < (tag (33 :: s)).length := by simp [tag]
          simp; omega)
    rw [← this]; congr 1; simp; omega
  | «section» inv lay n body clay' cl' rest ihb _ =>
    intro pre acc post fuel clay cl more ht hpost hacc hwf hclay hcl hf
    obtain ⟨fuel, rfl⟩ : ∃ f, fuel = f + 1 := ⟨fuel - 1, by rw [ht] at hf; simp at hf; omega⟩
    have ht' : t = pre ++ acc ++ lay.print (tag ((if inv then 94 else 35) :: n.print)) ++ (body.print ++ clay'.print (closeTag cl') ++ rest.print ++ post) := by
      rw [ht]; simp [Tpl.print, openTag]
    obtain ⟨lead, trail, co, l, e1, e2, e3, f1, _, _⟩ := nextTag_lay (ty := if inv then .inverted else .section) h0 ht' hacc (comment_of_not_mem (name_no_brace hwf.1))
      (by cases inv <;> rfl) (by cases inv <;> rfl) hwf.2.2.1
    rw [shouldIterate, f1]
    simp only [Option.bind_eq_bind, Option.bind_some, Tpl.usesKey]
    obtain ⟨w1, w2, w3, w4, w5, w6⟩ := hwf
    cases inv with
    | false => rfl
    | true =>
      simp only [openTag, if_true] at e1 w4 w5 w6 ⊢
      have := ihb (pre ++ acc ++ lead ++ tag (94 :: n.print)) trail (clay'.print (closeTag cl') ++ rest.print ++ post) fuel clay' cl' (rest.print ++ post)
        (by rw [ht']; simp [e1]) (by simp) e3 (by rw [e1] at w4; simpa using w4) (by rw [e1] at w5; simpa using w5) w2 (by
          have : 0 < (tag (94 :: n.print)).length := by simp [tag]
          simp; omega)
      rw [Bool.true_and, ← this]
      have e : pre.length + (acc ++ lead).length + (tag (94 :: n.print)).length = (pre ++ acc ++ lead ++ tag (94 :: n.print)).length := by simp; omega
      simp only [e]
      rfl

end Mustache
