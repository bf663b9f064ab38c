import Verif.Spec.SafeOpen
/-! # Lemmas for C50 -/
namespace SafeOpen
open SafeOpenSpec

theorem walk_ok (fs : FS) (k : Nat → List Name → Except Nat Nat) (P : Nat → List Name → Nat → Nat → Prop) (hk : ∀ d cs j, k d cs = .ok j ↔ ∃ m, P d cs m j)
    (cs : List Name) : ∀ d j, walk fs k cs d = .ok j ↔
      (∃ i, Resolves fs d cs 0 i ∧ i = j) ∨ ∃ pre c t post d' i m, cs = pre ++ c :: post ∧ Resolves fs d pre 0 d' ∧ entry fs d' c = .ok i ∧ IsLink fs i t ∧
        P (if t.head? = some 47 then fs.root else d') (comps t ++ post) m j := by
  induction cs with
  | nil =>
    intro d j
    simp only [walk]
    constructor
    · intro h; cases h; exact .inl ⟨_, .here _, rfl⟩
    · rintro (⟨i, h, rfl⟩ | ⟨pre, c, t, post, d', i, m, h, _⟩)
      · cases h; rfl
      · simp at h
  | cons c cs ih =>
    intro d j
    simp only [walk]
    split
    · rename_i e he
      constructor
      · intro h; cases h
      · rintro (⟨i, h, rfl⟩ | ⟨pre, c', t, post, d', i, m, h, hr, h1, h2, _⟩)
        · cases h with
          | name _ _ _ i _ _ h1 => rw [he] at h1; cases h1
        · cases pre with
          | nil =>
            simp only [List.nil_append, List.cons.injEq] at h
            obtain ⟨rfl, rfl⟩ := h
            cases hr; rw [he] at h1; cases h1
          | cons p ps =>
            simp only [List.cons_append, List.cons.injEq] at h
            obtain ⟨rfl, rfl⟩ := h
            cases hr with
            | name _ _ _ i _ _ h1 => rw [he] at h1; cases h1
    · rename_i i he
      split
      · rename_i t u g hn
        rw [hk]
        constructor
        · rintro ⟨m, hm⟩
          exact .inr ⟨[], c, t, cs, d, i, m, rfl, .here _, he, ⟨u, g, hn⟩, hm⟩
        · rintro (⟨i', h, rfl⟩ | ⟨pre, c', t', post, d', i', m, h, hr, h1, h2, h3⟩)
          · cases h with
            | name _ _ _ i _ _ h1 h2 => rw [he] at h1; cases h1; exact absurd ⟨u, g, hn⟩ (h2 t)
          · cases pre with
            | nil =>
              simp only [List.nil_append, List.cons.injEq] at h
              obtain ⟨rfl, rfl⟩ := h
              cases hr
              rw [he] at h1; cases h1
              obtain ⟨u', g', h2⟩ := h2
              rw [hn] at h2; cases h2
              exact ⟨m, h3⟩
            | cons p ps =>
              simp only [List.cons_append, List.cons.injEq] at h
              obtain ⟨rfl, rfl⟩ := h
              cases hr with
              | name _ _ _ i _ _ h1 h2 => rw [he] at h1; cases h1; exact absurd ⟨u, g, hn⟩ (h2 t)
      · rename_i hn
        have hnl : ∀ t, ¬ IsLink fs i t := by rintro t ⟨u, g, h⟩; exact hn t u g h
        rw [ih]
        constructor
        · rintro (⟨i', h, rfl⟩ | ⟨pre, c', t, post, d', i', m, h, hr, h1, h2, h3⟩)
          · exact .inl ⟨_, .name _ _ _ _ _ _ he hnl h, rfl⟩
          · exact .inr ⟨c :: pre, c', t, post, d', i', m, by rw [h]; rfl, .name _ _ _ _ _ _ he hnl hr, h1, h2, h3⟩
        · rintro (⟨i', h, rfl⟩ | ⟨pre, c', t, post, d', i', m, h, hr, h1, h2, h3⟩)
          · cases h with
            | name _ _ _ i2 _ _ h1 h2 h3 => rw [he] at h1; cases h1; exact .inl ⟨_, h3, rfl⟩
          · cases pre with
            | nil =>
              simp only [List.nil_append, List.cons.injEq] at h
              obtain ⟨rfl, rfl⟩ := h
              cases hr
              rw [he] at h1; cases h1
              exact absurd h2 (hnl t)
            | cons p ps =>
              simp only [List.cons_append, List.cons.injEq] at h
              obtain ⟨rfl, rfl⟩ := h
              cases hr with
              | name _ _ _ i2 _ _ h4 h5 h6 =>
                rw [he] at h4; cases h4
                exact .inr ⟨ps, c', t, post, d', i', m, rfl, h6, h1, h2, h3⟩

theorem resolves_append {fs : FS} {d : Nat} {as bs : List Name} {m1 k : Nat} (h : Resolves fs d as m1 k) :
    ∀ {m2 j}, Resolves fs k bs m2 j → Resolves fs d (as ++ bs) (m1 + m2) j := by
  induction h with
  | here d => intro m2 j h2; simpa using h2
  | name d c cs i n j h1 h2 _ ih => intro m2 j' h3; exact .name _ _ _ _ _ _ h1 h2 (ih h3)
  | link d c cs i n j t h1 h2 _ ih =>
    intro m2 j' h3
    have := ih h3
    rw [show n + 1 + m2 = (n + m2) + 1 by omega]
    rw [List.append_assoc] at this
    exact .link _ _ _ _ _ _ _ h1 h2 this

theorem resolves_split {fs : FS} {d : Nat} {cs : List Name} {n j : Nat} (h : Resolves fs d cs n j) :
    ∀ {pre post}, cs = pre ++ post → ∃ n1 n2 k, Resolves fs d pre n1 k ∧ Resolves fs k post n2 j ∧ n = n1 + n2 := by
  induction h with
  | here d =>
    intro pre post h
    obtain ⟨rfl, rfl⟩ := List.append_eq_nil_iff.mp h.symm
    exact ⟨0, 0, d, .here _, .here _, rfl⟩
  | name d c cs i n j h1 h2 h3 ih =>
    intro pre post h
    cases pre with
    | nil => simp only [List.nil_append] at h; subst h; exact ⟨0, n, d, .here _, .name _ _ _ _ _ _ h1 h2 h3, by omega⟩
    | cons p ps =>
      simp only [List.cons_append, List.cons.injEq] at h
      obtain ⟨rfl, rfl⟩ := h
      obtain ⟨n1, n2, k, r1, r2, e⟩ := ih rfl
      exact ⟨n1, n2, k, .name _ _ _ _ _ _ h1 h2 r1, r2, e⟩
  | link d c cs i n j t h1 h2 h3 ih =>
    intro pre post h
    cases pre with
    | nil => simp only [List.nil_append] at h; subst h; exact ⟨0, n + 1, d, .here _, .link _ _ _ _ _ _ _ h1 h2 h3, by omega⟩
    | cons p ps =>
      simp only [List.cons_append, List.cons.injEq] at h
      obtain ⟨rfl, rfl⟩ := h
      obtain ⟨n1, n2, k, r1, r2, e⟩ := ih (pre := comps t ++ ps) (post := post) (by simp)
      exact ⟨n1 + 1, n2, k, .link _ _ _ _ _ _ _ h1 h2 r1, r2, by omega⟩

theorem resolves_det {fs : FS} {d : Nat} {cs : List Name} {n j : Nat} (h : Resolves fs d cs n j) :
    ∀ {n' j'}, Resolves fs d cs n' j' → n = n' ∧ j = j' := by
  induction h with
  | here d => intro n' j' h; cases h; exact ⟨rfl, rfl⟩
  | name d c cs i n j h1 h2 h3 ih =>
    intro n' j' h
    cases h with
    | name _ _ _ i' _ _ h4 h5 h6 => rw [h1] at h4; cases h4; exact ih h6
    | link _ _ _ i' n _ t h4 h5 h6 => rw [h1] at h4; cases h4; exact absurd h5 (h2 t)
  | link d c cs i n j t h1 h2 h3 ih =>
    intro n' j' h
    cases h with
    | name _ _ _ i' _ _ h4 h5 h6 => rw [h1] at h4; cases h4; exact absurd h2 (h5 t)
    | link _ _ _ i' n _ t' h4 h5 h6 =>
      rw [h1] at h4; cases h4
      obtain ⟨u, g, h2⟩ := h2
      obtain ⟨u', g', h5⟩ := h5
      rw [h2] at h5; cases h5
      obtain ⟨rfl, rfl⟩ := ih h6
      exact ⟨rfl, rfl⟩

/-- A walk with links has a first link. -/
theorem resolves_first {fs : FS} {d : Nat} {cs : List Name} {n j : Nat} (h : Resolves fs d cs n j) :
    (n = 0) ∨ ∃ pre c t post d' i m, cs = pre ++ c :: post ∧ Resolves fs d pre 0 d' ∧ entry fs d' c = .ok i ∧ IsLink fs i t ∧
        Resolves fs (if t.head? = some 47 then fs.root else d') (comps t ++ post) m j ∧ n = m + 1 := by
  induction h with
  | here d => exact .inl rfl
  | name d c cs i n j h1 h2 h3 ih =>
    rcases ih with h | ⟨pre, c', t, post, d', i', m, e, r, a, b, g, f⟩
    · exact .inl h
    · exact .inr ⟨c :: pre, c', t, post, d', i', m, by rw [e]; rfl, .name _ _ _ _ _ _ h1 h2 r, a, b, g, f⟩
  | link d c cs i n j t h1 h2 h3 ih =>
    exact .inr ⟨[], c, t, cs, d, i, n, rfl, .here _, h1, h2, h3, rfl⟩

theorem resolve_ok (fs : FS) (n : Nat) : ∀ d cs j, resolve fs n d cs = .ok j ↔ ∃ m, m ≤ n ∧ Resolves fs d cs m j := by
  induction n with
  | zero =>
    intro d cs j
    rw [resolve, walk_ok fs _ (fun _ _ _ _ => False) (by simp)]
    constructor
    · rintro (⟨i, h, rfl⟩ | ⟨_, _, _, _, _, _, _, _, _, _, _, h⟩)
      · exact ⟨0, Nat.le_refl _, h⟩
      · exact h.elim
    · rintro ⟨m, hm, h⟩
      have : m = 0 := by omega
      subst this
      exact .inl ⟨j, h, rfl⟩
  | succ n ih =>
    intro d cs j
    rw [resolve, walk_ok fs _ (fun d cs m j => m ≤ n ∧ Resolves fs d cs m j) (by intro d cs j; exact ih d cs j)]
    constructor
    · rintro (⟨i, h, rfl⟩ | ⟨pre, c, t, post, d', i, m, rfl, hr, h1, h2, h3, h4⟩)
      · exact ⟨0, by omega, h⟩
      · refine ⟨m + 1, by omega, ?_⟩
        have := resolves_append hr (Resolves.link _ _ _ _ _ _ _ h1 h2 h4)
        simpa using this
    · rintro ⟨m, hm, h⟩
      rcases resolves_first h with rfl | ⟨pre, c, t, post, d', i, m', rfl, hr, h1, h2, h3, rfl⟩
      · exact .inl ⟨j, h, rfl⟩
      · exact .inr ⟨pre, c, t, post, d', i, m', rfl, hr, h1, h2, by omega, h3⟩

/-! ## Components -/

theorem pieces_name (name : Name) (h : (47 : UInt8) ∉ name) : ∀ cur rest, pieces cur (name ++ rest) = pieces (cur ++ name) rest := by
  induction name with
  | nil => intro cur rest; simp
  | cons c cs ih =>
    intro cur rest
    simp only [List.mem_cons, not_or] at h
    rw [List.cons_append, pieces, if_neg (Ne.symm h.1), ih h.2]; simp

theorem pieces_slashes (rest : List UInt8) : pieces [] rest = pieces [] (rest.dropWhile (· == 47)) := by
  induction rest with
  | nil => rfl
  | cons c s ih =>
    rw [List.dropWhile_cons]
    by_cases h : c = 47
    · subst h; simp [pieces, ih]
    · simp [h]

theorem takeWhile_no47 (s : List UInt8) : (47 : UInt8) ∉ s.takeWhile (· ≠ 47) := by
  induction s with
  | nil => simp
  | cons c s ih =>
    rw [List.takeWhile_cons]
    by_cases h : c = 47
    · simp [h]
    · simp only [ne_eq, h, not_false_eq_true, decide_true, if_true, List.mem_cons, not_or]
      exact ⟨Ne.symm h, ih⟩

theorem dropWhile_head (s : List UInt8) (c : UInt8) (t : List UInt8) (h : s.dropWhile (· == 47) = c :: t) : c ≠ 47 := by
  induction s with
  | nil => simp at h
  | cons a s ih =>
    rw [List.dropWhile_cons] at h
    split at h
    · exact ih h
    · rename_i ha
      cases h
      simpa using ha

theorem getLast_dropWhile (s : List UInt8) (h : s.dropWhile (· == 47) ≠ []) : (s.dropWhile (· == 47)).getLast? = s.getLast? := by
  induction s with
  | nil => rfl
  | cons a s ih =>
    rw [List.dropWhile_cons] at h ⊢
    split
    · rename_i ha
      rw [if_pos ha] at h
      rw [ih h]
      cases s with
      | nil => simp at h
      | cons b s => simp [List.getLast?_cons_cons]
    · rfl

theorem getLast_all47 (s : List UInt8) (h : s.dropWhile (· == 47) = []) (hne : s ≠ []) : s.getLast? = some 47 := by
  induction s with
  | nil => exact absurd rfl hne
  | cons a s ih =>
    rw [List.dropWhile_cons] at h
    split at h
    · rename_i ha
      cases s with
      | nil => simp at ha; simp [ha]
      | cons b s => rw [List.getLast?_cons_cons]; exact ih h (by simp)
    · cases h

theorem tail_slash (s : List UInt8) : s.dropWhile (· ≠ 47) = [] ∨ ∃ t, s.dropWhile (· ≠ 47) = 47 :: t := by
  induction s with
  | nil => simp
  | cons a s ih =>
    rw [List.dropWhile_cons]
    by_cases h : a = 47
    · subst h; simp
    · simpa [h] using ih

theorem pieces_split (c : UInt8) (s : List UInt8) (hc : c ≠ 47) :
    pieces [] (c :: s) = (splitName (c :: s)).1 :: pieces [] ((splitName (c :: s)).2.dropWhile (· == 47)) := by
  have e : c :: s = (splitName (c :: s)).1 ++ (splitName (c :: s)).2 := by simp [splitName, List.takeWhile_append_dropWhile]
  have hn : (47 : UInt8) ∉ (splitName (c :: s)).1 := by
    simp only [splitName, List.mem_cons, not_or]
    exact ⟨Ne.symm hc, takeWhile_no47 s⟩
  have hne : (splitName (c :: s)).1 ≠ [] := by simp [splitName]
  conv => lhs; rw [e]
  rw [pieces_name _ hn, List.nil_append]
  rcases tail_slash s with h | ⟨t, h⟩
  · have : (splitName (c :: s)).2 = [] := h
    rw [this]; simp [pieces, hne]
  · have : (splitName (c :: s)).2 = 47 :: t := h
    rw [this, pieces, if_pos rfl, if_neg hne, pieces_slashes]
    simp

/-- The last component, with its trailing slashes. -/
theorem comps_leaf (c : UInt8) (s : List UInt8) (hc : c ≠ 47) (h : (splitName (c :: s)).2.dropWhile (· == 47) = []) :
    (comps (c :: s) = [(splitName (c :: s)).1] ∧ (splitName (c :: s)).1 = c :: s ∧ (47 : UInt8) ∉ c :: s) ∨
    (comps (c :: s) = [(splitName (c :: s)).1, [46]] ∧ (47 : UInt8) ∈ c :: s) := by
  have hp := pieces_split c s hc
  rw [h] at hp
  have e : c :: s = (splitName (c :: s)).1 ++ (splitName (c :: s)).2 := by simp [splitName, List.takeWhile_append_dropWhile]
  have hn : (47 : UInt8) ∉ (splitName (c :: s)).1 := by
    simp only [splitName, List.mem_cons, not_or]
    exact ⟨Ne.symm hc, takeWhile_no47 s⟩
  by_cases ht : (splitName (c :: s)).2 = []
  · left
    rw [ht, List.append_nil] at e
    rw [← e] at hn
    refine ⟨?_, e.symm, hn⟩
    have hl : (c :: s).getLast? ≠ some 47 := fun h => hn (List.mem_of_getLast? h)
    rw [comps, hp, if_neg (fun h => hl h.1)]; rfl
  · right
    have hl : (c :: s).getLast? = some 47 := by
      rw [e, List.getLast?_append, getLast_all47 _ h ht]; rfl
    refine ⟨by rw [comps, hp, hl, if_pos ⟨rfl, by simp⟩]; rfl, List.mem_of_getLast? hl⟩

theorem comps_inner (c : UInt8) (s : List UInt8) (hc : c ≠ 47) (c' : UInt8) (s' : List UInt8) (h : (splitName (c :: s)).2.dropWhile (· == 47) = c' :: s') :
    comps (c :: s) = (splitName (c :: s)).1 :: comps (c' :: s') ∧ comps (splitName (c :: s)).1 = [(splitName (c :: s)).1] ∧
      (47 : UInt8) ∉ (splitName (c :: s)).1 ∧ c' ≠ 47 := by
  have hc' := dropWhile_head _ _ _ h
  have hp := pieces_split c s hc
  have hp' := pieces_split c' s' hc'
  have e : c :: s = (splitName (c :: s)).1 ++ (splitName (c :: s)).2 := by simp [splitName, List.takeWhile_append_dropWhile]
  have hn : (47 : UInt8) ∉ (splitName (c :: s)).1 := by
    simp only [splitName, List.mem_cons, not_or]
    exact ⟨Ne.symm hc, takeWhile_no47 s⟩
  rw [h] at hp
  have hl : (c :: s).getLast? = (c' :: s').getLast? := by
    conv => lhs; rw [e]
    have ht : (splitName (c :: s)).2 ≠ [] := by intro h'; rw [h'] at h; simp at h
    rw [List.getLast?_append, ← h, getLast_dropWhile _ (by rw [h]; simp)]
    cases hh : (splitName (c :: s)).2.getLast? with
    | none => exact absurd (List.getLast?_eq_none_iff.mp hh) ht
    | some x => rfl
  refine ⟨?_, ?_, hn, hc'⟩
  · simp only [comps, hp, hl]
    have hne : pieces [] (c' :: s') ≠ [] := by rw [hp']; simp
    simp only [ne_eq, reduceCtorEq, not_false_eq_true, and_true, hne, List.cons_append]
  · have hl' : (splitName (c :: s)).1.getLast? ≠ some 47 := fun h => hn (List.mem_of_getLast? h)
    have := pieces_name _ hn [] []
    simp only [List.append_nil, List.nil_append] at this
    rw [comps, this, if_neg (fun h => hl' h.1), pieces, if_neg (by simp [splitName])]; rfl

theorem comps_abs (s : List UInt8) : comps (47 :: s) = comps (s.dropWhile (· == 47)) := by
  have h : pieces [] (47 :: s) = pieces [] (s.dropWhile (· == 47)) := by rw [pieces_slashes (47 :: s)]; simp
  by_cases he : s.dropWhile (· == 47) = []
  · have h1 : pieces [] (47 :: s) = [] := by rw [h, he]; rfl
    rw [he]
    rw [comps, h1, if_neg (fun h => h.2 rfl)]; rfl
  · have hl : (47 :: s).getLast? = (s.dropWhile (· == 47)).getLast? := by
      rw [getLast_dropWhile s he]
      cases s with
      | nil => simp at he
      | cons b s => simp [List.getLast?_cons_cons]
    simp only [comps, h, hl]

end SafeOpen
