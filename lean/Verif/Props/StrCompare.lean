import Verif.Model.StrNum
import Verif.Props.Trim
/-! # C66 (string comparison), C68 (character class tests) -/
open StrSpec CMem OrderSpec TrimSpec

namespace Str

theorem cmpSign_spec (f : UInt8 → UInt8) : ∀ (s t : List UInt8),
    (cmpSign f s t = -1 ∧ Less f s t) ∨ (cmpSign f s t = 0 ∧ s.map f = t.map f) ∨ (cmpSign f s t = 1 ∧ Less f t s) := by
  intro s
  induction s with
  | nil =>
    intro t
    cases t with
    | nil => simp [cmpSign]
    | cons y ys => left; exact ⟨rfl, .prefix y ys⟩
  | cons x xs ih =>
    intro t
    cases t with
    | nil => right; right; exact ⟨rfl, .prefix x xs⟩
    | cons y ys =>
      simp only [cmpSign]
      by_cases h : f x = f y
      · rw [if_pos h]
        rcases ih ys with ⟨h1, h2⟩ | ⟨h1, h2⟩ | ⟨h1, h2⟩
        · exact Or.inl ⟨h1, .rest _ _ _ _ h h2⟩
        · exact Or.inr (Or.inl ⟨h1, by simp [h, h2]⟩)
        · exact Or.inr (Or.inr ⟨h1, .rest _ _ _ _ h.symm h2⟩)
      · rw [if_neg h]
        by_cases h2 : f x < f y
        · rw [if_pos h2]; exact Or.inl ⟨rfl, .first _ _ _ _ h2⟩
        · rw [if_neg h2]
          refine Or.inr (Or.inr ⟨rfl, .first _ _ _ _ ?_⟩)
          have h3 : ¬ (f x).toNat < (f y).toNat := h2
          have h4 : (f x).toNat ≠ (f y).toNat := fun e => h (UInt8.toNat_inj.1 e)
          omega

theorem cmpSignN_eq (f : UInt8 → UInt8) : ∀ (n : Nat) (s t : List UInt8), cmpSignN f n s t = cmpSign f (s.take n) (t.take n) := by
  intro n
  induction n with
  | zero => intro s t; simp [cmpSignN, cmpSign]
  | succ n ih => intro s t; cases s <;> cases t <;> simp [cmpSignN, cmpSign, ih]

theorem less_irrefl {f : UInt8 → UInt8} {s t : List UInt8} (h : Less f s t) : s.map f ≠ t.map f := by
  induction h with
  | «prefix» => simp
  | first x y xs ys h => intro e; simp at e; rw [e.1] at h; omega
  | rest x y xs ys h1 _ ih => intro e; simp at e; exact ih e.2

theorem less_trans {f : UInt8 → UInt8} {s t : List UInt8} (h : Less f s t) : ∀ {u : List UInt8}, Less f t u → Less f s u := by
  induction h with
  | «prefix» => intro u h2; cases h2 <;> exact .prefix _ _
  | first x y xs ys h =>
    intro u h2
    cases h2 with
    | first _ z _ zs h3 => exact .first _ _ _ _ (by omega)
    | rest _ z _ zs h3 _ => exact .first _ _ _ _ (by rw [← h3]; exact h)
  | rest x y xs ys h1 _ ih =>
    intro u h2
    cases h2 with
    | first _ z _ zs h3 => exact .first _ _ _ _ (by rw [h1]; exact h3)
    | rest _ z _ zs h3 h4 => exact .rest _ _ _ _ (h1.trans h3) (ih h4)

theorem less_congr {f : UInt8 → UInt8} {s t : List UInt8} (h : Less f s t) : ∀ {s' t' : List UInt8}, s.map f = s'.map f → t.map f = t'.map f → Less f s' t' := by
  induction h with
  | «prefix» y ys =>
    intro s' t' h1 h2
    cases s' <;> cases t' <;> simp at h1 h2
    exact .prefix _ _
  | first x y xs ys h =>
    intro s' t' h1 h2
    cases s' <;> cases t' <;> simp at h1 h2
    exact .first _ _ _ _ (by rw [← h1.1, ← h2.1]; exact h)
  | rest x y xs ys h _ ih =>
    intro s' t' h1 h2
    cases s' <;> cases t' <;> simp at h1 h2
    exact .rest _ _ _ _ (by rw [← h1.1, ← h2.1]; exact h) (ih h1.2 h2.2)

/-- Two pointers with the same address point to the same string. -/
def Coherent (a b : Ptr) : Prop := ∀ x y, a = some x → b = some y → x.1 = y.1 → x.2 = y.2
def bytes (a : Ptr) : Option (List UInt8) := a.map Prod.snd

/-- What a three-way comparison has to say about two possibly NULL strings compared through `f`. -/
def Says (f : UInt8 → UInt8) (a b : Option (List UInt8)) (r : Int) : Prop :=
  (r < 0 ∧ NLess f a b) ∨ (r = 0 ∧ a.map (List.map f) = b.map (List.map f)) ∨ (0 < r ∧ NLess f b a)

theorem libc_says {f : UInt8 → UInt8} {sgn : Int} {mag : List UInt8 → List UInt8 → Nat} {s t s' t' : List UInt8}
    (h : (sgn = -1 ∧ Less f s t) ∨ (sgn = 0 ∧ s.map f = t.map f) ∨ (sgn = 1 ∧ Less f t s)) :
    Says f (some s) (some t) (libc mag sgn s' t') := by
  rcases h with ⟨h1, h2⟩ | ⟨h1, h2⟩ | ⟨h1, h2⟩
  · refine Or.inl ⟨?_, .str _ _ h2⟩; rw [libc, h1]; omega
  · refine Or.inr (Or.inl ⟨?_, by simp [h2]⟩); rw [libc, h1]; omega
  · refine Or.inr (Or.inr ⟨?_, .str _ _ h2⟩); rw [libc, h1]; omega

theorem with_says (f : UInt8 → UInt8) (cut : List UInt8 → List UInt8) (cmp : List UInt8 → List UInt8 → Option Int)
    (hcmp : ∀ s t, ∃ r, cmp s t = some r ∧ Says f (some (cut s)) (some (cut t)) r) (a b : Ptr) (hc : Coherent a b) :
    ∃ r, safeCompareWith cmp a b = some r ∧ Says f ((bytes a).map cut) ((bytes b).map cut) r := by
  unfold safeCompareWith
  by_cases h : a.map Prod.fst = b.map Prod.fst
  · rw [if_pos h]
    refine ⟨0, rfl, Or.inr (Or.inl ⟨rfl, ?_⟩)⟩
    cases a with
    | none => cases b with
      | none => rfl
      | some y => simp at h
    | some x => cases b with
      | none => simp at h
      | some y => simp only [Option.map_some, Option.some.injEq] at h; simp [bytes, hc x y rfl rfl h]
  · rw [if_neg h]
    cases a with
    | none => cases b with
      | none => simp at h
      | some y => exact ⟨-1, rfl, Or.inl ⟨by omega, .null _⟩⟩
    | some x => cases b with
      | none => exact ⟨1, rfl, Or.inr (Or.inr ⟨by omega, .null _⟩)⟩
      | some y => exact hcmp x.2 y.2

theorem normalise_spec (r : Int) : (r < 0 → normalise r = -1) ∧ (r = 0 → normalise r = 0) ∧ (0 < r → normalise r = 1) := by
  refine ⟨fun h => ?_, fun h => ?_, fun h => ?_⟩
  · rw [normalise, if_pos (by omega)]
    have h1 : r = -(r.natAbs : Int) := by omega
    have h2 : (r.natAbs : Int) ≠ 0 := by omega
    generalize (r.natAbs : Int) = k at h1 h2 ⊢
    rw [h1, Int.neg_tdiv, Int.tdiv_self h2]
  · simp [normalise, h]
  · rw [normalise, if_pos (by omega)]
    have h1 : (r.natAbs : Int) = r := by omega
    rw [h1, Int.tdiv_self (by omega)]

theorem says_eq {f : UInt8 → UInt8} {a b : Option (List UInt8)} {r : Int} (h : Says f a b r) : r = 0 ↔ a.map (List.map f) = b.map (List.map f) := by
  have irr : ∀ {a b}, NLess f a b → a.map (List.map f) ≠ b.map (List.map f) := by
    intro a b hl
    cases hl with
    | null s => simp
    | str s t h => simpa using less_irrefl h
  rcases h with ⟨h1, h2⟩ | ⟨h1, h2⟩ | ⟨h1, h2⟩
  · constructor
    · omega
    · intro e; exact absurd e (irr h2)
  · simp [h1, h2]
  · constructor
    · omega
    · intro e; exact absurd e.symm (irr h2)

end Str

/-- C66. `StringSafeCompare` returns −1, 0 or 1 (whatever magnitudes `strcmp` returns on the platform) and this is the order: NULL first, then
lexicographic by unsigned bytes. -/
theorem C66_compare (mag : List UInt8 → List UInt8 → Nat) (a b : Str.Ptr) (hc : Str.Coherent a b) :
    ∃ r, Str.safeCompare mag a b = some r ∧
      ((r = -1 ∧ NLess id (Str.bytes a) (Str.bytes b)) ∨ (r = 0 ∧ Str.bytes a = Str.bytes b) ∨ (r = 1 ∧ NLess id (Str.bytes b) (Str.bytes a))) := by
  have key := Str.with_says id id (fun s t => some (Str.normalise (Str.libc mag (Str.cmpSign id s t) s t))) (fun s t => by
    have := Str.libc_says (mag := mag) (s' := s) (t' := t) (Str.cmpSign_spec id s t)
    refine ⟨_, rfl, ?_⟩
    have hn := Str.normalise_spec (Str.libc mag (Str.cmpSign id s t) s t)
    rcases this with ⟨h1, h2⟩ | ⟨h1, h2⟩ | ⟨h1, h2⟩
    · rw [hn.1 h1]; exact Or.inl ⟨by omega, h2⟩
    · rw [hn.2.1 h1]; exact Or.inr (Or.inl ⟨rfl, h2⟩)
    · rw [hn.2.2 h1]; exact Or.inr (Or.inr ⟨by omega, h2⟩)) a b hc
  obtain ⟨r, hr, hs⟩ := key
  refine ⟨r, hr, ?_⟩
  have hrange : r = -1 ∨ r = 0 ∨ r = 1 := by
    unfold Str.safeCompareWith at hr
    split at hr
    · injection hr; omega
    · split at hr
      · injection hr with hr
        rw [← hr]
        rename_i s _ t _
        have hn := Str.normalise_spec (Str.libc mag (Str.cmpSign id s t) s t)
        omega
      · unfold Str.nullCompare at hr
        split at hr <;> simp at hr <;> omega
  simp only [Option.map_id_fun, id_eq] at hs
  rcases hs with ⟨h1, h2⟩ | ⟨h1, h2⟩ | ⟨h1, h2⟩
  · exact Or.inl ⟨by omega, h2⟩
  · refine Or.inr (Or.inl ⟨h1, ?_⟩); simpa using h2
  · exact Or.inr (Or.inr ⟨by omega, h2⟩)

/-- C66. The other comparisons agree with the same order after limiting to `n` bytes and folding ASCII case; only the sign of the result is
determined (NULL still counts as smallest and only equals NULL). -/
theorem C66_compare_variants (mag : List UInt8 → List UInt8 → Nat) (n : Nat) (a b : Str.Ptr) (hc : Str.Coherent a b) :
    (∃ r, Str.safeCompareN mag n a b = some r ∧ Str.Says id ((Str.bytes a).map (List.take n)) ((Str.bytes b).map (List.take n)) r) ∧
    (∃ r, Str.safeCompareI mag a b = some r ∧ Str.Says lower (Str.bytes a) (Str.bytes b) r) ∧
    (∃ r, Str.safeCompareNI mag n a b = some r ∧ Str.Says lower ((Str.bytes a).map (List.take n)) ((Str.bytes b).map (List.take n)) r) := by
  have hl : Str.toLower = lower := funext Str.toLower_eq
  refine ⟨?_, ?_, ?_⟩
  · exact Str.with_says id (List.take n) _ (fun s t => ⟨_, rfl, by rw [Str.cmpSignN_eq]; exact Str.libc_says (Str.cmpSign_spec id _ _)⟩) a b hc
  · have := Str.with_says lower id _ (fun s t => ⟨_, rfl, Str.libc_says (mag := mag) (s' := s) (t' := t) (Str.cmpSign_spec lower s t)⟩) a b hc
    simp only [Option.map_id_fun, id_eq] at this
    rw [Str.safeCompareI, hl]; exact this
  · rw [Str.safeCompareNI, hl]
    exact Str.with_says lower (List.take n) _ (fun s t => ⟨_, rfl, by rw [Str.cmpSignN_eq]; exact Str.libc_says (Str.cmpSign_spec lower _ _)⟩) a b hc

/-- C66. The equality tests: equal bytes, equal first `n` bytes, equal up to case, first `n` bytes equal up to case. -/
theorem C66_equal (mag : List UInt8 → List UInt8 → Nat) (n : Nat) (a b : Str.Ptr) (hc : Str.Coherent a b) :
    Str.equal mag a b = some (decide (Str.bytes a = Str.bytes b)) ∧
    Str.equalN mag n a b = some (decide ((Str.bytes a).map (List.take n) = (Str.bytes b).map (List.take n))) ∧
    Str.equalI mag a b = some (decide ((Str.bytes a).map (List.map lower) = (Str.bytes b).map (List.map lower))) ∧
    Str.equalNI mag n a b = some (decide ((Str.bytes a).map (fun s => (s.take n).map lower) = (Str.bytes b).map (fun s => (s.take n).map lower))) := by
  obtain ⟨r, h1, h2⟩ := C66_compare mag a b hc
  obtain ⟨⟨r1, g1, g2⟩, ⟨r2, k1, k2⟩, ⟨r3, l1, l2⟩⟩ := C66_compare_variants mag n a b hc
  have e1 := Str.says_eq g2
  have e2 := Str.says_eq k2
  have e3 := Str.says_eq l2
  have dec : ∀ {x : Int} {P : Prop} [Decidable P], (x = 0 ↔ P) → (x == 0) = decide P := by
    intro x P _ h; by_cases hx : x = 0
    · simp [hx, h.1 hx]
    · have : ¬ P := fun hp => hx (h.2 hp)
      simp [hx, this]
  refine ⟨?_, ?_, ?_, ?_⟩
  · rw [Str.equal, h1, Option.map_some]; congr 1; apply dec
    have irr : ∀ {a b}, NLess id a b → a ≠ b := by
      intro a b hl
      cases hl with
      | null s => simp
      | str s t h => intro e; exact Str.less_irrefl h (by simpa using e)
    rcases h2 with ⟨h, h'⟩ | ⟨h, h'⟩ | ⟨h, h'⟩
    · simp [h, irr h']
    · simp [h, h']
    · simp [h, (irr h').symm]
  · rw [Str.equalN, g1, Option.map_some]; congr 1; apply dec; rw [e1]; simp
  · rw [Str.equalI, k1, Option.map_some]; congr 1; apply dec; rw [e2]
  · rw [Str.equalNI, l1, Option.map_some]; congr 1; apply dec; rw [e3]; simp [Function.comp_def]

/-- C66. The order is a strict total order: irreflexive, transitive, and any two strings are related or equal (up to `f`). So comparisons
may be used for sorting. -/
theorem C66_order_laws (f : UInt8 → UInt8) :
    (∀ a, ¬ NLess f a a) ∧ (∀ a b c, NLess f a b → NLess f b c → NLess f a c) ∧
    (∀ a b, NLess f a b ∨ a.map (List.map f) = b.map (List.map f) ∨ NLess f b a) := by
  refine ⟨?_, ?_, ?_⟩
  · intro a h
    cases h with
    | str s t h => exact Str.less_irrefl h rfl
  · intro a b c h1 h2
    cases h1 with
    | null s => cases h2 with
      | str _ t _ => exact .null _
    | str s t h => cases h2 with
      | str _ u h' => exact .str _ _ (Str.less_trans h h')
  · intro a b
    cases a with
    | none => cases b with
      | none => exact Or.inr (Or.inl rfl)
      | some t => exact Or.inl (.null t)
    | some s => cases b with
      | none => exact Or.inr (Or.inr (.null s))
      | some t =>
        rcases Str.cmpSign_spec f s t with ⟨_, h⟩ | ⟨_, h⟩ | ⟨_, h⟩
        · exact Or.inl (.str _ _ h)
        · exact Or.inr (Or.inl (by simp [h]))
        · exact Or.inr (Or.inr (.str _ _ h))

example : Str.safeCompare (fun _ _ => 41) (some (10, [97, 98])) (some (20, [97, 200])) = some (-1) ∧
    Str.Coherent (some (10, [97, 98])) (some (20, [97, 200])) ∧ Str.safeCompare (fun _ _ => 3) none (some (20, [])) = some (-1) ∧
    Str.equalNI (fun _ _ => 3) 2 (some (1, [65, 98, 99])) (some (2, [97, 66])) = some true := by
  refine ⟨by decide, ?_, by decide, by decide⟩
  intro x y h1 h2 h3; cases h1; cases h2; simp at h3

theorem Str.cmpSign_zero (f : UInt8 → UInt8) (s t : List UInt8) : Str.cmpSign f s t = 0 ↔ s.map f = t.map f := by
  rcases Str.cmpSign_spec f s t with ⟨h, h'⟩ | ⟨h, h'⟩ | ⟨h, h'⟩
  · simp [h, Str.less_irrefl h']
  · simp [h, h']
  · simp [h, (Str.less_irrefl h').symm]

/-- C66. `IsStrIn` and `IsStrCaseIn` are membership, exact and up to case. -/
theorem C66_isStrIn (str : List UInt8) (strs : List (List UInt8)) :
    (Str.isStrIn str strs = true ↔ str ∈ strs) ∧ (Str.isStrCaseIn str strs = true ↔ str.map lower ∈ strs.map (List.map lower)) := by
  have hl : Str.toLower = lower := funext Str.toLower_eq
  constructor
  · induction strs with
    | nil => simp [Str.isStrIn]
    | cons s strs ih =>
      simp only [Str.isStrIn, Str.cmpSign_zero, List.map_id_fun, id_eq, List.mem_cons]
      by_cases h : str = s <;> simp [h, ih]
  · induction strs with
    | nil => simp [Str.isStrCaseIn]
    | cons s strs ih =>
      simp only [Str.isStrCaseIn, Str.cmpSign_zero, List.map_cons, List.mem_cons, hl]
      by_cases h : str.map lower = s.map lower
      · simp [h]
      · rw [if_neg h, ih]; simp [h]

/-- C66. `StringMatchesOption`: the short option exactly, or at least three characters of the long option up to case (so `--h` selects
`--help`). The short option is two characters, the long one starts with two dashes, as the function asserts. -/
theorem C66_matchesOption (mag : List UInt8 → List UInt8 → Nat) (supplied longopt shortopt : Nat × List UInt8)
    (c d : UInt8) (tl : List UInt8) (hs : shortopt.2 = [45, c]) (hc : c ≠ 45) (hl : longopt.2 = 45 :: 45 :: d :: tl) (hd : d ≠ 45)
    (h1 : Str.Coherent (some supplied) (some shortopt)) (h2 : Str.Coherent (some supplied) (some longopt)) :
    ∃ r, Str.matchesOption mag supplied longopt shortopt = some r ∧
      (r = true ↔ supplied.2 = shortopt.2 ∨ (3 ≤ supplied.2.length ∧ supplied.2.map lower <+: longopt.2.map lower)) := by
  have e1 := (C66_equal mag 0 (some supplied) (some shortopt) h1).1
  have e2 := (C66_equal mag supplied.2.length (some supplied) (some longopt) h2).2.2.2
  unfold Str.matchesOption
  rw [if_pos (by simp [hs, hl, hc, hd])]
  by_cases hA : supplied.2.length ≤ 1
  · rw [if_pos hA]
    refine ⟨false, rfl, ?_⟩
    constructor
    · simp
    · rintro (h | h)
      · rw [h, hs] at hA; simp at hA
      · omega
  · rw [if_neg hA]
    by_cases hB : supplied.2.length = 2
    · rw [if_pos hB, e1]
      refine ⟨_, rfl, ?_⟩
      simp [Str.bytes, hB]
    · rw [if_neg hB, e2]
      refine ⟨_, rfl, ?_⟩
      simp only [Str.bytes, Option.map_some, List.take_length, Option.some.injEq, decide_eq_true_eq]
      constructor
      · intro h
        refine Or.inr ⟨by omega, ?_⟩
        rw [h, List.map_take]; exact List.take_prefix _ _
      · rintro (h | ⟨_, h⟩)
        · rw [h, hs] at hB; simp at hB
        · rw [List.map_take]
          have := List.prefix_iff_eq_take.1 h
          rw [this]; simp

/-- C66 (contract). With any other pair of options the function stops the process: they must be a dash and one other character, and two dashes with
a longer name that does not start with a dash. -/
theorem C66_matchesOption_assert (mag : List UInt8 → List UInt8 → Nat) (supplied longopt shortopt : Nat × List UInt8)
    (h : ¬ ((∃ c, c ≠ 45 ∧ shortopt.2 = [45, c]) ∧ ∃ d tl, d ≠ 45 ∧ longopt.2 = 45 :: 45 :: d :: tl)) :
    Str.matchesOption mag supplied longopt shortopt = none := by
  unfold Str.matchesOption
  rw [if_neg]
  rintro ⟨h1, h2, ⟨h3, h4⟩, h5, h6, h7⟩
  refine h ⟨?_, ?_⟩
  · match hs : shortopt.2, h1, h3, h4 with
    | [a, b], _, h3, h4 => exact ⟨b, fun e => h4 (by simp [e]), by simpa using h3⟩
  · match hs : longopt.2, h2, h5, h6, h7 with
    | a :: b :: d :: tl, _, h5, h6, h7 =>
      refine ⟨d, tl, fun e => h7 (by simp [e]), ?_⟩
      simp only [List.getElem?_cons_zero, List.getElem?_cons_succ, Option.some.injEq] at h5 h6
      rw [h5, h6]

example : Str.matchesOption (fun _ _ => 0) (1, [45, 45, 72]) (2, [45, 104, 101]) (3, [45, 104]) = none :=
  C66_matchesOption_assert _ _ _ _ (by rintro ⟨_, d, tl, _, h⟩; simp at h)

example : Str.matchesOption (fun _ _ => 0) (1, [45, 45, 72]) (2, [45, 45, 104, 101]) (3, [45, 104]) = some true ∧
    Str.matchesOption (fun _ _ => 0) (1, [45, 45]) (2, [45, 45, 104, 101]) (3, [45, 104]) = some false := by decide

namespace Str
theorem allLoop_ok (p : UInt8 → Bool) (m : List (Option UInt8)) (s : List UInt8) (hm : HoldsStr m s) :
    ∀ k i, i ≤ s.length → s.length < i + k → allLoop p m i k = some ((s.drop i).all p) := by
  obtain ⟨h0, rest, rfl⟩ := hm
  intro k
  induction k with
  | zero => intro i h1 h2; omega
  | succ k ih =>
    intro i h1 h2
    simp only [allLoop]
    by_cases h : i < s.length
    · rw [get_map _ _ _ h]
      simp only [Option.bind_eq_bind, Option.bind_some]
      have hne : s[i] ≠ 0 := fun e => h0 (e ▸ List.getElem_mem h)
      rw [if_neg hne, List.drop_eq_getElem_cons h, List.all_cons]
      by_cases hp : p s[i] = true
      · rw [if_pos hp, ih (i + 1) (by omega) (by omega), hp]; simp
      · rw [if_neg hp]; simp at hp; simp [hp]
    · have : i = s.length := by omega
      subst this
      rw [get_nul]; simp
end Str

/-- C68. `StringIsNumeric`, `StringIsPrintable` and `EmptyString` say whether all characters of the string are digits, printable ASCII, blanks;
they read only the string and its terminator. -/
theorem C68_class_tests (m : List (Option UInt8)) (s : List UInt8) (hm : HoldsStr m s) :
    Str.isNumeric m = some (s.all digit) ∧ Str.isPrintable m = some (s.all fun c => 32 ≤ c.toNat && c.toNat ≤ 126) ∧
    Str.emptyString m = some (s.all space) := by
  have hlen : s.length < 0 + (m.length + 1) := by obtain ⟨_, rest, rfl⟩ := hm; simp; omega
  refine ⟨?_, ?_, ?_⟩
  · rw [Str.isNumeric, Str.allLoop_ok _ m s hm _ 0 (by omega) hlen]
    rfl
  · rw [Str.isPrintable, Str.allLoop_ok _ m s hm _ 0 (by omega) hlen]; rfl
  · rw [Str.emptyString, Str.allLoop_ok _ m s hm _ 0 (by omega) hlen, show Str.isspace = space from funext Str.isspace_eq]
    rfl

example : HoldsStr [some 49, some 50, some 0] [49, 50] ∧ Str.isNumeric [some 49, some 50, some 0] = some true ∧
    Str.emptyString [some 32, some 0] = some true := ⟨⟨by decide, [], rfl⟩, by decide, by decide⟩
