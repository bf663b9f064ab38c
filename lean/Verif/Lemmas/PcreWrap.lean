import Verif.Spec.PcreWrap
/-! # Lemmas about search and replace -/
namespace PcreWrap
open Spec (Piece pieces groupText slice start stop substitute Contract Scan Matches Handled)

/-! ## The compiled replacement -/

abbrev Blocks := List (Bytes × Nat)

def runs (bl : Blocks) : Bytes := (bl.map (·.1)).flatten

/-- The compiled form of blocks of text, each with the reference behind it, and the text after the last reference. -/
structure Inv (s : Subst) (bl : Blocks) (cur : Bytes) : Prop where
  text : s.text = runs bl ++ cur
  refnum : s.refnum = bl.length
  offLen : s.blockOffset.length = 33
  lenLen : s.blockLength.length = 33
  refLen : s.backref.length = 33
  off : ∀ i, i ≤ bl.length → s.blockOffset[i]? = some (runs (bl.take i)).length
  len : ∀ i (h : i < bl.length), s.blockLength[i]? = some bl[i].1.length
  ref : ∀ i (h : i < bl.length), s.backref[i]? = some bl[i].2
  zero : ∀ i, bl.length ≤ i → i < 33 → s.backref[i]? = some 0
  count : ∀ r, r < 35 → s.count[r]? = some ((bl.map (·.2)).count r)
  countLen : s.count.length = 35

theorem Inv.empty : Inv {} [] [] := by
  refine ⟨rfl, rfl, rfl, rfl, rfl, ?_, (fun i h => absurd h (Nat.not_lt_zero _)), (fun i h => absurd h (Nat.not_lt_zero _)), ?_, ?_, rfl⟩
  · intro i h
    have : i = 0 := by simpa using h
    subst this; rfl
  · intro i _ h
    show (List.replicate maxSub 0)[i]? = some 0
    rw [List.getElem?_replicate, if_pos (by simpa [maxSub] using h)]
  · intro i h
    show (List.replicate (maxSub + 2) 0)[i]? = some 0
    rw [List.getElem?_replicate, if_pos (by simpa [maxSub] using h)]

theorem Inv.put {s : Subst} {bl cur} (h : Inv s bl cur) {length : Nat} (hl : s.text.length < length + 1) (c : UInt8) :
    ∃ s', s.put length c = some s' ∧ Inv s' bl (cur ++ [c]) ∧ s'.text = s.text ++ [c] := by
  rw [Subst.put, if_pos hl]
  refine ⟨_, rfl, ⟨?_, h.refnum, h.offLen, h.lenLen, h.refLen, h.off, h.len, h.ref, h.zero, h.count, h.countLen⟩, rfl⟩
  rw [h.text]; simp

theorem store_ok {l : List Nat} {i v : Nat} (h : i < l.length) : store l i v = some (l.set i v) := if_pos h

theorem Inv.start {s : Subst} {bl cur} (h : Inv s bl cur) (hb : bl.length ≤ 32) :
    ∃ s', refStart s = some s' ∧ Inv s' bl cur ∧ s'.blockLength[bl.length]? = some cur.length ∧ s'.text = s.text := by
  rw [refStart, h.refnum, h.off _ (Nat.le_refl _)]
  simp only [Option.bind_some]
  rw [store_ok (by rw [h.lenLen]; omega)]
  refine ⟨_, rfl, ⟨h.text, rfl, h.offLen, by simp [h.lenLen], h.refLen, h.off, ?_, h.ref, h.zero, h.count, h.countLen⟩, ?_, rfl⟩
  · intro i hi
    rw [List.getElem?_set_ne (by omega)]; exact h.len i hi
  · rw [List.getElem?_set_self (by rw [h.lenLen]; omega)]
    have : s.text.length - (runs (bl.take bl.length)).length = cur.length := by rw [h.text]; simp
    rw [this]

theorem Inv.done {s : Subst} {bl cur} (h : Inv s bl cur) (hb : bl.length ≤ 31) (hlen : s.blockLength[bl.length]? = some cur.length) {r : Nat} (hr : r ≤ 32) (e : Bool) :
    ∃ s', refDone { s with backref := s.backref.set s.refnum r, err := e } = some s' ∧ Inv s' (bl ++ [(cur, r)]) [] ∧ s'.text = s.text := by
  rw [refDone]
  simp only
  rw [h.refnum, List.getElem?_set_self (by rw [h.refLen]; omega)]
  simp only [Option.bind_some]
  rw [if_pos (by simp [maxSub]; omega), h.count r (by omega)]
  simp only [Option.bind_some]
  rw [store_ok (by rw [h.countLen]; omega), Option.bind_some, store_ok (by rw [h.offLen]; omega), Option.bind_some]
  refine ⟨_, rfl, ?_, rfl⟩
  refine ⟨?_, by simp, by simp [h.offLen], h.lenLen, by simp [h.refLen], ?_, ?_, ?_, ?_, ?_, by simp [h.countLen]⟩
  · rw [h.text]; simp [runs]
  · intro i hi
    simp only [List.length_append, List.length_cons, List.length_nil] at hi
    by_cases he : i = bl.length + 1
    · subst he
      rw [List.getElem?_set_self (by rw [h.offLen]; omega)]
      have : (bl ++ [(cur, r)]).take (bl.length + 1) = bl ++ [(cur, r)] := List.take_of_length_le (by simp)
      rw [this, h.text]; simp [runs]
    · rw [List.getElem?_set_ne (by omega), h.off i (by omega)]
      rw [List.take_append_of_le_length (by omega)]
  · intro i hi
    simp only [List.length_append, List.length_cons, List.length_nil] at hi
    by_cases he : i = bl.length
    · subst he; rw [hlen]; simp
    · rw [h.len i (by omega)]; simp [List.getElem_append_left (show i < bl.length by omega)]
  · intro i hi
    simp only [List.length_append, List.length_cons, List.length_nil] at hi
    by_cases he : i = bl.length
    · subst he; rw [List.getElem?_set_self (by rw [h.refLen]; omega)]; simp
    · rw [List.getElem?_set_ne (by omega), h.ref i (by omega)]; simp [List.getElem_append_left (show i < bl.length by omega)]
  · intro i hi hi'
    simp only [List.length_append, List.length_cons, List.length_nil] at hi
    rw [List.getElem?_set_ne (by omega)]; exact h.zero i (by omega) hi'
  · intro x hx
    by_cases he : x = r
    · subst he
      rw [List.getElem?_set_self (by rw [h.countLen]; omega)]; simp
    · rw [List.getElem?_set_ne (fun e => he e.symm), h.count x hx]
      simp [List.count_append, List.count_cons]; exact fun e => he e.symm

/-- What blocks stand for in a match. -/
def expB (subject : Bytes) (m : Spec.Match) (bl : Blocks) (cur : Bytes) : Bytes := bl.flatMap (fun x => x.1 ++ groupText subject m x.2) ++ cur

theorem expB_ref (subject : Bytes) (m : Spec.Match) (bl : Blocks) (cur : Bytes) (r : Nat) : expB subject m (bl ++ [(cur, r)]) [] = expB subject m bl cur ++ groupText subject m r := by
  simp [expB]
theorem expB_lit (subject : Bytes) (m : Spec.Match) (bl : Blocks) (cur : Bytes) (c : UInt8) : expB subject m bl (cur ++ [c]) = expB subject m bl cur ++ [c] := by
  simp [expB]

/-! ## Digits -/

theorem digit_eq : ∀ c, isdigit c = Spec.digit c := fun _ => rfl

/-- With a running value. -/
def numFrom (v : Nat) (ds : Bytes) : Nat := ds.foldl (fun v c => 10 * v + (c.toNat - 48)) v

theorem numFrom_ge (ds : Bytes) : ∀ v, v ≤ numFrom v ds := by
  induction ds with
  | nil => intro v; exact Nat.le_refl _
  | cons c ds ih => intro v; have := ih (10 * v + (c.toNat - 48)); simp only [numFrom, List.foldl_cons] at this ⊢; omega

theorem digits_ok : ∀ (l : Bytes) (v : Nat), numFrom v (l.takeWhile Spec.digit) ≤ 32 → digits v l = some (numFrom v (l.takeWhile Spec.digit), l.dropWhile Spec.digit) := by
  intro l
  induction l with
  | nil => intro v h; rfl
  | cons c l ih =>
    intro v h
    rw [digits, digit_eq]
    by_cases hc : Spec.digit c = true
    · rw [List.takeWhile_cons_of_pos hc] at h ⊢
      rw [List.dropWhile_cons_of_pos hc, if_pos hc]
      have h0 : numFrom v (c :: l.takeWhile Spec.digit) = numFrom (10 * v + (c.toNat - 48)) (l.takeWhile Spec.digit) := rfl
      have e : v * 10 + (c.toNat - 48) = 10 * v + (c.toNat - 48) := by omega
      rw [h0] at h ⊢
      have hle := numFrom_ge (l.takeWhile Spec.digit) (10 * v + (c.toNat - 48))
      have hcn : c.toNat < 256 := c.toNat_lt
      rw [if_pos (by simp only [INT_MAX]; omega), e]
      exact ih _ h
    · rw [if_neg hc, List.takeWhile_cons_of_neg hc, List.dropWhile_cons_of_neg hc]; rfl

theorem control_eq (c : UInt8) : control c = Spec.escapes.lookup c := by
  simp only [control, Spec.escapes, List.lookup]
  by_cases h1 : c = 116
  · subst h1; rfl
  by_cases h2 : c = 110
  · subst h2; rfl
  by_cases h3 : c = 114
  · subst h3; rfl
  by_cases h4 : c = 102
  · subst h4; rfl
  by_cases h5 : c = 97
  · subst h5; rfl
  by_cases h6 : c = 101
  · subst h6; rfl
  by_cases h7 : c = 48
  · subst h7; rfl
  simp only [h1, h2, h3, h4, h5, h6, h7, if_false, beq_eq_false_iff_ne.mpr h1, beq_eq_false_iff_ne.mpr h2, beq_eq_false_iff_ne.mpr h3, beq_eq_false_iff_ne.mpr h4,
    beq_eq_false_iff_ne.mpr h5, beq_eq_false_iff_ne.mpr h6, beq_eq_false_iff_ne.mpr h7]

theorem oneToNine_eq (d : UInt8) : oneToNine d = (Spec.digit d && d ≠ 48) := by
  have hd : d.toNat < 256 := d.toNat_lt
  rw [oneToNine, Spec.digit, Bool.eq_iff_iff]
  simp only [Bool.and_eq_true, decide_eq_true_eq, UInt8.le_iff_toNat_le, ne_eq, ← UInt8.toNat_inj]
  simp; omega

/-! ## Compiling -/

def isRef : Piece → Bool | .lit _ => false | _ => true
def okPiece : Piece → Prop | .lit c => c ≠ 0 | .group n => n ≤ 32 | _ => False

/-- The result of compiling: the state describes blocks that stand for the same text as the pieces. -/
def Compiled (s' : Subst) (pre : Bytes → Spec.Match → Bytes) (ps : List Piece) : Prop :=
  ∃ bl cur, Inv s' bl cur ∧ (∀ subject m, expB subject m bl cur = pre subject m ++ ps.flatMap (Piece.text subject m)) ∧ bl.length ≤ 32 ∧ (∀ x ∈ bl, x.2 ≤ 32) ∧ 0 ∉ s'.text

theorem compileLoop_ok (length capt : Nat) : ∀ (n : Nat) (src : Bytes) (s : Subst) (bl : Blocks) (cur : Bytes), src.length ≤ n → Inv s bl cur → s.text.length + src.length ≤ length →
    bl.length + ((pieces capt src).filter isRef).length ≤ 32 → (∀ p ∈ pieces capt src, okPiece p) → (∀ x ∈ bl, x.2 ≤ 32) → 0 ∉ s.text →
    ∃ s', compileLoop length capt false s src = some s' ∧ Compiled s' (fun subject m => expB subject m bl cur) (pieces capt src) := by
  intro n
  induction n with
  | zero =>
    intro src s bl cur hn hi hl hr hp hx h0
    have : src = [] := List.length_eq_zero_iff.mp (by omega)
    subst this
    rw [compileLoop, pieces]
    refine ⟨s, rfl, bl, cur, hi, fun _ _ => by simp, ?_, hx, h0⟩
    rw [pieces] at hr; simpa using hr
  | succ n ih =>
    intro src s bl cur hn hi hl hr hp hx h0
    match src, hn, hl, hr, hp with
    | [], hn, hl, hr, hp =>
      rw [compileLoop, pieces]
      refine ⟨s, rfl, bl, cur, hi, fun _ _ => by simp, ?_, hx, h0⟩
      rw [pieces] at hr; simpa using hr
    | [c], hn, hl, hr, hp =>
      rw [compileLoop]
      rw [pieces] at hr hp ⊢
      by_cases hc : c = 92
      · simp only [hc, if_true, decide_true, Bool.not_false, Bool.and_self]
        refine ⟨s, rfl, bl, cur, hi, fun _ _ => by simp, ?_, hx, h0⟩
        simp only [hc, if_true] at hr; simpa using hr
      · simp only [hc, if_false, decide_false, Bool.false_and, Bool.false_eq_true] at hr hp ⊢
        obtain ⟨s', e, hi', ht⟩ := hi.put (length := length) (by simp at hl; omega) c
        refine ⟨s', e, bl, cur ++ [c], hi', fun subject m => by rw [expB_lit]; simp [Piece.text], ?_, hx, ?_⟩
        · simp [isRef] at hr; exact hr
        · have hc0 : c ≠ 0 := hp (.lit c) (by simp)
          rw [ht]; simp [h0]; exact fun e => hc0 e.symm
    | c :: d :: rest, hn, hl, hr, hp =>
      -- a literal character, with what follows
      have lit : ∀ (x : UInt8) (tl : Bytes), tl.length ≤ rest.length + 1 → pieces capt (c :: d :: rest) = .lit x :: pieces capt tl →
          ∃ s', (s.put length x).bind (fun s => compileLoop length capt false s tl) = some s' ∧
            Compiled s' (fun subject m => expB subject m bl cur) (pieces capt (c :: d :: rest)) := by
        intro x tl htl he
        rw [he] at hr hp ⊢
        obtain ⟨s1, e1, hi1, ht1⟩ := hi.put (length := length) (by simp at hl; omega) x
        rw [e1]
        have hx0 : x ≠ 0 := hp (.lit x) (by simp)
        obtain ⟨s', e', bl', cur', h1, h2, h3, h4, h5⟩ := ih tl s1 bl (cur ++ [x]) (by simp at hn; omega) hi1 (by rw [ht1]; simp at hl ⊢; omega)
          (by simpa [isRef] using hr) (fun p hp' => hp p (by simp [hp'])) hx (by rw [ht1]; simp [h0]; exact fun e => hx0 e.symm)
        refine ⟨s', e', bl', cur', h1, fun subject m => ?_, h3, h4, h5⟩
        rw [h2]
        show expB subject m bl (cur ++ [x]) ++ _ = expB subject m bl cur ++ _
        rw [expB_lit]; simp [Piece.text]
      -- a reference, with what follows
      have ref : ∀ (s1 : Subst) (r : Nat) (tl : Bytes) (e : Bool), tl.length ≤ rest.length + 1 → pieces capt (c :: d :: rest) = .group r :: pieces capt tl →
          Inv s1 bl cur → s1.blockLength[bl.length]? = some cur.length → s1.text = s.text →
          ∃ s', (refDone { s1 with backref := s1.backref.set s1.refnum r, err := e }).bind (fun s => compileLoop length capt false s tl) = some s' ∧
            Compiled s' (fun subject m => expB subject m bl cur) (pieces capt (c :: d :: rest)) := by
        intro s1 r tl e htl he hi1 hbl ht1
        rw [he] at hr hp ⊢
        have hr32 : r ≤ 32 := hp (.group r) (by simp)
        have hb31 : bl.length ≤ 31 := by rw [List.filter_cons_of_pos (by rfl)] at hr; simp only [List.length_cons] at hr; omega
        obtain ⟨s2, e2, hi2, ht2⟩ := hi1.done hb31 hbl hr32 e
        rw [e2]
        obtain ⟨s', e', bl', cur', h1, h2, h3, h4, h5⟩ := ih tl s2 (bl ++ [(cur, r)]) [] (by simp at hn; omega) hi2 (by rw [ht2, ht1]; simp at hl ⊢; omega)
          (by rw [List.filter_cons_of_pos (by rfl)] at hr; simp only [List.length_cons, List.length_append, List.length_nil] at hr ⊢; omega) (fun p hp' => hp p (by simp [hp']))
          (fun x hx' => by rcases List.mem_append.mp hx' with h | h; exact hx x h; rw [List.mem_singleton.mp h]; exact hr32) (by rw [ht2, ht1]; exact h0)
        refine ⟨s', e', bl', cur', h1, fun subject m => ?_, h3, h4, h5⟩
        rw [h2]
        show expB subject m (bl ++ [(cur, r)]) [] ++ _ = expB subject m bl cur ++ _
        rw [expB_ref]; simp [Piece.text]
      -- a number
      have num : (c = 92 ∨ c = 36) → isdigit d = true → pieces capt (c :: d :: rest) = .group (Spec.number ((d :: rest).takeWhile Spec.digit)) :: pieces capt ((d :: rest).dropWhile Spec.digit) →
          ∀ s1, Inv s1 bl cur → s1.blockLength[bl.length]? = some cur.length → s1.text = s.text →
          ∃ s', ((s1.backref[s1.refnum]?).bind fun v =>
            match h : digits v (d :: rest) with
            | none => none
            | some r =>
              (store s1.backref s1.refnum r.1).bind fun br =>
              (refDone { s1 with backref := br, err := s1.err || decide (r.1 > capt) }).bind fun s => compileLoop length capt false s r.2) = some s' ∧
            Compiled s' (fun subject m => expB subject m bl cur) (pieces capt (c :: d :: rest)) := by
        intro _ hd he s1 hi1 hbl ht1
        have hp' := hp; rw [he] at hp'
        have hr' := hr; rw [he] at hr'
        have h32 : Spec.number ((d :: rest).takeWhile Spec.digit) ≤ 32 := hp' (.group _) (by simp)
        have hb31 : bl.length ≤ 31 := by rw [List.filter_cons_of_pos (by rfl)] at hr'; simp only [List.length_cons] at hr'; omega
        rw [hi1.refnum, hi1.zero _ (Nat.le_refl _) (by omega), Option.bind_some]
        have hdg : digits 0 (d :: rest) = some (Spec.number ((d :: rest).takeWhile Spec.digit), (d :: rest).dropWhile Spec.digit) := digits_ok _ 0 h32
        split
        · rename_i h; rw [hdg] at h; cases h
        · rename_i r h
          rw [hdg] at h; cases h
          rw [store_ok (by rw [hi1.refLen]; omega), Option.bind_some]
          have := ref s1 _ _ (s1.err || decide (Spec.number ((d :: rest).takeWhile Spec.digit) > capt)) (by
            have := (List.dropWhile_sublist Spec.digit (l := d :: rest)).length_le; simpa using this) he hi1 hbl ht1
          rw [hi1.refnum] at this
          exact this
      rw [compileLoop]
      by_cases hc : c = 92
      · subst hc
        simp only [decide_true, Bool.true_and, Bool.true_or, Bool.not_false, if_true, Bool.false_eq_true, if_false]
        by_cases h19 : oneToNine d = true
        · have hs : (Spec.digit d && decide (d ≠ 48)) = true := by rw [← oneToNine_eq]; exact h19
          have hdg : isdigit d = true := by rw [digit_eq]; simp at hs; exact hs.1
          have he : pieces capt (92 :: d :: rest) = .group (Spec.number ((d :: rest).takeWhile Spec.digit)) :: pieces capt ((d :: rest).dropWhile Spec.digit) := by
            rw [pieces]; simp only [if_true, hs]
          have hb : bl.length ≤ 32 := by omega
          obtain ⟨s1, e1, hi1, hbl, ht1⟩ := hi.start hb
          simp only [h19, Bool.not_true, Bool.false_eq_true, if_false, e1, Option.bind_some, hdg, if_true]
          exact num (.inl rfl) hdg he s1 hi1 hbl ht1
        · have hs : (Spec.digit d && decide (d ≠ 48)) = false := by rw [← oneToNine_eq]; simpa using h19
          simp only [h19, Bool.not_false, if_true]
          cases hctl : control d with
          | some x =>
            simp only
            exact lit x rest (by omega) (by rw [pieces]; simp only [if_true, hs, Bool.false_eq_true, if_false]; rw [← control_eq, hctl])
          | none =>
            simp only
            have he : pieces capt (92 :: d :: rest) = .lit d :: pieces capt rest := by
              rw [pieces]; simp only [if_true, hs, Bool.false_eq_true, if_false]; rw [← control_eq, hctl]
            have := lit d rest (by omega) he
            have hq : compileLoop length capt true s (d :: rest) = (s.put length d).bind fun s => compileLoop length capt false s rest := by
              cases rest with
              | nil =>
                rw [compileLoop]
                simp only [Bool.not_true, Bool.and_false, Bool.false_eq_true, if_false]
                cases s.put length d with
                | none => rfl
                | some s2 => rw [Option.bind_some, compileLoop]
              | cons e rest =>
                rw [compileLoop]
                simp only [Bool.not_true, Bool.and_false, Bool.false_eq_true, if_false, if_true]
                split <;> rfl
            rw [hq]; exact this
      · simp only [hc, decide_false, Bool.false_and, Bool.false_or, Bool.not_false, Bool.and_true, Bool.false_eq_true, if_false]
        by_cases hd : c = 36
        · subst hd
          simp only [decide_true, Bool.true_and, if_true]
          have hb : bl.length ≤ 32 := by omega
          obtain ⟨s1, e1, hi1, hbl, ht1⟩ := hi.start hb
          rw [e1, Option.bind_some]
          by_cases hdg : isdigit d = true
          · have he : pieces capt (36 :: d :: rest) = .group (Spec.number ((d :: rest).takeWhile Spec.digit)) :: pieces capt ((d :: rest).dropWhile Spec.digit) := by
              rw [pieces]; rw [digit_eq] at hdg; simp only [hc, if_true, if_false, hdg]
            rw [if_pos hdg]
            exact num (.inr rfl) hdg he s1 hi1 hbl ht1
          · have hdg' : Spec.digit d = false := by rw [← digit_eq]; simpa using hdg
            rw [if_neg hdg]
            have hpc : pieces capt (36 :: d :: rest) = if d = 38 then .group 0 :: pieces capt rest
                else if d = 43 then .group capt :: pieces capt rest
                else if d = 96 then .before :: pieces capt rest
                else if d = 39 then .after :: pieces capt rest
                else .lit 36 :: pieces capt (d :: rest) := by
              rw [pieces]; simp only [hc, if_true, if_false, hdg', Bool.false_eq_true]
            by_cases h1 : d = 38
            · subst h1
              simp only [decide_true, Bool.or_true, if_true, show ¬((38 : UInt8) = 43) by decide, if_false]
              rw [store_ok (by rw [hi1.refLen, hi1.refnum]; omega), Option.bind_some]
              exact ref s1 0 rest s1.err (by omega) (by rw [hpc]; rfl) hi1 hbl ht1
            by_cases h2 : d = 43
            · subst h2
              simp only [decide_true, Bool.or_true, Bool.true_or, if_true]
              rw [store_ok (by rw [hi1.refLen, hi1.refnum]; omega), Option.bind_some]
              exact ref s1 capt rest s1.err (by omega) (by rw [hpc]; rfl) hi1 hbl ht1
            by_cases h3 : d = 96
            · subst h3
              have : pieces capt (36 :: 96 :: rest) = .before :: pieces capt rest := by rw [hpc]; rfl
              rw [this] at hp; exact absurd (hp .before (by simp)) (by simp [okPiece])
            by_cases h4 : d = 39
            · subst h4
              have : pieces capt (36 :: 39 :: rest) = .after :: pieces capt rest := by rw [hpc]; rfl
              rw [this] at hp; exact absurd (hp .after (by simp)) (by simp [okPiece])
            simp only [h1, h2, h3, h4, decide_false, Bool.or_self, Bool.false_eq_true, if_false] at hpc ⊢
            -- a dollar that is no reference
            rw [hpc] at hr hp ⊢
            obtain ⟨s2, e2, hi2, ht2⟩ := hi1.put (length := length) (by rw [ht1]; simp at hl; omega) 36
            rw [e2]
            obtain ⟨s', e', bl', cur', k1, k2, k3, k4, k5⟩ := ih (d :: rest) s2 bl (cur ++ [36]) (by simp at hn ⊢; omega) hi2 (by rw [ht2, ht1]; simp at hl ⊢; omega)
              (by simpa [isRef] using hr) (fun p hp' => hp p (by simp [hp'])) hx (by rw [ht2, ht1]; simp [h0])
            refine ⟨s', e', bl', cur', k1, fun subject m => ?_, k3, k4, k5⟩
            rw [k2]
            show expB subject m bl (cur ++ [36]) ++ _ = expB subject m bl cur ++ _
            rw [expB_lit]; simp [Piece.text]
        · simp only [hd, decide_false, Bool.false_eq_true, if_false]
          exact lit c (d :: rest) (by simp) (by rw [pieces]; simp only [hc, hd, if_false])


/-! ## The whole compilation -/

/-- A finished replacement that stands for the same text as the pieces. -/
def Ready (s : Subst) (ps : List Piece) : Prop :=
  ∃ bl cur, Inv s bl cur ∧ s.blockLength[bl.length]? = some cur.length ∧ (∀ subject m, expB subject m bl cur = ps.flatMap (Piece.text subject m)) ∧ bl.length ≤ 32 ∧
    (∀ x ∈ bl, x.2 ≤ 32) ∧ 0 ∉ s.text

theorem finish_ok {s : Subst} {bl : Blocks} {cur : Bytes} (hi : Inv s bl cur) (hb : bl.length ≤ 32) :
    ∃ s', ((s.blockOffset[s.refnum]?).bind fun o => (store s.blockLength s.refnum (s.text.length - o)).bind fun bl => some { s with blockLength := bl }) = some s' ∧
      Inv s' bl cur ∧ s'.blockLength[bl.length]? = some cur.length ∧ s'.text = s.text := hi.start hb

theorem compile_ok (capt : Nat) (repl : Bytes) (hh : Handled (pieces capt repl)) : ∃ s, compile false capt repl = some s ∧ Ready s (pieces capt repl) := by
  obtain ⟨s, e, bl, cur, hi, hx, hb, hr, h0⟩ := compileLoop_ok repl.length capt repl.length repl {} [] [] (Nat.le_refl _) Inv.empty (by simp) (by
      have := hh.1
      simp only [List.length_nil, Nat.zero_add]
      refine Nat.le_trans (Nat.le_of_eq ?_) this
      congr 2) (fun p hp => by have := hh.2 p hp; cases p <;> simpa [okPiece] using this) (by simp) (by simp)
  obtain ⟨s', e', hi', hbl, ht⟩ := finish_ok hi hb
  refine ⟨s', ?_, bl, cur, hi', hbl, fun subject m => ?_, hb, hr, by rw [ht]; exact h0⟩
  · rw [compile, if_neg (by simp), e]; exact e'
  · rw [hx]; simp [expB]

theorem flatMap_lit (subject : Bytes) (m : Spec.Match) (l : Bytes) : (l.map Piece.lit).flatMap (Piece.text subject m) = l := by
  induction l with
  | nil => rfl
  | cons c l ih => simp only [List.map_cons, List.flatMap_cons, ih]; rfl

theorem compile_trivial (capt : Nat) (repl : Bytes) (h0 : (0 : UInt8) ∉ repl) : ∃ s, compile true capt repl = some s ∧ Ready s (repl.map Piece.lit) := by
  have hi : Inv { text := repl } [] repl := by
    have h := Inv.empty
    exact ⟨by simp [runs], rfl, h.offLen, h.lenLen, h.refLen, h.off, h.len, h.ref, h.zero, h.count, h.countLen⟩
  obtain ⟨s', e', hi', hbl, ht⟩ := finish_ok hi (by simp)
  refine ⟨s', ?_, [], repl, hi', hbl, fun subject m => ?_, by simp, by simp, by rw [ht]; exact h0⟩
  · rw [compile, if_pos rfl]; exact e'
  · rw [flatMap_lit]; simp [expB]

/-! ## Sizes -/

def sumI (l : List Nat) (f : Nat → Int) : Int := (l.map f).sum

theorem sumI_cons (a : Nat) (l : List Nat) (f : Nat → Int) : sumI (a :: l) f = f a + sumI l f := by simp [sumI]

theorem sumI_congr (l : List Nat) (f g : Nat → Int) (h : ∀ r ∈ l, f r = g r) : sumI l f = sumI l g := by
  unfold sumI; rw [List.map_congr_left h]

theorem sumI_split (l : List Nat) (i : Nat) (c : Int) (g : Nat → Int) : sumI l (fun r => (if r = i then c else 0) + g r) = c * (l.count i : Nat) + sumI l g := by
  induction l with
  | nil => simp [sumI]
  | cons a l ih =>
    rw [sumI_cons, sumI_cons, ih]
    by_cases h : a = i
    · subst h
      simp only [if_true, List.count_cons_self]
      have : c * ((l.count a + 1 : Nat) : Int) = c * (l.count a : Nat) + c := by rw [Int.natCast_add, Int.mul_add]; simp
      omega
    · rw [if_neg h, List.count_cons_of_ne h]; omega

theorem subSizes_eq (refs count : List Nat) (hc : ∀ r, r < 35 → count[r]? = some (refs.count r)) : ∀ (l : Spec.Match) (i : Nat), i + l.length ≤ 35 →
    subSizes count l i = some (sumI refs (fun r => if i ≤ r then pairLen ((l[r - i]?).getD none) else 0)) := by
  intro l
  induction l with
  | nil =>
    intro i _
    rw [subSizes]
    have : sumI refs (fun r => if i ≤ r then pairLen ((([] : Spec.Match)[r - i]?).getD none) else 0) = sumI refs (fun _ => 0) := sumI_congr _ _ _ (fun r _ => by simp [pairLen])
    rw [this]
    have : ∀ l : List Nat, sumI l (fun _ => 0) = 0 := by intro l; induction l with | nil => rfl | cons a l ih => rw [sumI_cons, ih]; rfl
    rw [this]
  | cons p l ih =>
    intro i h
    simp only [List.length_cons] at h
    rw [subSizes, hc i (by omega), Option.bind_some, ih (i + 1) (by omega), Option.bind_some]
    congr 1
    rw [← sumI_split]
    refine sumI_congr _ _ _ (fun r _ => ?_)
    by_cases h1 : r = i
    · subst h1; rw [if_pos rfl, if_pos (Nat.le_refl _), if_neg (by omega)]; simp
    · by_cases h2 : i ≤ r
      · have h3 : i + 1 ≤ r := by omega
        rw [if_neg h1, if_pos h2, if_pos h3]
        have : r - i = (r - (i + 1)) + 1 := by omega
        rw [this, List.getElem?_cons_succ]; omega
      · rw [if_neg h1, if_neg h2, if_neg (by omega)]; rfl

/-- A match inside a subject. -/
def Valid (len : Nat) (m : Spec.Match) : Prop := m.length ≤ 33 ∧ (∃ b e, m.head? = some (some (b, e))) ∧ ∀ a b, some (a, b) ∈ m → a ≤ b ∧ b ≤ len

theorem slice_length {s : Bytes} {a b : Nat} (h : b ≤ s.length) : (slice s a b).length = b - a := by
  simp [slice]; omega

theorem groupText_length {subject : Bytes} {m : Spec.Match} (hv : Valid subject.length m) (r : Nat) : ((groupText subject m r).length : Int) = pairLen ((m[r]?).getD none) := by
  unfold groupText
  cases h : m[r]? with
  | none => simp [pairLen]
  | some p =>
    cases p with
    | none => simp [pairLen]
    | some ab =>
      obtain ⟨a, b⟩ := ab
      have := hv.2.2 a b (List.mem_of_getElem? h)
      simp only [Option.getD_some, pairLen]
      rw [slice_length this.2]; omega

theorem expB_length {subject : Bytes} {m : Spec.Match} (hv : Valid subject.length m) (bl : Blocks) (cur : Bytes) :
    ((expB subject m bl cur).length : Int) = (runs bl ++ cur).length + sumI (bl.map (·.2)) (fun r => pairLen ((m[r]?).getD none)) := by
  induction bl with
  | nil => simp [expB, runs, sumI]
  | cons x bl ih =>
    have h1 : expB subject m (x :: bl) cur = x.1 ++ groupText subject m x.2 ++ expB subject m bl cur := by simp [expB]
    have h2 : runs (x :: bl) = x.1 ++ runs bl := by simp [runs]
    rw [h1, h2, List.map_cons, sumI_cons]
    simp only [List.length_append, Int.natCast_add] at ih ⊢
    rw [ih, groupText_length hv]; omega

theorem takeWhile_all : ∀ (l : Bytes), 0 ∉ l → l.takeWhile (fun x => decide (x ≠ 0)) = l := by
  intro l
  induction l with
  | nil => intro _; rfl
  | cons c l ih =>
    intro h
    rw [List.takeWhile_cons_of_pos (by simp at h ⊢; exact fun e => h.1 e.symm), ih (by simp at h; exact h.2)]

theorem textLen_eq {s : Subst} (h : 0 ∉ s.text) : textLen s = s.text.length := by
  show (s.text.takeWhile (fun x => decide (x ≠ 0))).length = _
  rw [takeWhile_all _ h]

theorem matchSize_ok {s : Subst} {ps : List Piece} (hr : Ready s ps) {subject : Bytes} {m : Spec.Match} (hv : Valid subject.length m) :
    matchSize s subject.length m = some (((ps.flatMap (Piece.text subject m)).length : Int) - ((stop m : Int) - start m)) := by
  obtain ⟨bl, cur, hi, hbl, hx, hb, hrefs, h0⟩ := hr
  have hcz : ∀ r, 33 ≤ r → (bl.map (·.2)).count r = 0 := by
    intro r h33
    rw [List.count_eq_zero]
    intro hm
    obtain ⟨x, hx1, hx2⟩ := List.mem_map.mp hm
    have := hrefs x hx1
    omega
  rw [matchSize, if_pos (show m.length ≤ maxSub from hv.1), subSizes_eq (bl.map (·.2)) s.count hi.count m 0 (by have := hv.1; omega), Option.bind_some]
  show ((s.count[33]?).bind fun kpre => (s.count[34]?).bind _) = _
  rw [hi.count 33 (by omega), hi.count 34 (by omega), hcz 33 (by omega), hcz 34 (by omega), Option.bind_some, Option.bind_some]
  obtain ⟨b, e, hh⟩ := hv.2.1
  match m, hh with
  | some (b', e') :: tl, hh =>
    simp only [List.head?_cons, Option.some.injEq, Prod.mk.injEq] at hh
    simp only []
    rw [← hx, expB_length hv, textLen_eq h0, ← hi.text]
    congr 1
    have : sumI (bl.map (·.2)) (fun r => if 0 ≤ r then pairLen (((some (b', e') :: tl : Spec.Match)[r - 0]?).getD none) else 0) =
        sumI (bl.map (·.2)) (fun r => pairLen (((some (b', e') :: tl : Spec.Match)[r]?).getD none)) := sumI_congr _ _ _ (fun r _ => by simp)
    rw [this]
    simp only [pairLen, stop, start]
    simp
    omega

/-! ## Writing the result -/

theorem copyTo_ok {size : Nat} {out src : Bytes} {off len : Nat} (h1 : off + len ≤ src.length) (h2 : out.length + len ≤ size) :
    copyTo size out src off len = some (out ++ slice src off (off + len)) := by
  rw [copyTo, if_pos ⟨h1, h2⟩, slice, Nat.add_sub_cancel_left]

theorem runs_slice (bl : Blocks) (cur : Bytes) : ∀ i (h : i < bl.length), slice (runs bl ++ cur) (runs (bl.take i)).length ((runs (bl.take i)).length + bl[i].1.length) = bl[i].1 ∧
    (runs (bl.take i)).length + bl[i].1.length ≤ (runs bl ++ cur).length := by
  intro i h
  have : runs bl ++ cur = runs (bl.take i) ++ (bl[i].1 ++ (runs (bl.drop (i + 1)) ++ cur)) := by
    have hb : bl = bl.take i ++ bl[i] :: bl.drop (i + 1) := by
      rw [List.getElem_cons_drop]; exact (List.take_append_drop i bl).symm
    have : runs bl = runs (bl.take i ++ bl[i] :: bl.drop (i + 1)) := by rw [← hb]
    rw [this]; simp only [runs, List.map_append, List.map_cons, List.flatten_append, List.flatten_cons, List.append_assoc]
  rw [this]
  constructor
  · simp [slice]
  · simp

theorem segments_ok {s : Subst} {bl : Blocks} {cur : Bytes} (hi : Inv s bl cur) (hbl : s.blockLength[bl.length]? = some cur.length) (hrefs : ∀ x ∈ bl, x.2 ≤ 32)
    {subject : Bytes} {m : Spec.Match} (hv : Valid subject.length m) {size : Nat} : ∀ (n seg : Nat) (out : Bytes), n + seg = bl.length + 1 → 0 < n →
    out.length + (expB subject m (bl.drop seg) cur).length ≤ size → segments s subject size m n seg out = some (out ++ expB subject m (bl.drop seg) cur) := by
  intro n
  induction n with
  | zero => intro seg out h1 h2; omega
  | succ n ih =>
    intro seg out h1 _ hl
    rw [segments, hi.off seg (by omega), Option.bind_some]
    by_cases hs : seg = bl.length
    · subst hs
      have hn : n = 0 := by omega
      subst hn
      rw [hbl, Option.bind_some]
      have hd : bl.drop bl.length = [] := List.drop_eq_nil_iff.mpr (Nat.le_refl _)
      rw [hd] at hl ⊢
      have hx : expB subject m [] cur = cur := by simp [expB]
      rw [hx] at hl ⊢
      have ht : bl.take bl.length = bl := List.take_length
      rw [ht, copyTo_ok (by rw [hi.text]; simp) hl, Option.bind_some, if_neg (by rw [hi.refnum]; simp), Option.bind_some, segments]
      rw [hi.text]
      simp [slice]
    · have hlt : seg < bl.length := by omega
      have hd : bl.drop seg = bl[seg] :: bl.drop (seg + 1) := (List.getElem_cons_drop (h := hlt)).symm
      have hx : expB subject m (bl.drop seg) cur = bl[seg].1 ++ groupText subject m bl[seg].2 ++ expB subject m (bl.drop (seg + 1)) cur := by rw [hd]; simp only [expB, List.flatMap_cons, List.append_assoc]
      rw [hx] at hl ⊢
      simp only [List.length_append] at hl
      have hsl := runs_slice bl cur seg hlt
      rw [hi.len seg hlt, Option.bind_some, copyTo_ok (by rw [hi.text]; exact hsl.2) (by omega), Option.bind_some, hi.text, hsl.1]
      rw [if_pos (by rw [hi.refnum]; exact hs), hi.ref seg hlt, Option.bind_some]
      have key : (if bl[seg].2 < maxSub + 2 ∧ bl[seg].2 < m.length then
            match m[bl[seg].2]? with
            | some (some (a, b)) => if b > a then copyTo size (out ++ bl[seg].1) subject a (b - a) else some (out ++ bl[seg].1)
            | _ => some (out ++ bl[seg].1)
          else some (out ++ bl[seg].1)) = some (out ++ bl[seg].1 ++ groupText subject m bl[seg].2) := by
        have h32 := hrefs _ (List.getElem_mem hlt)
        by_cases hm : bl[seg].2 < m.length
        · rw [if_pos ⟨by simp [maxSub]; omega, hm⟩]
          unfold groupText at hl ⊢
          cases hg : m[bl[seg].2]? with
          | none => simp
          | some p =>
            rw [hg] at hl
            cases p with
            | none => simp
            | some ab =>
              obtain ⟨a, b⟩ := ab
              have hab := hv.2.2 a b (List.mem_of_getElem? hg)
              simp only at hl ⊢
              rw [slice_length hab.2] at hl
              by_cases hgt : b > a
              · rw [if_pos hgt, copyTo_ok (by omega) (by simp; omega)]
                have : a + (b - a) = b := by omega
                rw [this]
              · have : b - a = 0 := by omega
                rw [if_neg hgt, slice, this]; simp
        · rw [if_neg (fun h => hm h.2)]
          have : m[bl[seg].2]? = none := List.getElem?_eq_none (by omega)
          rw [groupText, this]; simp
      refine Eq.trans (congrArg (fun o => Option.bind o fun out => segments s subject size m n (seg + 1) out) key) ?_
      simp only [Option.bind_some]
      rw [ih (seg + 1) _ (by omega) (by omega) (by simp; omega)]
      simp [List.append_assoc]

/-- Matches in order, from a position on. -/
def Chain (len : Nat) : Nat → List Spec.Match → Prop
  | pos, [] => pos ≤ len
  | pos, m :: ms => Valid len m ∧ pos ≤ start m ∧ Chain len (stop m) ms

theorem Valid.bounds {len : Nat} {m : Spec.Match} (hv : Valid len m) : ∃ tl, m = some (start m, stop m) :: tl ∧ start m ≤ stop m ∧ stop m ≤ len := by
  obtain ⟨b, e, hh⟩ := hv.2.1
  match m, hh with
  | some (b', e') :: tl, hh =>
    refine ⟨tl, rfl, ?_⟩
    exact hv.2.2 b' e' (by simp)

theorem emit_ok {s : Subst} {ps : List Piece} (hr : Ready s ps) {subject : Bytes} {size : Nat} : ∀ (ms : List Spec.Match) (pos : Nat) (out : Bytes), Chain subject.length pos ms →
    out.length + (substitute subject ps ms pos).length ≤ size → emit s subject size ms pos out = some (out ++ substitute subject ps ms pos) := by
  intro ms
  induction ms with
  | nil =>
    intro pos out hc hl
    have hc' : pos ≤ subject.length := hc
    rw [emit, if_pos hc', copyTo_ok (by omega) (by simpa [substitute] using hl)]
    have : pos + (subject.length - pos) = subject.length := by omega
    rw [this, slice, substitute, List.take_of_length_le (by simp)]
  | cons m ms ih =>
    intro pos out hc hl
    obtain ⟨hv, hp, hc'⟩ := hc
    obtain ⟨tl, hm, h1, h2⟩ := hv.bounds
    rw [substitute] at hl ⊢
    simp only [List.length_append] at hl
    rw [slice_length (by omega)] at hl
    have step : emit s subject size (m :: ms) pos out = if pos ≤ start m then (copyTo size out subject pos (start m - pos)).bind fun out =>
        (segments s subject size m (s.refnum + 1) 0 out).bind fun out => emit s subject size ms (stop m) out else none := by
      generalize start m = b at hm ⊢
      generalize stop m = e at hm ⊢
      subst hm
      rw [emit]
    obtain ⟨bl, cur, hi, hbl, hx, hb, hrefs, h0⟩ := hr
    have e1 : pos + (start m - pos) = start m := by omega
    rw [step, if_pos hp, copyTo_ok (by omega) (by omega), Option.bind_some, e1, hi.refnum]
    have hxm := hx subject m
    rw [segments_ok hi hbl hrefs hv (bl.length + 1) 0 _ (by omega) (by omega) (by
      rw [List.drop_zero, hxm, List.length_append, slice_length (by omega)]; omega), List.drop_zero, hxm, Option.bind_some]
    rw [ih (stop m) _ hc' (by simp only [List.length_append]; rw [slice_length (by omega)]; omega)]
    simp [List.append_assoc]

/-! ## Searching -/

def growth (subject : Bytes) (ps : List Piece) (m : Spec.Match) : Int := ((ps.flatMap (Piece.text subject m)).length : Int) - ((stop m : Int) - start m)

def total (subject : Bytes) (ps : List Piece) (ms : List Spec.Match) : Int := (ms.map (growth subject ps)).sum

theorem substitute_length {subject : Bytes} {ps : List Piece} : ∀ (ms : List Spec.Match) (pos : Nat), Chain subject.length pos ms →
    ((substitute subject ps ms pos).length : Int) = ((subject.length : Int) - pos) + total subject ps ms := by
  intro ms
  induction ms with
  | nil => intro pos h; have h' : pos ≤ subject.length := h; simp [substitute, total]; omega
  | cons m ms ih =>
    intro pos h
    obtain ⟨hv, hp, hc⟩ := h
    obtain ⟨tl, hm, h1, h2⟩ := hv.bounds
    have ih' := ih (stop m) hc
    rw [substitute]
    simp only [List.length_append, Int.natCast_add]
    rw [ih', slice_length (by omega)]
    simp only [total, List.map_cons, List.sum_cons, growth]
    omega

theorem contract_valid {exec : Exec} {len off : Nat} (hc : Contract exec len) (ho : off ≤ len) {m : Spec.Match} (he : exec off = .found m) : Valid len m ∧ off ≤ start m := by
  have := hc off ho
  rw [he] at this
  obtain ⟨h1, ⟨b, e, h2, h3⟩, h4⟩ := this
  refine ⟨⟨h1, ⟨b, e, h2⟩, h4⟩, ?_⟩
  match m, h2 with
  | some (b', e') :: tl, h2 => simp at h2; simp [start]; omega

theorem chain_weaken {len : Nat} {pos pos' : Nat} : ∀ {ms : List Spec.Match}, Chain len pos ms → pos' ≤ pos → Chain len pos' ms := by
  intro ms h hle
  cases ms with
  | nil => exact Nat.le_trans hle h
  | cons m ms => exact ⟨h.1, Nat.le_trans hle h.2.1, h.2.2⟩

theorem search_step {exec : Exec} {s : Subst} {len n off : Nat} {size : Int} {m : Spec.Match} {g : Bool} (he : exec off = .found m) (hv : Valid len m) :
    search exec s len g (n + 1) off size = (matchSize s len m).bind fun d =>
      if !g then some ([m], size + d, 1)
      else if stop m = off then
        if off < len then (search exec s len g n (off + 1) (size + d)).bind fun r => some (m :: r.1, r.2)
        else some ([m], size + d, 1)
      else (search exec s len g n (stop m) (size + d)).bind fun r => some (m :: r.1, r.2) := by
  obtain ⟨tl, hm, h1, h2⟩ := hv.bounds
  rw [search, he]
  simp only []
  rw [hm]
  rfl

theorem search_scan {exec : Exec} {subject : Bytes} (hc : Contract exec subject.length) {s : Subst} {ps : List Piece} (hr : Ready s ps) {off : Nat} {ms : List Spec.Match}
    (h : Scan exec subject.length off ms) : ∀ (n : Nat) (size : Int), off ≤ subject.length → subject.length - off + 1 ≤ n →
    Chain subject.length off ms ∧ ∃ c, -1 ≤ c ∧ search exec s subject.length true n off size = some (ms, size + total subject ps ms, c) := by
  induction h with
  | @none off c he hcc =>
    intro n size ho hn
    obtain ⟨n, rfl⟩ : ∃ k, n = k + 1 := ⟨n - 1, by omega⟩
    refine ⟨ho, c, hcc, ?_⟩
    rw [search, he]; simp [total]
  | @next off m ms he hne _ ih =>
    intro n size ho hn
    obtain ⟨n, rfl⟩ : ∃ k, n = k + 1 := ⟨n - 1, by omega⟩
    obtain ⟨hv, hst⟩ := contract_valid hc ho he
    obtain ⟨tl, hm, h1, h2⟩ := hv.bounds
    obtain ⟨hch, c, hcc, e⟩ := ih n (size + growth subject ps m) h2 (by omega)
    refine ⟨⟨hv, hst, hch⟩, c, hcc, ?_⟩
    rw [search_step he hv, matchSize_ok hr hv, Option.bind_some]
    simp only [Bool.not_true, Bool.false_eq_true, if_false, hne]
    show (search exec s subject.length true n (stop m) (size + growth subject ps m)).bind _ = _
    rw [e, Option.bind_some]
    simp [total, Int.add_assoc]
  | @empty off m ms he heq hlt _ ih =>
    intro n size ho hn
    obtain ⟨n, rfl⟩ : ∃ k, n = k + 1 := ⟨n - 1, by omega⟩
    obtain ⟨hv, hst⟩ := contract_valid hc ho he
    obtain ⟨hch, c, hcc, e⟩ := ih n (size + growth subject ps m) (by omega) (by omega)
    refine ⟨⟨hv, hst, chain_weaken hch (by omega)⟩, c, hcc, ?_⟩
    rw [search_step he hv, matchSize_ok hr hv, Option.bind_some]
    simp only [Bool.not_true, Bool.false_eq_true, if_false, heq, if_true, hlt]
    rw [show (size + (((ps.flatMap (Piece.text subject m)).length : Int) - ((off : Int) - start m))) = size + growth subject ps m by rw [growth, heq]]
    rw [e, Option.bind_some]
    simp [total, Int.add_assoc]
  | @last off m he heq hlen =>
    intro n size ho hn
    obtain ⟨n, rfl⟩ : ∃ k, n = k + 1 := ⟨n - 1, by omega⟩
    obtain ⟨hv, hst⟩ := contract_valid hc ho he
    refine ⟨⟨hv, hst, by rw [heq]; exact ho⟩, 1, by omega, ?_⟩
    rw [search_step he hv, matchSize_ok hr hv, Option.bind_some]
    have : ¬ off < subject.length := by omega
    simp only [Bool.not_true, Bool.false_eq_true, if_false, heq, if_true, this]
    simp [total, growth, heq]

/-- Either there are matches to replace, or the matcher fails at some offset. -/
theorem search_total {exec : Exec} {subject : Bytes} (hc : Contract exec subject.length) {s : Subst} {ps : List Piece} (hr : Ready s ps) : ∀ (n off : Nat) (size : Int),
    off ≤ subject.length → subject.length - off + 1 ≤ n →
    (∃ ms, Scan exec subject.length off ms) ∨ ∃ r c o, search exec s subject.length true n off size = some (r, c) ∧ c.2 < -1 ∧ o ≤ subject.length ∧ exec o = .code c.2 := by
  intro n
  induction n with
  | zero => intro off size _ h; omega
  | succ n ih =>
    intro off size ho hn
    cases he : exec off with
    | code c =>
      by_cases h : -1 ≤ c
      · exact .inl ⟨[], .none he h⟩
      · exact .inr ⟨[], (size, c), off, by rw [search, he], by simp only; omega, ho, he⟩
    | found m =>
      obtain ⟨hv, hst⟩ := contract_valid hc ho he
      obtain ⟨tl, hm, h1, h2⟩ := hv.bounds
      by_cases heq : stop m = off
      · by_cases hlt : off < subject.length
        · rcases ih (off + 1) (size + growth subject ps m) (by omega) (by omega) with ⟨ms, h⟩ | ⟨r, c, o, h, hc1, ho1, he1⟩
          · exact .inl ⟨m :: ms, .empty he heq hlt h⟩
          · refine .inr ⟨m :: r, c, o, ?_, hc1, ho1, he1⟩
            rw [search_step he hv, matchSize_ok hr hv, Option.bind_some]
            simp only [Bool.not_true, Bool.false_eq_true, if_false, heq, if_true, hlt]
            show (search exec s subject.length true n (off + 1) (size + (_ - _))).bind _ = _
            rw [show (size + (((ps.flatMap (Piece.text subject m)).length : Int) - ((off : Int) - start m))) = size + growth subject ps m by rw [growth, heq], h]
            rfl
        · exact .inl ⟨[m], .last he heq (by omega)⟩
      · rcases ih (stop m) (size + growth subject ps m) h2 (by omega) with ⟨ms, h⟩ | ⟨r, c, o, h, hc1, ho1, he1⟩
        · exact .inl ⟨m :: ms, .next he heq h⟩
        · refine .inr ⟨m :: r, c, o, ?_, hc1, ho1, he1⟩
          rw [search_step he hv, matchSize_ok hr hv, Option.bind_some]
          simp only [Bool.not_true, Bool.false_eq_true, if_false, heq]
          show (search exec s subject.length true n (stop m) (size + growth subject ps m)).bind _ = _
          rw [h]
          rfl

/-! ## Executing -/

theorem execute_matches {exec : Exec} {subject : Bytes} (hc : Contract exec subject.length) {s : Subst} {ps : List Piece} (hr : Ready s ps) {g : Bool} {ms : List Spec.Match}
    (h : Matches exec subject.length g ms) (hsz : (substitute subject ps ms 0).length < 2 ^ 64) :
    execute exec s g subject = some (.ok ms.length ((substitute subject ps ms 0).map some)) := by
  have key : Chain subject.length 0 ms ∧ ∃ c, -1 ≤ c ∧ search exec s subject.length g (subject.length + 2) 0 subject.length = some (ms, (subject.length : Int) + total subject ps ms, c) := by
    cases h with
    | all h => exact search_scan hc hr h _ _ (by omega) (by omega)
    | @one m he =>
      obtain ⟨hv, hst⟩ := contract_valid hc (Nat.zero_le _) he
      obtain ⟨tl, hm, h1, h2⟩ := hv.bounds
      refine ⟨⟨hv, hst, h2⟩, 1, by omega, ?_⟩
      rw [search_step he hv, matchSize_ok hr hv, Option.bind_some]
      simp [total, growth]
    | @no c he hcc =>
      refine ⟨Nat.zero_le _, c, hcc, ?_⟩
      rw [search, he]; simp [total]
  obtain ⟨hch, c, hcc, e⟩ := key
  have hlen := substitute_length (ps := ps) ms 0 hch
  have hn : (((subject.length : Int) + total subject ps ms) % 2 ^ 64).toNat = (substitute subject ps ms 0).length := by
    have : (subject.length : Int) + total subject ps ms = ((substitute subject ps ms 0).length : Int) := by omega
    rw [this, Int.emod_eq_of_lt (by omega) (by omega)]; rfl
  rw [execute, e, Option.bind_some]
  simp only []
  rw [if_neg (by omega), hn, emit_ok hr ms 0 [] hch (by simp), Option.bind_some]
  simp
  exact List.take_of_length_le (by simp)

theorem execute_total {exec : Exec} {subject : Bytes} (hc : Contract exec subject.length) {s : Subst} {ps : List Piece} (hr : Ready s ps) (g : Bool) :
    (∃ ms, Matches exec subject.length g ms) ∨ ∃ c o, c < -1 ∧ o ≤ subject.length ∧ exec o = .code c ∧ execute exec s g subject = some (.error c) := by
  cases g with
  | true =>
    rcases search_total hc hr (subject.length + 2) 0 subject.length (by omega) (by omega) with ⟨ms, h⟩ | ⟨r, c, o, h, hc1, ho1, he1⟩
    · exact .inl ⟨ms, .all h⟩
    · refine .inr ⟨c.2, o, hc1, ho1, he1, ?_⟩
      rw [execute, h, Option.bind_some]
      show (if c.2 < -1 then _ else _) = _
      rw [if_pos hc1]
  | false =>
    cases he : exec 0 with
    | found m => exact .inl ⟨[m], .one he⟩
    | code c =>
      by_cases h : -1 ≤ c
      · exact .inl ⟨[], .no he h⟩
      · refine .inr ⟨c, 0, by omega, by omega, he, ?_⟩
        rw [execute, search, he]
        show (if c < -1 then _ else _) = _
        rw [if_pos (by omega)]

end PcreWrap
