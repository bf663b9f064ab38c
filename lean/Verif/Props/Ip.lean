import Verif.Model.Ip
import Verif.Spec.Ip
import Verif.Props.StrNum
/-! # C32 (IPv4 parsing) -/
open IpSpec NumSpec TrimSpec

namespace Ip

/-- What is returned from loop state `s` on the remaining text. -/
def P4 (s : S4) (cs : List UInt8) : Option V4 := (loop4 s cs).bind finish4

theorem P4_nil (s : S4) : P4 s [] = finish4 s := rfl
theorem P4_cons (s : S4) (c : UInt8) (cs : List UInt8) : P4 s (c :: cs) = (step4 s c).bind (fun s => P4 s cs) := by
  simp only [P4, loop4, Option.bind_eq_bind]
  cases step4 s c <;> rfl

/-- The variables between two resets: number so far, digits seen, characters seen. -/
abbrev mid (st o : Nat) (h : Bool) (n : Nat) (a : V4) : S4 := { state := st, octet := o, hasDigit := h, chars := n, addr := a }
abbrev midP (p n : Nat) (a : V4) : S4 := { state := 5, port := p, chars := n, addr := a }
abbrev fresh (st : Nat) (a : V4) : S4 := { state := st, addr := a }

def val (o : Nat) (ds : List UInt8) : Nat := ds.foldl (fun n c => 10 * n + (c.toNat - 48)) o

theorem val_ge (ds : List UInt8) : ∀ o, o ≤ val o ds := by
  induction ds with
  | nil => intro o; exact Nat.le_refl _
  | cons c ds ih => intro o; exact Nat.le_trans (by omega) (ih (10 * o + (c.toNat - 48)))

theorem digit_ne {c : UInt8} (h : digit c = true) : c ≠ 46 ∧ c ≠ 58 := by
  refine ⟨(Str.digit_not c h).2.2.2.2, ?_⟩; rintro rfl; simp [digit] at h

theorem step_digit (st o : Nat) (h : Bool) (n : Nat) (a : V4) (c : UInt8) (hst : st ≤ 3) (hc : digit c = true) :
    step4 (mid st o h n a) c = if 10 * o + (c.toNat - 48) ≤ 255 then some (mid st (10 * o + (c.toNat - 48)) true (n + 1) a) else none := by
  obtain ⟨h1, h2⟩ := digit_ne hc
  have hi : Str.isdigit c = true := by rw [Str.isdigit_eq, hc]
  have hsw : switch4 (mid st o h n a) c = some (mid st (char2Dec o c) true n a) := by
    rcases (show st = 0 ∨ st = 1 ∨ st = 2 ∨ st = 3 by omega) with rfl | rfl | rfl | rfl <;> simp [switch4, hi]
  have : step4 (mid st o h n a) c = check4 (mid st (char2Dec o c) true (n + 1) a) := by
    simp only [step4, h1, h2, if_false]
    rw [hsw]; rfl
  rw [this, check4, char2Dec, show o * 10 + (c.toNat - 48) = 10 * o + (c.toNat - 48) by omega]
  by_cases hv : 10 * o + (c.toNat - 48) ≤ 255
  · rw [if_neg (by simp; omega), if_pos hv]; simp
  · rw [if_pos (by simp; omega), if_neg hv]

theorem P4_digits (st : Nat) (a : V4) (hst : st ≤ 3) (cs : List UInt8) : ∀ (ds : List UInt8) (o : Nat) (h : Bool) (n : Nat), o ≤ 255 → ds.all digit = true →
    P4 (mid st o h n a) (ds ++ cs) = if val o ds ≤ 255 then P4 (mid st (val o ds) (h || !ds.isEmpty) (n + ds.length) a) cs else none := by
  intro ds
  induction ds with
  | nil => intro o h n ho _; simp [val, ho]
  | cons c ds ih =>
    intro o h n ho hd
    simp only [List.all_cons, Bool.and_eq_true] at hd
    rw [List.cons_append, P4_cons, step_digit _ _ _ _ _ _ hst hd.1]
    have hval : val o (c :: ds) = val (10 * o + (c.toNat - 48)) ds := rfl
    rw [hval]
    by_cases hv : 10 * o + (c.toNat - 48) ≤ 255
    · rw [if_pos hv, Option.bind_some, ih _ _ _ hv hd.2]
      simp only [Bool.true_or, List.isEmpty_cons, Bool.not_false, Bool.or_true, List.length_cons]
      rw [show n + 1 + ds.length = n + (ds.length + 1) by omega]
    · rw [if_neg hv, Option.bind_none, if_neg]
      have := val_ge ds (10 * o + (c.toNat - 48))
      omega

theorem step_port_digit (p n : Nat) (a : V4) (c : UInt8) (hc : digit c = true) :
    step4 (midP p n a) c = if 10 * p + (c.toNat - 48) ≤ 65535 then some (midP (10 * p + (c.toNat - 48)) (n + 1) a) else none := by
  obtain ⟨h1, h2⟩ := digit_ne hc
  have hi : Str.isdigit c = true := by rw [Str.isdigit_eq, hc]
  have hsw : switch4 (midP p n a) c = some (midP (char2Dec p c) n a) := by simp [switch4, hi]
  have : step4 (midP p n a) c = check4 (midP (char2Dec p c) (n + 1) a) := by
    simp only [step4, h1, h2, if_false]
    rw [hsw]; rfl
  rw [this, check4, char2Dec, show p * 10 + (c.toNat - 48) = 10 * p + (c.toNat - 48) by omega]
  by_cases hv : 10 * p + (c.toNat - 48) ≤ 65535
  · rw [if_neg (by simp; omega), if_pos hv]; simp
  · rw [if_pos (by simp; omega), if_neg hv]

theorem P4_port_digits (a : V4) (cs : List UInt8) : ∀ (ds : List UInt8) (p n : Nat), p ≤ 65535 → ds.all digit = true →
    P4 (midP p n a) (ds ++ cs) = if val p ds ≤ 65535 then P4 (midP (val p ds) (n + ds.length) a) cs else none := by
  intro ds
  induction ds with
  | nil => intro o n ho _; simp [val, ho]
  | cons c ds ih =>
    intro o n ho hd
    simp only [List.all_cons, Bool.and_eq_true] at hd
    rw [List.cons_append, P4_cons, step_port_digit _ _ _ _ hd.1]
    have hval : val o (c :: ds) = val (10 * o + (c.toNat - 48)) ds := rfl
    rw [hval]
    by_cases hv : 10 * o + (c.toNat - 48) ≤ 65535
    · rw [if_pos hv, Option.bind_some, ih _ _ hv hd.2]
      simp only [List.length_cons]
      rw [show n + 1 + ds.length = n + (ds.length + 1) by omega]
    · rw [if_neg hv, Option.bind_none, if_neg]
      have := val_ge ds (10 * o + (c.toNat - 48))
      omega

/-- A character that is not a digit, in states 0-3. -/
theorem P4_other (st o : Nat) (h : Bool) (n : Nat) (a : V4) (c : UInt8) (cs : List UInt8) (hst : st ≤ 3) (ho : o ≤ 255) (hc : digit c = false) :
    P4 (mid st o h n a) (c :: cs) =
      if h = false then none
      else if st < 3 ∧ c = 46 then P4 (fresh (st + 1) { a with octets := a.octets.set st o }) cs
      else if st = 3 ∧ c = 58 then P4 (fresh 5 { a with octets := a.octets.set 3 o }) cs
      else if cs = [] then some a else none := by
  have hi : Str.isdigit c = false := by rw [Str.isdigit_eq, hc]
  have hP : ∀ (p q : Nat), p ≤ 1 → q ≤ 1 → ∀ st' a', check4 ({ state := st', octet := o, hasDigit := h, chars := n + 1, periods := p, ports := q, change := true, addr := a' } : S4) =
      if h = false then none else some (fresh st' a') := by
    intro p q hp hq st' a'
    rw [check4, if_neg (by simp; omega)]
    cases h <;> simp
  have h7 : ∀ a, P4 (fresh 7 a) cs = if cs = [] then some a else none := by
    intro a
    cases cs with
    | nil => rfl
    | cons d ds => rw [P4_cons]; rfl
  rw [P4_cons]
  have ho2 : o % 256 = o := by omega
  by_cases h3 : st = 3
  · subst h3
    by_cases h58 : c = 58
    · subst h58
      have : step4 (mid 3 o h n a) 58 = if h = false then none else some (fresh 5 { a with octets := a.octets.set 3 o }) := by
        rw [← hP 0 1 (by omega) (by omega)]
        simp [step4, switch4, hi, ho2]
      rw [this]; cases h <;> simp
    · have : step4 (mid 3 o h n a) c = if h = false then none else some (fresh 7 a) := by
        rw [← hP (if c = 46 then 1 else 0) 0 (by split <;> omega) (by omega)]
        simp [step4, switch4, hi, h58]
      rw [this]
      cases h
      · simp
      · simp [h58, h7]
  · have hcase : ∀ x : S4, x.state = st → switch4 x c = if Str.isdigit c then some { x with octet := char2Dec x.octet c, hasDigit := true }
        else if c = 46 then some { x with addr := { x.addr with octets := x.addr.octets.set x.state (x.octet % 256) }, state := x.state + 1, change := true }
        else some { x with state := 7, change := true } := by
      intro x hx
      rw [switch4, if_pos (by omega)]
    by_cases h46 : c = 46
    · subst h46
      have : step4 (mid st o h n a) 46 = if h = false then none else some (fresh (st + 1) { a with octets := a.octets.set st o }) := by
        rw [← hP 1 0 (by omega) (by omega)]
        simp only [step4]
        rw [hcase _ rfl]
        simp [hi, ho2]
      rw [this]
      cases h
      · simp
      · simp [show st < 3 by omega]
    · have : step4 (mid st o h n a) c = if h = false then none else some (fresh 7 a) := by
        rw [← hP 0 (if c = 58 then 1 else 0) (by omega) (by split <;> omega)]
        simp only [step4]
        rw [hcase _ rfl]
        simp [hi, h46]
      rw [this]
      cases h
      · simp
      · simp [h46, h3, h7]

theorem P4_port_other (p n : Nat) (a : V4) (c : UInt8) (cs : List UInt8) (hc : digit c = false) : P4 (midP p n a) (c :: cs) = none := by
  have hi : Str.isdigit c = false := by rw [Str.isdigit_eq, hc]
  rw [P4_cons]
  have : step4 (midP p n a) c = none := by
    simp only [step4, switch4]
    simp [hi, check4]
  rw [this]; rfl

/-- Split a text at its first character that is not a digit. -/
theorem split_digits (s : List UInt8) : ∃ ds rest, s = ds ++ rest ∧ ds.all digit = true ∧ ∀ c tl, rest = c :: tl → digit c = false :=
  ⟨s.takeWhile digit, s.dropWhile digit, (List.takeWhile_append_dropWhile).symm, Str.all_takeWhile _ _, Str.head_dropWhile _ _⟩

/-- The split is unique. -/
theorem split_unique {d1 d2 t1 t2 : List UInt8} (h : d1 ++ t1 = d2 ++ t2) (h1 : d1.all digit = true) (h2 : d2.all digit = true)
    (g1 : ∀ c tl, t1 = c :: tl → digit c = false) (g2 : ∀ c tl, t2 = c :: tl → digit c = false) : d1 = d2 ∧ t1 = t2 := by
  have a1 := Str.takeWhile_app h1 g1
  have a2 := Str.takeWhile_app h2 g2
  rw [h] at a1
  exact ⟨a1.1.symm.trans a2.1, a1.2.symm.trans a2.2⟩

theorem P4_fresh (st : Nat) (hst : st < 3) (a r : V4) (s : List UInt8) : P4 (fresh st a) s = some r ↔
    (∃ ds tl v, s = ds ++ 46 :: tl ∧ Dec 255 ds v ∧ P4 (fresh (st + 1) { a with octets := a.octets.set st v }) tl = some r) ∨
    (∃ ds c v, s = ds ++ [c] ∧ Dec 255 ds v ∧ digit c = false ∧ c ≠ 46 ∧ r = a) := by
  obtain ⟨ds, rest, rfl, hd, hr⟩ := split_digits s
  rw [show fresh st a = mid st 0 false 0 a from rfl, P4_digits st a (by omega) rest ds 0 false 0 (by omega) hd]
  have hv : val 0 ds = value ds := rfl
  have hl : ∀ (ds' t : List UInt8), ds ++ rest = ds' ++ t → ds'.all digit = true → (∀ c tl, t = c :: tl → digit c = false) → ds = ds' ∧ rest = t :=
    fun ds' t h h1 h2 => split_unique h hd h1 hr h2
  constructor
  · intro h
    by_cases hval : val 0 ds ≤ 255
    · rw [if_pos hval] at h
      cases rest with
      | nil =>
        rw [P4_nil, finish4, if_pos (by simp; omega)] at h; simp at h
      | cons c tl =>
        rw [P4_other _ _ _ _ _ _ _ (by omega) hval (hr c tl rfl)] at h
        by_cases hds : ds = []
        · subst hds; simp at h
        · have hdec : Dec 255 ds (value ds) := ⟨hds, hd, rfl, hval⟩
          have hne : (false || !ds.isEmpty) = true := by cases ds <;> simp at hds ⊢
          rw [hne] at h
          simp only [Bool.true_eq_false, if_false] at h
          by_cases h46 : c = 46
          · rw [if_pos ⟨hst, h46⟩] at h
            exact Or.inl ⟨ds, tl, value ds, by rw [h46], hdec, h⟩
          · rw [if_neg (by simp [h46]), if_neg (by omega)] at h
            by_cases htl : tl = []
            · rw [if_pos htl] at h; subst htl; cases h
              exact Or.inr ⟨ds, c, value ds, rfl, hdec, hr c [] rfl, h46, rfl⟩
            · rw [if_neg htl] at h; cases h
    · rw [if_neg hval] at h; cases h
  · rintro (⟨ds', tl, v, h1, h2, h3⟩ | ⟨ds', c, v, h1, h2, h3, h4, rfl⟩)
    · obtain ⟨rfl, rfl⟩ := hl ds' _ h1 h2.2.1 (by intro c tl h; cases h; decide)
      have hval : val 0 ds ≤ 255 := by rw [hv, h2.2.2.1]; exact h2.2.2.2
      rw [if_pos hval, P4_other _ _ _ _ _ _ _ (by omega) hval (by decide)]
      have hne : (false || !ds.isEmpty) = true := by have := h2.1; cases ds <;> simp at this ⊢
      rw [hne, hv, h2.2.2.1]
      simp [hst, h3]
    · obtain ⟨rfl, rfl⟩ := hl ds' _ h1 h2.2.1 (by intro c tl h; cases h; exact h3)
      have hval : val 0 ds ≤ 255 := by rw [hv, h2.2.2.1]; exact h2.2.2.2
      rw [if_pos hval, P4_other _ _ _ _ _ _ _ (by omega) hval h3]
      have hne : (false || !ds.isEmpty) = true := by have := h2.1; cases ds <;> simp at this ⊢
      rw [hne]
      simp [h4, show st ≠ 3 by omega]

theorem P4_port (a r : V4) (s : List UInt8) : P4 (fresh 5 a) s = some r ↔ ∃ v, Dec 65535 s v ∧ r = { a with port := v } := by
  obtain ⟨ds, rest, rfl, hd, hr⟩ := split_digits s
  rw [show fresh 5 a = midP 0 0 a from rfl, P4_port_digits a rest ds 0 0 (by omega) hd]
  have hv : val 0 ds = value ds := rfl
  have hmod : value ds ≤ 65535 → value ds % 65536 = value ds := fun h => Nat.mod_eq_of_lt (by omega)
  cases rest with
  | nil =>
    rw [P4_nil, List.append_nil]
    constructor
    · intro h
      by_cases hval : val 0 ds ≤ 65535
      · rw [if_pos hval] at h
        by_cases hds : ds = []
        · subst hds; simp [finish4] at h
        · rw [hv] at hval
          simp [finish4, hds, hv, hmod hval] at h
          exact ⟨value ds, ⟨hds, hd, rfl, hval⟩, h.symm⟩
      · rw [if_neg hval] at h; cases h
    · rintro ⟨v, h2, rfl⟩
      have hval : value ds ≤ 65535 := by rw [h2.2.2.1]; exact h2.2.2.2
      rw [hv, if_pos hval]
      have := h2.2.2.2
      simp [finish4, h2.1, h2.2.2.1]; omega
  | cons c tl =>
    constructor
    · intro h
      split at h
      · rw [P4_port_other _ _ _ _ _ (hr c tl rfl)] at h; cases h
      · cases h
    · rintro ⟨v, h2, _⟩
      have := h2.2.1
      rw [List.all_eq_true] at this
      have := this c (by simp)
      rw [hr c tl rfl] at this; cases this

theorem P4_three (a r : V4) (s : List UInt8) : P4 (fresh 3 a) s = some r ↔
    (∃ v, Dec 255 s v ∧ r = { a with octets := a.octets.set 3 v }) ∨
    (∃ ds tl v, s = ds ++ 58 :: tl ∧ Dec 255 ds v ∧ P4 (fresh 5 { a with octets := a.octets.set 3 v }) tl = some r) ∨
    (∃ ds c v, s = ds ++ [c] ∧ Dec 255 ds v ∧ digit c = false ∧ c ≠ 58 ∧ r = a) := by
  obtain ⟨ds, rest, rfl, hd, hr⟩ := split_digits s
  rw [show fresh 3 a = mid 3 0 false 0 a from rfl, P4_digits 3 a (by omega) rest ds 0 false 0 (by omega) hd]
  have hv : val 0 ds = value ds := rfl
  have hl : ∀ (ds' t : List UInt8), ds ++ rest = ds' ++ t → ds'.all digit = true → (∀ c tl, t = c :: tl → digit c = false) → ds = ds' ∧ rest = t :=
    fun ds' t h h1 h2 => split_unique h hd h1 hr h2
  have hmod : value ds ≤ 255 → value ds % 256 = value ds := fun h => Nat.mod_eq_of_lt (by omega)
  constructor
  · intro h
    by_cases hval : val 0 ds ≤ 255
    · rw [if_pos hval] at h
      cases rest with
      | nil =>
        rw [P4_nil] at h
        by_cases hds : ds = []
        · subst hds; simp [finish4] at h
        · rw [hv] at hval
          simp [finish4, hds, hv, hmod hval] at h
          exact Or.inl ⟨value ds, by rw [List.append_nil]; exact ⟨hds, hd, rfl, hval⟩, h.symm⟩
      | cons c tl =>
        rw [P4_other _ _ _ _ _ _ _ (by omega) hval (hr c tl rfl)] at h
        by_cases hds : ds = []
        · subst hds; simp at h
        · have hdec : Dec 255 ds (value ds) := ⟨hds, hd, rfl, hval⟩
          have hne : (false || !ds.isEmpty) = true := by cases ds <;> simp at hds ⊢
          rw [hne] at h
          simp only [Bool.true_eq_false, if_false] at h
          rw [if_neg (by simp)] at h
          by_cases h58 : c = 58
          · rw [if_pos (by simp [h58])] at h
            exact Or.inr (Or.inl ⟨ds, tl, value ds, by rw [h58], hdec, h⟩)
          · rw [if_neg (by simp [h58])] at h
            by_cases htl : tl = []
            · rw [if_pos htl] at h; subst htl; cases h
              exact Or.inr (Or.inr ⟨ds, c, value ds, rfl, hdec, hr c [] rfl, h58, rfl⟩)
            · rw [if_neg htl] at h; cases h
    · rw [if_neg hval] at h; cases h
  · rintro (⟨v, h2, rfl⟩ | ⟨ds', tl, v, h1, h2, h3⟩ | ⟨ds', c, v, h1, h2, h3, h4, rfl⟩)
    · obtain ⟨_, hre⟩ := hl (ds ++ rest) [] (by simp) h2.2.1 (by simp)
      subst hre
      rw [List.append_nil] at h2
      have hval : value ds ≤ 255 := by rw [h2.2.2.1]; exact h2.2.2.2
      rw [hv, if_pos hval, P4_nil]
      have := h2.2.2.2
      simp [finish4, h2.1, h2.2.2.1]; congr 1; omega
    · obtain ⟨rfl, rfl⟩ := hl ds' _ h1 h2.2.1 (by intro c tl h; cases h; decide)
      have hval : val 0 ds ≤ 255 := by rw [hv, h2.2.2.1]; exact h2.2.2.2
      rw [if_pos hval, P4_other _ _ _ _ _ _ _ (by omega) hval (by decide)]
      have hne : (false || !ds.isEmpty) = true := by have := h2.1; cases ds <;> simp at this ⊢
      rw [hne, hv, h2.2.2.1]
      simp [h3]
    · obtain ⟨rfl, rfl⟩ := hl ds' _ h1 h2.2.1 (by intro c tl h; cases h; exact h3)
      have hval : val 0 ds ≤ 255 := by rw [hv, h2.2.2.1]; exact h2.2.2.2
      rw [if_pos hval, P4_other _ _ _ _ _ _ _ (by omega) hval h3]
      have hne : (false || !ds.isEmpty) = true := by have := h2.1; cases ds <;> simp at this ⊢
      rw [hne]
      simp [h4]

theorem parse4_eq (s : List UInt8) : parse4 s = P4 (fresh 0 ⟨[0, 0, 0, 0], 0⟩) s := rfl

/-- A number followed by one stray character: what the parser accepts although it is no address. -/
def Stray (s : List UInt8) (notThis : UInt8) : Prop := ∃ ds c v, s = ds ++ [c] ∧ Dec 255 ds v ∧ digit c = false ∧ c ≠ notThis

end Ip

/-- C32. Exactly what `IPV4_parser` accepts, and with which value: dotted quads, dotted quads with a port — and, because the error state is not tested
at the end of the text, one to four numbers followed by a single stray last character; then the number before that character is lost. -/
theorem C32_parse_iff (s : List UInt8) (r : Ip.V4) : Ip.parse4 s = some r ↔
    (∃ a b c d, Quad s a b c d ∧ r = ⟨[a, b, c, d], 0⟩) ∨
    (∃ a b c d p, QuadPort s a b c d p ∧ r = ⟨[a, b, c, d], p⟩) ∨
    (Ip.Stray s 46 ∧ r = ⟨[0, 0, 0, 0], 0⟩) ∨
    (∃ A a t, s = A ++ [46] ++ t ∧ Dec 255 A a ∧ Ip.Stray t 46 ∧ r = ⟨[a, 0, 0, 0], 0⟩) ∨
    (∃ A a B b t, s = A ++ [46] ++ B ++ [46] ++ t ∧ Dec 255 A a ∧ Dec 255 B b ∧ Ip.Stray t 46 ∧ r = ⟨[a, b, 0, 0], 0⟩) ∨
    (∃ A a B b C c t, s = A ++ [46] ++ B ++ [46] ++ C ++ [46] ++ t ∧ Dec 255 A a ∧ Dec 255 B b ∧ Dec 255 C c ∧ Ip.Stray t 58 ∧ r = ⟨[a, b, c, 0], 0⟩) := by
  rw [Ip.parse4_eq]
  constructor
  · intro h
    rcases (Ip.P4_fresh 0 (by omega) _ _ _).1 h with ⟨A, t, a, rfl, hA, h⟩ | ⟨ds, c, v, h1, h2, h3, h4, rfl⟩
    · rcases (Ip.P4_fresh 1 (by omega) _ _ _).1 h with ⟨B, t, b, rfl, hB, h⟩ | ⟨ds, c, v, h1, h2, h3, h4, rfl⟩
      · rcases (Ip.P4_fresh 2 (by omega) _ _ _).1 h with ⟨C, t, c, rfl, hC, h⟩ | ⟨ds, c, v, h1, h2, h3, h4, rfl⟩
        · rcases (Ip.P4_three _ _ _).1 h with ⟨d, hD, rfl⟩ | ⟨D, t, d, rfl, hD, h⟩ | ⟨ds, x, v, h1, h2, h3, h4, rfl⟩
          · exact Or.inl ⟨a, b, c, d, ⟨A, B, C, t, by simp, hA, hB, hC, hD⟩, by simp⟩
          · obtain ⟨p, hp, rfl⟩ := (Ip.P4_port _ _ _).1 h
            exact Or.inr (Or.inl ⟨a, b, c, d, p, ⟨A ++ [46] ++ B ++ [46] ++ C ++ [46] ++ D, t, by simp, ⟨A, B, C, D, rfl, hA, hB, hC, hD⟩, hp⟩, by simp⟩)
          · exact Or.inr (Or.inr (Or.inr (Or.inr (Or.inr ⟨A, a, B, b, C, c, t, by simp, hA, hB, hC, ⟨ds, x, v, h1, h2, h3, h4⟩, by simp⟩))))
        · exact Or.inr (Or.inr (Or.inr (Or.inr (Or.inl ⟨A, a, B, b, t, by simp, hA, hB, ⟨ds, c, v, h1, h2, h3, h4⟩, by simp⟩))))
      · exact Or.inr (Or.inr (Or.inr (Or.inl ⟨A, a, t, by simp, hA, ⟨ds, c, v, h1, h2, h3, h4⟩, by simp⟩)))
    · exact Or.inr (Or.inr (Or.inl ⟨⟨ds, c, v, h1, h2, h3, h4⟩, rfl⟩))
  · have q : ∀ {A B C : List UInt8} {a b c : Nat} {t : List UInt8} {r : Ip.V4}, Dec 255 A a → Dec 255 B b → Dec 255 C c →
        Ip.P4 (Ip.fresh 3 ⟨[a, b, c, 0], 0⟩) t = some r → Ip.P4 (Ip.fresh 0 ⟨[0, 0, 0, 0], 0⟩) (A ++ [46] ++ B ++ [46] ++ C ++ [46] ++ t) = some r := by
      intro A B C a b c t r hA hB hC h
      refine (Ip.P4_fresh 0 (by omega) _ _ _).2 (Or.inl ⟨A, B ++ [46] ++ C ++ [46] ++ t, a, by simp, hA, ?_⟩)
      refine (Ip.P4_fresh 1 (by omega) _ _ _).2 (Or.inl ⟨B, C ++ [46] ++ t, b, by simp, hB, ?_⟩)
      exact (Ip.P4_fresh 2 (by omega) _ _ _).2 (Or.inl ⟨C, t, c, by simp, hC, h⟩)
    rintro (⟨a, b, c, d, ⟨A, B, C, D, rfl, hA, hB, hC, hD⟩, rfl⟩ | ⟨a, b, c, d, p, ⟨_, P, rfl, ⟨A, B, C, D, rfl, hA, hB, hC, hD⟩, hP⟩, rfl⟩ |
      ⟨⟨ds, x, v, rfl, h2, h3, h4⟩, rfl⟩ | ⟨A, a, _, rfl, hA, ⟨ds, x, v, rfl, h2, h3, h4⟩, rfl⟩ |
      ⟨A, a, B, b, _, rfl, hA, hB, ⟨ds, x, v, rfl, h2, h3, h4⟩, rfl⟩ | ⟨A, a, B, b, C, c, _, rfl, hA, hB, hC, ⟨ds, x, v, rfl, h2, h3, h4⟩, rfl⟩)
    · exact q hA hB hC ((Ip.P4_three _ _ _).2 (Or.inl ⟨d, hD, by simp⟩))
    · have := q hA hB hC (t := D ++ 58 :: P) ((Ip.P4_three _ _ _).2 (Or.inr (Or.inl ⟨D, P, d, rfl, hD, (Ip.P4_port _ _ _).2 ⟨p, hP, rfl⟩⟩)))
      simpa using this
    · exact (Ip.P4_fresh 0 (by omega) _ _ _).2 (Or.inr ⟨ds, x, v, rfl, h2, h3, h4, rfl⟩)
    · refine (Ip.P4_fresh 0 (by omega) _ _ _).2 (Or.inl ⟨A, ds ++ [x], a, by simp, hA, ?_⟩)
      exact (Ip.P4_fresh 1 (by omega) _ _ _).2 (Or.inr ⟨ds, x, v, rfl, h2, h3, h4, by simp⟩)
    · refine (Ip.P4_fresh 0 (by omega) _ _ _).2 (Or.inl ⟨A, B ++ [46] ++ (ds ++ [x]), a, by simp, hA, ?_⟩)
      refine (Ip.P4_fresh 1 (by omega) _ _ _).2 (Or.inl ⟨B, ds ++ [x], b, by simp, hB, ?_⟩)
      exact (Ip.P4_fresh 2 (by omega) _ _ _).2 (Or.inr ⟨ds, x, v, rfl, h2, h3, h4, by simp⟩)
    · exact q hA hB hC ((Ip.P4_three _ _ _).2 (Or.inr (Or.inr ⟨ds, x, v, rfl, h2, h3, h4, rfl⟩)))

/-- C32, partial. Texts whose last character is a digit are accepted exactly when they are dotted quads with an optional port, and then with the
denoted numbers. Missing: other texts, for which the claim is false (next theorem). -/
theorem C32_accepts_exactly_partial (s : List UInt8) (hlast : ∀ c, s.getLast? = some c → digit c = true) (r : Ip.V4) : Ip.parse4 s = some r ↔
    (∃ a b c d, Quad s a b c d ∧ r = ⟨[a, b, c, d], 0⟩) ∨ (∃ a b c d p, QuadPort s a b c d p ∧ r = ⟨[a, b, c, d], p⟩) := by
  have hno : ∀ (x : List UInt8) (n : UInt8), ¬ (∃ pre, s = pre ++ x ∧ Ip.Stray x n) := by
    rintro x n ⟨pre, rfl, ds, c, v, rfl, _, h3, _⟩
    have := hlast c (by simp)
    rw [this] at h3; cases h3
  rw [C32_parse_iff]
  constructor
  · rintro (h | h | ⟨h, _⟩ | ⟨A, a, t, h1, _, h, _⟩ | ⟨A, a, B, b, t, h1, _, _, h, _⟩ | ⟨A, a, B, b, C, c, t, h1, _, _, _, h, _⟩)
    · exact Or.inl h
    · exact Or.inr h
    · exact absurd ⟨[], rfl, h⟩ (hno s 46)
    · exact absurd ⟨_, h1, h⟩ (hno t 46)
    · exact absurd ⟨_, h1, h⟩ (hno t 46)
    · exact absurd ⟨_, h1, h⟩ (hno t 58)
  · rintro (h | h)
    · exact Or.inl h
    · exact Or.inr (Or.inl h)

example : Quad [49, 48, 46, 48, 46, 48, 46, 50, 53, 53] 10 0 0 255 ∧ Ip.parse4 [49, 48, 46, 48, 46, 48, 46, 50, 53, 53] = some ⟨[10, 0, 0, 255], 0⟩ := by
  refine ⟨⟨[49, 48], [48], [48], [50, 53, 53], rfl, ?_, ?_, ?_, ?_⟩, by decide⟩ <;> exact ⟨by decide, by decide, by decide, by decide⟩

/-- Finding: a text ending in a stray character is accepted, with the last number lost: "1.2.3.4x" is 1.2.3.0 and "7x" is 0.0.0.0. -/
theorem C32_stray_character_accepted :
    Ip.parse4 [49, 46, 50, 46, 51, 46, 52, 120] = some ⟨[1, 2, 3, 0], 0⟩ ∧ Ip.parse4 [55, 120] = some ⟨[0, 0, 0, 0], 0⟩ := by decide
