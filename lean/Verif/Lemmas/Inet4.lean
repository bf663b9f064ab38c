import Verif.Model.Inet
import Verif.Spec.Inet
import Verif.Props.IpObj
import Verif.Lemmas.Buffer
/-! # inet_pton4 and inet_ntop4 -/
open IpSpec NumSpec TrimSpec

namespace Inet
open Ip (val val_ge digit_ne split_digits split_unique)

/-- The cells: the octets done, the current one, the rest uninitialised. -/
def cells (done : Bytes) (o : UInt8) : List (Option UInt8) := done.map some ++ some o :: List.replicate (3 - done.length) none

theorem cells_get (done : Bytes) (o : UInt8) : CMem.get (cells done o) done.length = some o := by
  simp [CMem.get, cells]

theorem cells_set (done : Bytes) (o p : UInt8) : CMem.write (cells done o) done.length (some p) = some (cells done p) := by
  rw [CMem.write_eq (by simp [cells])]
  simp [cells]

theorem cells_next (done : Bytes) (o : UInt8) (h : done.length < 3) : CMem.write (cells done o) (done.length + 1) (some 0) = some (cells (done ++ [o]) 0) := by
  rw [CMem.write_eq (by simp [cells]; omega)]
  obtain ⟨k, hk⟩ : ∃ k, 3 - done.length = k + 1 := ⟨2 - done.length, by omega⟩
  have hk' : 3 - (done ++ [o]).length = k := by simp; omega
  simp only [cells, hk, hk', List.map_append, List.map_cons, List.map_nil, List.append_assoc, List.cons_append, List.nil_append, List.replicate_succ]
  refine congrArg some ?_
  rw [List.set_append_right _ _ (by simp)]
  simp

theorem digit_cond (c : UInt8) : (48 ≤ c ∧ c ≤ 57) ↔ digit c = true := by
  simp [digit, UInt8.le_iff_toNat_le]

theorem cells_end (done : Bytes) (o : UInt8) (h : done.length = 3) : CMem.getRange (cells done o) 0 4 = some (done ++ [o]) := by
  have := Buffer.getRange_at 4 0 (done ++ [o]) [] (by simp; omega)
  rw [List.drop_zero, List.take_of_length_le (by simp; omega)] at this
  rw [cells, h]
  simpa [h] using this

/-- Digits after a first one. -/
theorem pton4_more (done rest : Bytes) (n : Nat) : ∀ (ds : Bytes) (o : Nat), o ≤ 255 → ds.all digit = true →
    pton4Loop (ds ++ rest) (cells done (UInt8.ofNat o)) done.length true n =
      if val o ds ≤ 255 then pton4Loop rest (cells done (UInt8.ofNat (val o ds))) done.length true n else some none := by
  intro ds
  induction ds with
  | nil => intro o ho _; simp [val, ho]
  | cons c ds ih =>
    intro o ho hd
    simp only [List.all_cons, Bool.and_eq_true] at hd
    rw [List.cons_append, pton4Loop, if_pos ((digit_cond c).mpr hd.1), cells_get]
    have hv : val o (c :: ds) = val (10 * o + (c.toNat - 48)) ds := rfl
    have ho' : (UInt8.ofNat o).toNat = o := by simp; omega
    simp only [Option.bind_eq_bind, Option.bind_some, ho', cells_set, hv, Nat.mul_comm o 10, Bool.not_true, Bool.false_eq_true, if_false]
    by_cases hb : 10 * o + (c.toNat - 48) ≤ 255
    · rw [if_neg (by omega), ih _ hb hd.2]
    · rw [if_pos (by omega), if_neg]
      have := val_ge ds (10 * o + (c.toNat - 48))
      omega

theorem pton4_digits (done rest ds : Bytes) (hne : ds ≠ []) (hd : ds.all digit = true) (h3 : done.length ≤ 3) :
    pton4Loop (ds ++ rest) (cells done 0) done.length false done.length =
      if value ds ≤ 255 then pton4Loop rest (cells done (UInt8.ofNat (value ds))) done.length true (done.length + 1) else some none := by
  cases ds with
  | nil => exact absurd rfl hne
  | cons c ds =>
    simp only [List.all_cons, Bool.and_eq_true] at hd
    rw [List.cons_append, pton4Loop, if_pos ((digit_cond c).mpr hd.1), cells_get]
    have hv : value (c :: ds) = val (c.toNat - 48) ds := by simp [value, val]
    have hc : c.toNat - 48 ≤ 255 := by have := c.toNat_lt; omega
    simp only [Option.bind_eq_bind, Option.bind_some, UInt8.toNat_zero, Nat.zero_mul, Nat.zero_add, cells_set, hv, Bool.not_false, if_true]
    rw [if_neg (by omega), if_neg (by omega), pton4_more _ _ _ _ _ hc hd.2]

theorem pton4_none (done s : Bytes) (h3 : done.length ≤ 3) (h : ∀ c t, s = c :: t → digit c = false) : pton4Loop s (cells done 0) done.length false done.length = some none := by
  cases s with
  | nil => rw [pton4Loop, if_pos (by omega)]
  | cons c t =>
    rw [pton4Loop, if_neg (by rw [digit_cond]; simp [h c t rfl]), if_neg (by simp)]

/-- After the digits of an octet. -/
theorem pton4_after (done t : Bytes) (o : UInt8) (h3 : done.length ≤ 3) (h : ∀ c tl, t = c :: tl → digit c = false) :
    pton4Loop t (cells done o) done.length true (done.length + 1) =
      if done.length = 3 then (if t = [] then some (some (done ++ [o])) else some none)
      else match t with
        | 46 :: t => pton4Loop t (cells (done ++ [o]) 0) (done ++ [o]).length false (done ++ [o]).length
        | _ => some none := by
  cases t with
  | nil =>
    rw [pton4Loop]
    by_cases h3 : done.length = 3
    · rw [if_neg (by omega), if_pos h3, cells_end _ _ h3]; rfl
    · rw [if_pos (by omega), if_neg h3]
  | cons c t =>
    rw [pton4Loop, if_neg (by rw [digit_cond]; simp [h c t rfl])]
    by_cases hc : c = 46
    · subst hc
      rw [if_pos (by simp)]
      by_cases h3' : done.length = 3
      · rw [if_pos (by omega), if_pos h3', if_neg (by simp)]
      · rw [if_neg (by omega), if_neg h3', cells_next _ _ (by omega)]
        simp
    · rw [if_neg (fun hh => hc hh.1)]
      by_cases h3' : done.length = 3
      · rw [if_pos h3', if_neg (by simp)]
      · rw [if_neg h3']
        split
        · next e _ => exact absurd (List.cons.inj e).1 hc
        · rfl

/-- The rest of a dotted quad: `k` dots to come. -/
def Rem : Nat → Bytes → List Nat → Prop
  | 0, s, vs => ∃ v, Dec 255 s v ∧ vs = [v]
  | k + 1, s, vs => ∃ ds t v ws, s = ds ++ 46 :: t ∧ Dec 255 ds v ∧ Rem k t ws ∧ vs = v :: ws

theorem dec_split {ds rest ds' : Bytes} {v : Nat} (hd : ds.all digit = true) (hr : ∀ c tl, rest = c :: tl → digit c = false) (h' : Dec 255 ds' v)
    {t : Bytes} (ht : ∀ c tl, t = c :: tl → digit c = false) (e : ds ++ rest = ds' ++ t) : ds = ds' ∧ rest = t :=
  split_unique e hd h'.2.1 hr ht

theorem rem_head {k : Nat} {s : Bytes} {vs : List Nat} (h : Rem k s vs) : ∃ ds t v, s = ds ++ t ∧ Dec 255 ds v ∧ (∀ c tl, t = c :: tl → digit c = false) := by
  cases k with
  | zero => obtain ⟨v, h, _⟩ := h; exact ⟨s, [], v, by simp, h, by simp⟩
  | succ k =>
    obtain ⟨ds, t, v, ws, h1, h2, _, _⟩ := h
    exact ⟨ds, 46 :: t, v, h1, h2, by intro c tl e; cases e; rfl⟩

theorem pton4_step : ∀ (k : Nat) (done s : Bytes), done.length + k = 3 →
    ∃ x, pton4Loop s (cells done 0) done.length false done.length = some x ∧
      ∀ r, x = some r ↔ ∃ vs, Rem k s vs ∧ r = done ++ vs.map UInt8.ofNat := by
  intro k
  induction k with
  | zero =>
    intro done s hk
    obtain ⟨ds, rest, rfl, hd, hr⟩ := split_digits s
    by_cases hne : ds = []
    · subst hne
      rw [List.nil_append, pton4_none done rest (by omega) hr]
      refine ⟨_, rfl, fun r => ⟨by simp, ?_⟩⟩
      rintro ⟨vs, h, _⟩
      obtain ⟨ds, t, v, e, h1, h2⟩ := rem_head h
      exact absurd (dec_split (ds := []) rfl hr h1 h2 (by simpa using e)).1.symm h1.1
    · rw [pton4_digits done rest ds hne hd (by omega), pton4_after _ _ _ (by omega) hr]
      by_cases hv : value ds ≤ 255
      · rw [if_pos hv, if_pos (by omega)]
        by_cases ht : rest = []
        · subst ht
          refine ⟨_, rfl, fun r => ?_⟩
          simp only [List.append_nil, Rem]
          constructor
          · intro e; cases e; exact ⟨_, ⟨_, ⟨hne, hd, rfl, hv⟩, rfl⟩, rfl⟩
          · rintro ⟨_, ⟨v, h, rfl⟩, rfl⟩; rw [h.2.2.1]; rfl
        · rw [if_neg ht]
          refine ⟨_, rfl, fun r => ⟨by simp, ?_⟩⟩
          rintro ⟨vs, ⟨v, h, _⟩, _⟩
          exact absurd (dec_split hd hr h (t := []) (by simp) (by simp)).2 ht
      · rw [if_neg hv]
        refine ⟨_, rfl, fun r => ⟨by simp, ?_⟩⟩
        rintro ⟨vs, h, _⟩
        obtain ⟨ds', t, v, e, h1, h2⟩ := rem_head h
        obtain ⟨e1, _⟩ := dec_split hd hr h1 h2 e
        subst e1
        exact absurd (h1.2.2.1 ▸ h1.2.2.2) hv
  | succ k ih =>
    intro done s hk
    obtain ⟨ds, rest, rfl, hd, hr⟩ := split_digits s
    by_cases hne : ds = []
    · subst hne
      rw [List.nil_append, pton4_none done rest (by omega) hr]
      refine ⟨_, rfl, fun r => ⟨by simp, ?_⟩⟩
      rintro ⟨vs, h, _⟩
      obtain ⟨ds, t, v, e, h1, h2⟩ := rem_head h
      exact absurd (dec_split (ds := []) rfl hr h1 h2 (by simpa using e)).1.symm h1.1
    · rw [pton4_digits done rest ds hne hd (by omega), pton4_after _ _ _ (by omega) hr]
      by_cases hv : value ds ≤ 255
      · rw [if_pos hv, if_neg (by omega)]
        by_cases ht : ∃ t, rest = 46 :: t
        · obtain ⟨t, rfl⟩ := ht
          obtain ⟨x, hx, hy⟩ := ih (done ++ [UInt8.ofNat (value ds)]) t (by simp; omega)
          refine ⟨x, hx, fun r => ?_⟩
          rw [hy]
          constructor
          · rintro ⟨vs, h, rfl⟩
            exact ⟨value ds :: vs, ⟨ds, t, _, vs, rfl, ⟨hne, hd, rfl, hv⟩, h, rfl⟩, by simp⟩
          · rintro ⟨_, ⟨ds', t', v, ws, e, h1, h2, rfl⟩, rfl⟩
            obtain ⟨e1, e2⟩ := dec_split hd hr h1 (by intro c tl e; cases e; rfl) e
            cases e2; subst e1
            exact ⟨ws, h2, by rw [h1.2.2.1]; simp⟩
        · refine ⟨none, ?_, fun r => ⟨by simp, ?_⟩⟩
          · split
            · exact absurd ⟨_, rfl⟩ ht
            · rfl
          · rintro ⟨vs, ⟨ds', t', v, ws, e, h1, h2, _⟩, _⟩
            exact absurd ⟨t', (dec_split hd hr h1 (by intro c tl e; cases e; rfl) e).2⟩ ht
      · rw [if_neg hv]
        refine ⟨_, rfl, fun r => ⟨by simp, ?_⟩⟩
        rintro ⟨vs, h, _⟩
        obtain ⟨ds', t, v, e, h1, h2⟩ := rem_head h
        obtain ⟨e1, _⟩ := dec_split hd hr h1 h2 e
        subst e1
        exact absurd (h1.2.2.1 ▸ h1.2.2.2) hv

theorem rem_quad {s : Bytes} {vs : List Nat} : Rem 3 s vs ↔ ∃ a b c d, Quad s a b c d ∧ vs = [a, b, c, d] := by
  constructor
  · rintro ⟨A, t1, a, ws1, rfl, ha, ⟨B, t2, b, ws2, rfl, hb, ⟨C, t3, c, ws3, rfl, hc, ⟨d, hd, rfl⟩, rfl⟩, rfl⟩, rfl⟩
    exact ⟨a, b, c, d, ⟨A, B, C, t3, by simp, ha, hb, hc, hd⟩, rfl⟩
  · rintro ⟨a, b, c, d, ⟨A, B, C, D, rfl, ha, hb, hc, hd⟩, rfl⟩
    exact ⟨A, B ++ 46 :: (C ++ 46 :: D), a, [b, c, d], by simp, ha, ⟨B, C ++ 46 :: D, b, [c, d], rfl, hb, ⟨C, D, c, [d], rfl, hc, ⟨d, hd, rfl⟩, rfl⟩, rfl⟩, rfl⟩

/-- What `inet_pton4` accepts, and what it stores. -/
theorem pton4_spec (s : Bytes) : ∃ x, pton4 s = some x ∧ ∀ r, x = some r ↔ ∃ a b c d, Quad s a b c d ∧ r = [UInt8.ofNat a, UInt8.ofNat b, UInt8.ofNat c, UInt8.ofNat d] := by
  obtain ⟨x, h1, h2⟩ := pton4_step 3 [] s rfl
  refine ⟨x, h1, fun r => ?_⟩
  rw [h2]
  constructor
  · rintro ⟨vs, h, rfl⟩
    obtain ⟨a, b, c, d, hq, rfl⟩ := rem_quad.mp h
    exact ⟨a, b, c, d, hq, rfl⟩
  · rintro ⟨a, b, c, d, hq, rfl⟩
    exact ⟨_, rem_quad.mpr ⟨a, b, c, d, hq, rfl⟩, rfl⟩

/-! ## inet_ntop4 -/

theorem text_byte (a : UInt8) : Dec 255 (decimal a.toNat) a.toNat ∧ (decimal a.toNat).length ≤ 3 := by
  have := a.toNat_lt
  refine ⟨⟨(decimal_digits _).2, (decimal_digits _).1, value_decimal _, by omega⟩, (decimal_length _ 3 (by omega)).mp (by omega)⟩

/-- The dotted quad of four bytes. -/
def dotted (a b c d : UInt8) : Bytes := decimal a.toNat ++ [46] ++ decimal b.toNat ++ [46] ++ decimal c.toNat ++ [46] ++ decimal d.toNat

theorem dotted_quad (a b c d : UInt8) : Quad (dotted a b c d) a.toNat b.toNat c.toNat d.toNat ∧ (dotted a b c d).length ≤ 15 := by
  obtain ⟨a1, a2⟩ := text_byte a
  obtain ⟨b1, b2⟩ := text_byte b
  obtain ⟨c1, c2⟩ := text_byte c
  obtain ⟨d1, d2⟩ := text_byte d
  exact ⟨⟨_, _, _, _, rfl, a1, b1, c1, d1⟩, by simp [dotted]; omega⟩

theorem quadText_eq (a b c d : UInt8) (rest : Bytes) : quadText (a :: b :: c :: d :: rest) = some (dotted a b c d) := by
  simp [quadText, dotted, natText_eq]

theorem copy_out (t : Bytes) (dst : List (Option UInt8)) (h : t.length < dst.length) :
    CMem.memcpy dst 0 ((t ++ [0]).map some) 0 (t.length + 1) = some ((t ++ [0]).map some ++ dst.drop (t.length + 1)) := by
  have := Buffer.memcpy_at (mem := dst) (rest := dst) (xs := []) (ys := t ++ [0]) (by simp) (n := t.length + 1) (by simp) (by omega)
  rw [show ([] : Bytes).length = 0 from rfl, List.take_of_length_le (by simp)] at this
  simpa using this

theorem ntop4_spec (a b c d : UInt8) (rest : Bytes) (dst : List (Option UInt8)) (size : Nat) (h : size ≤ dst.length) :
    ntop4 (a :: b :: c :: d :: rest) dst size =
      some (if (dotted a b c d).length < size then some ((dotted a b c d ++ [0]).map some ++ dst.drop ((dotted a b c d).length + 1)) else none) := by
  have := (dotted_quad a b c d).2
  unfold ntop4
  rw [quadText_eq]
  simp only [Option.bind_eq_bind, Option.bind_some]
  rw [if_neg (by omega)]
  by_cases hs : (dotted a b c d).length < size
  · rw [if_neg (by omega), if_pos hs, copy_out _ _ (by omega)]; rfl
  · rw [if_pos (by omega), if_neg hs]

end Inet
