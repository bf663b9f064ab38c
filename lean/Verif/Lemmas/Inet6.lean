import Verif.Lemmas.Inet4
/-! # inet_pton6 -/
open IpSpec NumSpec TrimSpec

namespace Inet
open InetSpec (hexDigit hexNumber Items Lead Accepted)
open Ip (val)

theorem hexVal_eq (c : UInt8) : hexVal c = hexDigit c := by
  simp only [hexVal, hexDigit, UInt8.le_iff_toNat_le, digit]
  simp

def isHex (c : UInt8) : Bool := (hexDigit c).isSome
/-- The value of hexadecimal digits after `o`. -/
def hval (o : Nat) (hs : Bytes) : Nat := hs.foldl (fun n c => 16 * n + (hexDigit c).getD 0) o

theorem hval_ge (hs : Bytes) : ∀ o, o ≤ hval o hs := by
  induction hs with
  | nil => intro o; exact Nat.le_refl _
  | cons c hs ih => intro o; exact Nat.le_trans (by omega) (ih (16 * o + (hexDigit c).getD 0))

theorem hexNumber_iff (g : Bytes) (v : Nat) : hexNumber g = some v ↔ g.all isHex = true ∧ hval 0 g = v := by
  have main : ∀ (g : Bytes) (o : Nat), g.foldlM (fun n c => (hexDigit c).map (16 * n + ·)) o = some v ↔ g.all isHex = true ∧ hval o g = v := by
    intro g
    induction g with
    | nil => intro o; simp [hval]
    | cons c g ih =>
      intro o
      cases hc : hexDigit c with
      | none => simp [isHex, hc]
      | some d => simp [isHex, hc, ih, hval]
  exact main g 0

theorem split_hex (s : Bytes) : ∃ hs rest, s = hs ++ rest ∧ hs.all isHex = true ∧ ∀ c tl, rest = c :: tl → isHex c = false :=
  ⟨s.takeWhile isHex, s.dropWhile isHex, (List.takeWhile_append_dropWhile).symm, Str.all_takeWhile _ _, Str.head_dropWhile _ _⟩

theorem hex_unique {d1 d2 t1 t2 : Bytes} (h : d1 ++ t1 = d2 ++ t2) (h1 : d1.all isHex = true) (h2 : d2.all isHex = true)
    (g1 : ∀ c tl, t1 = c :: tl → isHex c = false) (g2 : ∀ c tl, t2 = c :: tl → isHex c = false) : d1 = d2 ∧ t1 = t2 := by
  have a1 := Str.takeWhile_app h1 g1
  have a2 := Str.takeWhile_app h2 g2
  rw [h] at a1
  exact ⟨a1.1.symm.trans a2.1, a1.2.symm.trans a2.2⟩

theorem loop_hex : ∀ (hs rest : Bytes) (s : S6), s.val ≤ 65535 → hs.all isHex = true →
    pton6Loop (hs ++ rest) s = if hval s.val hs ≤ 65535 then pton6Loop rest { s with val := hval s.val hs, saw := s.saw || !hs.isEmpty } else some none := by
  intro hs
  induction hs with
  | nil => intro rest s hv _; simp [hval, hv]
  | cons c hs ih =>
    intro rest s hv hh
    simp only [List.all_cons, Bool.and_eq_true] at hh
    obtain ⟨d, hd⟩ := Option.isSome_iff_exists.mp hh.1
    rw [List.cons_append, pton6Loop, hexVal_eq, hd]
    have e : hval s.val (c :: hs) = hval (s.val * 16 + d) hs := by simp [hval, hd, Nat.mul_comm]
    simp only [e]
    by_cases hb : s.val * 16 + d ≤ 65535
    · rw [if_neg (by omega), ih _ _ (by exact hb) hh.2]
      simp
    · rw [if_pos (by omega), if_neg]
      have := hval_ge hs (s.val * 16 + d)
      omega

/-! ## States between words -/

/-- The bytes of words. -/
def enc (ws : List Nat) : Bytes := ws.flatMap fun w => [UInt8.ofNat (w >>> 8), UInt8.ofNat w]

theorem enc_length (ws : List Nat) : (enc ws).length = 2 * ws.length := by
  induction ws with
  | nil => rfl
  | cons w ws ih => simp only [enc, List.flatMap_cons, List.length_append, List.length_cons] at ih ⊢; simp only [List.length_nil]; omega

theorem enc_append (a b : List Nat) : enc (a ++ b) = enc a ++ enc b := by simp [enc]

theorem enc_zeros (n : Nat) : enc (List.replicate n 0) = List.replicate (2 * n) 0 := by
  induction n with
  | zero => rfl
  | succ n ih =>
    rw [List.replicate_succ, show (0 : Nat) :: List.replicate n 0 = [0] ++ List.replicate n 0 from rfl, enc_append, ih, show 2 * (n + 1) = 2 + 2 * n by omega, ← List.replicate_append_replicate]
    rfl

def mem (ws : List Nat) : Bytes := enc ws ++ List.replicate (16 - 2 * ws.length) 0

/-- The state after the words `ws`, with a further colon after `k` of them. -/
def mk (ws : List Nat) (k : Option Nat) (cur : Bytes) : S6 := { tmp := mem ws, tp := 2 * ws.length, colonp := k.map (2 * ·), curtok := cur, saw := false, val := 0 }

theorem write_two (ws : List Nat) (x y : UInt8) (h : ws.length ≤ 7) :
    (CMem.write (mem ws) (2 * ws.length) x).bind (fun m => CMem.write m (2 * ws.length + 1) y) = some (enc ws ++ [x, y] ++ List.replicate (14 - 2 * ws.length) 0) := by
  obtain ⟨k, hk⟩ : ∃ k, 16 - 2 * ws.length = k + 2 ∧ 14 - 2 * ws.length = k := ⟨14 - 2 * ws.length, by omega, rfl⟩
  have hl := enc_length ws
  rw [mem, hk.1, hk.2, List.replicate_succ, List.replicate_succ, CMem.write_eq (by simp; omega), Option.bind_some, List.set_append_right _ _ (by omega), CMem.write_eq (by simp; omega)]
  refine congrArg some ?_
  rw [List.set_append_right _ _ (by omega), show 2 * ws.length - (enc ws).length = 0 by omega, show 2 * ws.length + 1 - (enc ws).length = 1 by omega]
  simp

theorem store_mk (ws : List Nat) (k : Option Nat) (cur : Bytes) (v : Nat) (saw : Bool) (h : ws.length ≤ 7) :
    store { mk ws k cur with val := v, saw } = some { mk (ws ++ [v]) k cur with val := v, saw } := by
  have := write_two ws (UInt8.ofNat (v >>> 8)) (UInt8.ofNat v) h
  simp only [store, mk, Option.bind_eq_bind]
  rw [← Option.bind_assoc, this, Option.bind_some]
  refine congrArg some ?_
  have e : enc ws ++ [UInt8.ofNat (v >>> 8), UInt8.ofNat v] ++ List.replicate (14 - 2 * ws.length) 0 = mem (ws ++ [v]) := by
    rw [mem, enc_append, List.length_append, show 16 - 2 * (ws.length + [v].length) = 14 - 2 * ws.length by simp; omega]
    rfl
  rw [e]
  simp [Nat.mul_add]

theorem put4_mk (ws : List Nat) (a b c d : Nat) (h : ws.length ≤ 6) (ha : a ≤ 255) (hb : b ≤ 255) (hc : c ≤ 255) (hd : d ≤ 255) :
    put4 (mem ws) (2 * ws.length) [UInt8.ofNat a, UInt8.ofNat b, UInt8.ofNat c, UInt8.ofNat d] = some (mem (ws ++ [256 * a + b, 256 * c + d])) := by
  have h1 : ∀ x y : Nat, x ≤ 255 → y ≤ 255 → UInt8.ofNat ((256 * x + y) >>> 8) = UInt8.ofNat x ∧ UInt8.ofNat (256 * x + y) = UInt8.ofNat y := by
    intro x y hx hy
    refine ⟨by rw [Nat.shiftRight_eq_div_pow]; congr 1; omega, ?_⟩
    apply UInt8.toNat_inj.mp
    simp
  have hl := enc_length ws
  have e : enc [256 * a + b, 256 * c + d] = [UInt8.ofNat a, UInt8.ofNat b, UInt8.ofNat c, UInt8.ofNat d] := by
    simp [enc, h1 a b ha hb, h1 c d hc hd]
  unfold put4 CMem.memcpy mem
  rw [if_pos (by simp; omega), enc_append, e, List.take_append_of_le_length (by omega), List.take_of_length_le (by omega), List.drop_append, List.drop_of_length_le (l := enc ws) (by omega)]
  rw [show 2 * ws.length + 4 - (enc ws).length = 4 by omega, List.drop_replicate, List.length_append, show 16 - 2 * (ws.length + [256 * a + b, 256 * c + d].length) = 16 - 2 * ws.length - 4 by simp; omega]
  simp

/-! ## The end -/

theorem shift_move (A : Bytes) (m : Nat) : ∀ (k : Nat) (P Q : Bytes), P.length = k → A.length + k + (m + 1) + Q.length = 16 →
    shift A.length (k + Q.length) k (Q.length + 1) (A ++ P ++ List.replicate (m + 1) 0 ++ Q) = some (A ++ List.replicate (m + 1) 0 ++ P ++ Q) := by
  intro k
  induction k with
  | zero =>
    intro P Q hP _
    rw [shift, List.length_eq_zero_iff.mp hP]
    simp
  | succ k ih =>
    intro P Q hP hl
    obtain ⟨P, x, rfl⟩ : ∃ P' x, P = P' ++ [x] := by
      have : P ≠ [] := by intro e; rw [e] at hP; simp at hP
      exact ⟨P.dropLast, P.getLast this, (List.dropLast_concat_getLast this).symm⟩
    have hP' : P.length = k := by simpa using hP
    have e0 : A ++ (P ++ [x]) ++ List.replicate (m + 1) 0 ++ Q = (A ++ P) ++ (x :: (List.replicate m 0 ++ 0 :: Q)) := by
      rw [List.replicate_succ']; simp
    have i0 : A.length + (k + 1 + Q.length) - (Q.length + 1) = (A ++ P).length := by simp; omega
    have i1 : 16 - (Q.length + 1) = (A ++ P).length + (m + 1) := by simp; omega
    rw [shift, e0, i0, i1]
    rw [CMem.read, List.getElem?_append_right (Nat.le_refl _), Nat.sub_self, List.getElem?_cons_zero]
    simp only [Option.bind_eq_bind, Option.bind_some]
    rw [CMem.write_eq (by simp; omega), Option.bind_some, List.set_append_right _ _ (by omega), show (A ++ P).length + (m + 1) - (A ++ P).length = m + 1 by omega,
      List.set_cons_succ, List.set_append_right _ _ (by simp), List.length_replicate, Nat.sub_self, List.set_cons_zero]
    rw [CMem.write_eq (by simp), Option.bind_some, List.set_append_right _ _ (by omega), Nat.sub_self, List.set_cons_zero]
    have e1 : A ++ P ++ 0 :: (List.replicate m 0 ++ x :: Q) = A ++ P ++ List.replicate (m + 1) 0 ++ (x :: Q) := by
      rw [List.replicate_succ]; simp
    have := ih P (x :: Q) hP' (by simp; omega)
    rw [e1, show k + 1 + Q.length = k + (x :: Q).length by simp; omega, show Q.length + 1 + 1 = (x :: Q).length + 1 from rfl, this]
    simp

theorem shift_lose (A : Bytes) : ∀ (k j : Nat) (P : Bytes), P.length = k → A.length + k + j = 16 →
    shift A.length (k + j) k (j + 1) (A ++ P ++ List.replicate j 0) = some (A ++ List.replicate (k + j) 0) := by
  intro k
  induction k with
  | zero =>
    intro j P hP _
    rw [shift, List.length_eq_zero_iff.mp hP]
    simp
  | succ k ih =>
    intro j P hP hl
    obtain ⟨P, x, rfl⟩ : ∃ P' x, P = P' ++ [x] := by
      have : P ≠ [] := by intro e; rw [e] at hP; simp at hP
      exact ⟨P.dropLast, P.getLast this, (List.dropLast_concat_getLast this).symm⟩
    have hP' : P.length = k := by simpa using hP
    have e0 : A ++ (P ++ [x]) ++ List.replicate j 0 = (A ++ P) ++ (x :: List.replicate j 0) := by simp
    have i0 : A.length + (k + 1 + j) - (j + 1) = (A ++ P).length := by simp; omega
    have i1 : 16 - (j + 1) = (A ++ P).length := by simp; omega
    rw [shift, e0, i0, i1]
    rw [CMem.read, List.getElem?_append_right (Nat.le_refl _), Nat.sub_self, List.getElem?_cons_zero]
    simp only [Option.bind_eq_bind, Option.bind_some]
    rw [CMem.write_eq (by simp), Option.bind_some, List.set_append_right _ _ (by omega), Nat.sub_self, List.set_cons_zero]
    rw [CMem.write_eq (by simp), Option.bind_some, List.set_append_right _ _ (by omega), Nat.sub_self, List.set_cons_zero]
    have := ih (j + 1) P hP' (by omega)
    rw [List.replicate_succ] at this
    rw [show k + 1 + j = k + (j + 1) by omega, this]

/-- The words that come of the words read. -/
def fin (ws : List Nat) : Option Nat → Option (List Nat)
  | none => if ws.length = 8 then some ws else none
  | some k => if ws.length = 8 then some (ws.take k ++ List.replicate (8 - k) 0) else some (ws.take k ++ List.replicate (8 - ws.length) 0 ++ ws.drop k)

theorem end_mk (ws : List Nat) (k : Option Nat) (cur : Bytes) (v : Nat) (h : ws.length ≤ 8) (hk : ∀ j, k = some j → j ≤ ws.length) :
    pton6End { mk ws k cur with val := v } = some ((fin ws k).map enc) := by
  unfold pton6End
  simp only [mk, Bool.false_and, Bool.false_eq_true, if_false, Option.bind_eq_bind, Option.bind_some]
  cases k with
  | none =>
    simp only [Option.map_none, fin]
    by_cases h8 : ws.length = 8
    · rw [if_neg (by omega), if_pos h8, mem, h8]; simp
    · rw [if_pos (by omega), if_neg h8]; rfl
  | some j =>
    have hj := hk j rfl
    simp only [Option.map_some, fin]
    have hA : (enc (ws.take j)).length = 2 * j := by rw [enc_length, List.length_take]; omega
    have hP : (enc (ws.drop j)).length = 2 * ws.length - 2 * j := by rw [enc_length, List.length_drop]; omega
    have hm : mem ws = enc (ws.take j) ++ enc (ws.drop j) ++ List.replicate (16 - 2 * ws.length) 0 := by
      rw [mem, ← enc_append, List.take_append_drop]
    by_cases h8 : ws.length = 8
    · rw [if_pos h8, hm, show 16 - 2 * ws.length = 0 by omega]
      have := shift_lose (enc (ws.take j)) (2 * ws.length - 2 * j) 0 (enc (ws.drop j)) hP (by omega)
      rw [hA] at this
      simp only [Nat.add_zero, Nat.zero_add] at this
      rw [this, Option.map_some, Option.map_some, enc_append, enc_zeros, show 2 * ws.length - 2 * j = 2 * (8 - j) by omega]
    · rw [if_neg h8, hm, show 16 - 2 * ws.length = (15 - 2 * ws.length) + 1 by omega]
      have := shift_move (enc (ws.take j)) (15 - 2 * ws.length) (2 * ws.length - 2 * j) (enc (ws.drop j)) [] hP (by rw [hA]; simp; omega)
      rw [hA] at this
      simp only [List.length_nil, Nat.add_zero, Nat.zero_add, List.append_nil] at this
      rw [this, Option.map_some, Option.map_some, enc_append, enc_append, enc_zeros, show 15 - 2 * ws.length + 1 = 2 * (8 - ws.length) by omega]

theorem end_saw (ws : List Nat) (k : Option Nat) (cur : Bytes) (v : Nat) (hk : ∀ j, k = some j → j ≤ ws.length) :
    pton6End { mk ws k cur with val := v, saw := true } = if ws.length ≤ 7 then some ((fin (ws ++ [v]) k).map enc) else some none := by
  by_cases h : ws.length ≤ 7
  · rw [if_pos h, ← end_mk (ws ++ [v]) k cur v (by simp; omega) (fun j hj => by have := hk j hj; simp; omega), pton6End]
    rw [if_neg (by simp [mk]; omega)]
    simp only [if_true]
    rw [store_mk _ _ _ _ _ h]
    rfl
  · rw [if_neg h, pton6End, if_pos (by simp [mk]; omega)]

/-! ## The grammar, read from the left -/

theorem digit_hex {c : UInt8} (h : digit c = true) : isHex c = true := by simp [isHex, hexDigit, h]

theorem all_digit_hex {ds : Bytes} (h : ds.all digit = true) : ds.all isHex = true := by
  rw [List.all_eq_true] at h ⊢
  exact fun c hc => digit_hex (h c hc)

theorem hval_snoc (o : Nat) (ds : Bytes) (c : UInt8) : hval o (ds ++ [c]) = 16 * hval o ds + (hexDigit c).getD 0 := by simp [hval]

theorem value_zero : ∀ ds : Bytes, ds.all digit = true → val 0 ds = 0 → hval 0 ds = 0 := by
  intro ds
  induction ds with
  | nil => intros; rfl
  | cons c ds ih =>
    intro hd hv
    simp only [List.all_cons, Bool.and_eq_true] at hd
    have e : val 0 (c :: ds) = val (10 * 0 + (c.toNat - 48)) ds := rfl
    have := Ip.val_ge ds (10 * 0 + (c.toNat - 48))
    have hc : c.toNat - 48 = 0 := by omega
    rw [e, hc] at hv
    have : hval 0 (c :: ds) = hval (16 * 0 + (hexDigit c).getD 0) ds := rfl
    rw [this, hexDigit, if_pos hd.1, hc]
    exact ih hd.2 hv

theorem hval_step {N M : Nat} (h : ∀ ds : Bytes, ds.all digit = true → val 0 ds ≤ N → hval 0 ds ≤ M) :
    ∀ ds : Bytes, ds.all digit = true → val 0 ds ≤ 10 * N + 9 → hval 0 ds ≤ 16 * M + 9 := by
  intro ds hd hv
  by_cases hne : ds = []
  · subst hne; simp [hval]
  · have e := List.dropLast_concat_getLast hne
    generalize ds.dropLast = ds' at e
    generalize ds.getLast hne = c at e
    subst e
    simp only [List.all_append, List.all_cons, List.all_nil, Bool.and_true, Bool.and_eq_true] at hd
    have e1 : val 0 (ds' ++ [c]) = 10 * val 0 ds' + (c.toNat - 48) := by simp [val]
    rw [hval_snoc]
    have := h ds' hd.1 (by omega)
    have hc : (hexDigit c).getD 0 ≤ 9 := by
      have h2 := hd.2
      rw [hexDigit, if_pos h2]
      simp [digit] at h2 ⊢
      omega
    omega

theorem octet_hex {ds : Bytes} {v : Nat} (h : Dec 255 ds v) : hval 0 ds ≤ 65535 := by
  have h1 := hval_step (N := 0) (M := 0) (fun ds hd hv => by rw [value_zero ds hd (by omega)]; omega)
  have h2 := hval_step h1
  have h3 := hval_step h2 ds h.2.1 (by have h3 := h.2.2.1; have h4 := h.2.2.2; simp only [value] at h3; simp only [val]; omega)
  omega

theorem colon_hex : isHex 58 = false := by decide +kernel
theorem dot_hex : isHex 46 = false := by decide +kernel

theorem quad_parts {s : Bytes} {a b c d : Nat} (h : Quad s a b c d) : ∃ A t, s = A ++ 46 :: t ∧ Dec 255 A a := by
  obtain ⟨A, B, C, D, rfl, hA, _⟩ := h
  exact ⟨A, B ++ 46 :: (C ++ 46 :: D), by simp, hA⟩

theorem group_iff {g : Bytes} {v : Nat} : InetSpec.Group g v ↔ g ≠ [] ∧ g.all isHex = true ∧ hval 0 g = v ∧ v ≤ 65535 := by
  rw [InetSpec.Group, hexNumber_iff, and_assoc]

theorem colon_tail {t : Bytes} : ∀ c tl, 58 :: t = c :: tl → isHex c = false := by intro c tl e; cases e; exact colon_hex
theorem dot_tail {t : Bytes} : ∀ c tl, 46 :: t = c :: tl → isHex c = false := by intro c tl e; cases e; exact dot_hex

/-- A text of items that begins with a group. -/
theorem items_group {hs rest : Bytes} (hne : hs ≠ []) (hh : hs.all isHex = true) (hr : ∀ c tl, rest = c :: tl → isHex c = false) {vs : List Nat} {j : Option Nat} :
    Items (hs ++ rest) vs j ↔
      (rest = [] ∧ hval 0 hs ≤ 65535 ∧ vs = [hval 0 hs] ∧ j = none) ∨
      (∃ t a b c d, rest = 46 :: t ∧ hval 0 hs ≤ 65535 ∧ Quad (hs ++ rest) a b c d ∧ vs = [256 * a + b, 256 * c + d] ∧ j = none) ∨
      (∃ t vs' j', rest = 58 :: t ∧ hval 0 hs ≤ 65535 ∧ Items t vs' j' ∧ vs = hval 0 hs :: vs' ∧ j = j'.map (· + 1)) := by
  constructor
  · generalize hs' : hs ++ rest = s
    intro h
    cases h with
    | nil => simp at hs'; exact absurd hs'.1 hne
    | one _ v hg =>
      obtain ⟨_, g2, rfl, g4⟩ := group_iff.mp hg
      obtain ⟨e1, e2⟩ := hex_unique (t2 := []) (by rw [List.append_nil]; exact hs') hh g2 hr (by simp)
      subst e1
      exact Or.inl ⟨e2, g4, rfl, rfl⟩
    | quad _ a b c d hq =>
      obtain ⟨A, t, e, hA⟩ := quad_parts hq
      obtain ⟨e1, e2⟩ := hex_unique (hs'.trans e) hh (all_digit_hex hA.2.1) hr dot_tail
      refine Or.inr (Or.inl ⟨t, a, b, c, d, e2, e1 ▸ octet_hex hA, hq, rfl, rfl⟩)
    | cons g v t vs' j' hg ht =>
      obtain ⟨_, g2, rfl, g4⟩ := group_iff.mp hg
      obtain ⟨e1, e2⟩ := hex_unique hs' hh g2 hr colon_tail
      subst e1
      exact Or.inr (Or.inr ⟨t, vs', j', e2, g4, ht, rfl, rfl⟩)
    | colon t vs' ht =>
      cases hs with
      | nil => exact absurd rfl hne
      | cons c hs =>
        simp only [List.cons_append, List.cons.injEq] at hs'
        rw [hs'.1] at hh
        simp [colon_hex] at hh
  · rintro (⟨rfl, hv, rfl, rfl⟩ | ⟨t, a, b, c, d, _, _, hq, rfl, rfl⟩ | ⟨t, vs', j', rfl, hv, ht, rfl, rfl⟩)
    · rw [List.append_nil]; exact .one _ _ (group_iff.mpr ⟨hne, hh, rfl, hv⟩)
    · exact .quad _ _ _ _ _ hq
    · exact .cons _ _ _ _ _ (group_iff.mpr ⟨hne, hh, rfl, hv⟩) ht

/-- A text of items that does not. -/
theorem items_colon {rest : Bytes} (hr : ∀ c tl, rest = c :: tl → isHex c = false) {vs : List Nat} {j : Option Nat} :
    Items rest vs j ↔ (rest = [] ∧ vs = [] ∧ j = none) ∨ ∃ t, rest = 58 :: t ∧ Items t vs none ∧ j = some 0 := by
  constructor
  · intro h
    have hno : ∀ {g t : Bytes}, rest = g ++ t → g ≠ [] → g.all isHex = true → False := by
      intro g t e hne hg
      cases g with
      | nil => exact hne rfl
      | cons c g =>
        have := hr c _ e
        simp [this] at hg
    cases h with
    | nil => exact Or.inl ⟨rfl, rfl, rfl⟩
    | one _ v hg => exact (hno (t := []) (by simp) hg.1 (group_iff.mp hg).2.1).elim
    | quad _ a b c d hq =>
      obtain ⟨A, t, e, hA⟩ := quad_parts hq
      exact (hno e hA.1 (all_digit_hex hA.2.1)).elim
    | cons g v t vs' j' hg ht => exact (hno rfl hg.1 (group_iff.mp hg).2.1).elim
    | colon t vs' ht => exact Or.inr ⟨t, rfl, ht, rfl⟩
  · rintro (⟨rfl, rfl, rfl⟩ | ⟨t, rfl, ht, rfl⟩)
    · exact .nil
    · exact .colon _ _ ht

/-! ## The loop -/

/-- What follows the loop. -/
def after : Option S6 → Option (Option Bytes)
  | none => some none
  | some s => pton6End s

/-- The addresses for a text read after the words `ws`, with a further colon after `k` of them. -/
def Reads (s : Bytes) (ws : List Nat) (k : Option Nat) (r : Bytes) : Prop :=
  ∃ vs j us, Items s vs j ∧ (k = none ∨ j = none) ∧ ws.length + vs.length ≤ 8 ∧ fin (ws ++ vs) (k.or (j.map (· + ws.length))) = some us ∧ r = enc us

theorem no_reads {s : Bytes} {ws : List Nat} {k : Option Nat} (h : ∀ vs j, Items s vs j → (k = none ∨ j = none) → ws.length + vs.length ≤ 8 → False) :
    ∃ x, some (none : Option Bytes) = some x ∧ ∀ r, x = some r ↔ Reads s ws k r := by
  refine ⟨none, rfl, fun r => ⟨by simp, ?_⟩⟩
  rintro ⟨vs, j, us, h1, h2, h3, _⟩
  exact (h vs j h1 h2 h3).elim

theorem some_reads {s : Bytes} {ws vs : List Nat} {k j : Option Nat} (hi : ∀ vs' j', Items s vs' j' ↔ vs' = vs ∧ j' = j) (hj : k = none ∨ j = none)
    (hl : ws.length + vs.length ≤ 8) :
    ∃ x, some ((fin (ws ++ vs) (k.or (j.map (· + ws.length)))).map enc) = some x ∧ ∀ r, x = some r ↔ Reads s ws k r := by
  refine ⟨_, rfl, fun r => ?_⟩
  constructor
  · intro h
    obtain ⟨us, h1, rfl⟩ := Option.map_eq_some_iff.mp h
    exact ⟨vs, j, us, (hi vs j).mpr ⟨rfl, rfl⟩, hj, hl, h1, rfl⟩
  · rintro ⟨vs', j', us, h1, _, _, h4, rfl⟩
    obtain ⟨rfl, rfl⟩ := (hi _ _).mp h1
    rw [h4]; rfl

theorem reads_congr {s s' : Bytes} {ws ws' : List Nat} {k k' : Option Nat} {x : Option (Option Bytes)} (h : ∃ y, x = some y ∧ ∀ r, y = some r ↔ Reads s ws k r)
    (e : ∀ r, Reads s ws k r ↔ Reads s' ws' k' r) : ∃ y, x = some y ∧ ∀ r, y = some r ↔ Reads s' ws' k' r := by
  obtain ⟨y, h1, h2⟩ := h
  exact ⟨y, h1, fun r => (h2 r).trans (e r)⟩

theorem or_map_succ (k j : Option Nat) (n : Nat) : k.or ((j.map (· + 1)).map (· + n)) = k.or (j.map (· + (n + 1))) := by
  cases j with
  | none => rfl
  | some j => simp [Nat.add_assoc, Nat.add_comm 1 n]

theorem loop_mk : ∀ (n : Nat) (s : Bytes), s.length ≤ n → ∀ (ws : List Nat) (k : Option Nat), ws.length ≤ 8 → (∀ j, k = some j → j ≤ ws.length) →
    ∃ x, (pton6Loop s (mk ws k s)).bind after = some x ∧ ∀ r, x = some r ↔ Reads s ws k r := by
  intro n
  induction n with
  | zero =>
    intro s hs ws k hw hk
    rw [List.length_eq_zero_iff.mp (Nat.le_zero.mp hs), pton6Loop, Option.bind_some]
    have := some_reads (s := []) (ws := ws) (vs := []) (k := k) (j := none) (fun vs' j' => by rw [items_colon (by simp)]; simp) (Or.inr rfl) (by simpa using hw)
    have e := end_mk ws k [] 0 hw hk
    simp only [Option.map_none, Option.or_none, List.append_nil] at this
    rw [← e] at this
    exact this
  | succ n ih =>
    intro s hs ws k hw hk
    obtain ⟨hs', rest, rfl, hh, hr⟩ := split_hex s
    by_cases hne : hs' = []
    · subst hne
      rw [List.nil_append] at hs ⊢
      cases rest with
      | nil =>
        have := some_reads (s := []) (ws := ws) (vs := []) (k := k) (j := none) (fun vs' j' => by rw [items_colon (by simp)]; simp) (Or.inr rfl) (by simpa using hw)
        have e := end_mk ws k [] 0 hw hk
        simp only [Option.map_none, Option.or_none, List.append_nil] at this
        rw [← e] at this
        exact this
      | cons c t =>
        have hc : hexVal c = none := by rw [hexVal_eq]; have := hr c t rfl; simpa [isHex] using this
        rw [pton6Loop, hc]
        by_cases h58 : c = 58
        · subst h58
          simp only [if_true, mk, Bool.not_false]
          cases k with
          | some j =>
            simp only [Option.map_some, Option.isSome_some, if_true, Option.bind_some, after]
            refine no_reads ?_
            intro vs j' h1 h2 _
            rcases (items_colon hr).mp h1 with ⟨h, _⟩ | ⟨t', _, _, h⟩
            · cases h
            · rw [h] at h2; simp at h2
          | none =>
            simp only [Option.map_none, Option.isSome_none, Bool.false_eq_true, if_false]
            have := ih t (by simpa using hs) ws (some ws.length) hw (by simp)
            refine reads_congr this fun r => ?_
            constructor
            · rintro ⟨vs, j, us, h1, h2, h3, h4, rfl⟩
              have hj : j = none := by simpa using h2
              subst hj
              exact ⟨vs, some 0, us, .colon _ _ h1, Or.inl rfl, h3, by simpa using h4, rfl⟩
            · rintro ⟨vs, j, us, h1, h2, h3, h4, rfl⟩
              rcases (items_colon hr).mp h1 with ⟨h, _⟩ | ⟨t', e, h, rfl⟩
              · cases h
              · cases e
                exact ⟨vs, none, us, h, Or.inr rfl, h3, by simpa using h4, rfl⟩
        · have hrej : ∃ x, some (none : Option Bytes) = some x ∧ ∀ r, x = some r ↔ Reads (c :: t) ws k r := by
            refine no_reads ?_
            intro vs j h1 _ _
            rcases (items_colon hr).mp h1 with ⟨h, _⟩ | ⟨t', h, _⟩
            · cases h
            · exact h58 (List.cons.inj h).1
          simp only [if_neg h58]
          by_cases h46 : c = 46 ∧ (mk ws k (c :: t)).tp + 4 ≤ 16
          · rw [if_pos h46]
            obtain ⟨x, hx1, hx2⟩ := pton4_spec (c :: t)
            have : x = none := by
              cases x with
              | none => rfl
              | some r =>
                obtain ⟨a, b, cc, d, hq, _⟩ := (hx2 r).mp rfl
                obtain ⟨A, t', e, hA⟩ := quad_parts hq
                exfalso
                cases A with
                | nil => exact hA.1 rfl
                | cons y A =>
                  have hy := all_digit_hex hA.2.1
                  simp only [List.cons_append, List.cons.injEq] at e
                  simp [← e.1, hr c t rfl] at hy
            subst this
            have hx1' : pton4 (mk ws k (c :: t)).curtok = some none := hx1
            rw [hx1', Option.bind_some, Option.bind_some]
            exact hrej
          · rw [if_neg h46, Option.bind_some]
            exact hrej
    · rw [loop_hex _ _ _ (by simp [mk]) hh]
      have hv0 : (mk ws k (hs' ++ rest)).val = 0 := rfl
      rw [hv0]
      by_cases hv : hval 0 hs' ≤ 65535
      · rw [if_pos hv]
        have hsaw : ((mk ws k (hs' ++ rest)).saw || !hs'.isEmpty) = true := by cases hs' with | nil => exact absurd rfl hne | cons => rfl
        rw [hsaw]
        cases rest with
        | nil =>
          rw [pton6Loop, Option.bind_some]
          simp only [after]
          rw [end_saw _ _ _ _ hk]
          have hi : ∀ vs' j', Items (hs' ++ []) vs' j' ↔ vs' = [hval 0 hs'] ∧ j' = none := by
            intro vs' j'; rw [items_group hne hh hr]; simp [hv]
          by_cases h8 : ws.length ≤ 7
          · rw [if_pos h8]
            have := some_reads (s := hs' ++ []) (ws := ws) (vs := [hval 0 hs']) (k := k) (j := none) hi (Or.inr rfl) (by simpa using h8)
            simpa using this
          · rw [if_neg h8]
            refine no_reads ?_
            intro vs j h1 _ h3
            rw [((hi _ _).mp h1).1] at h3
            simp at h3; omega
        | cons c t =>
          have hc : hexVal c = none := by rw [hexVal_eq]; have := hr c t rfl; simpa [isHex] using this
          rw [pton6Loop, hc]
          by_cases h58 : c = 58
          · subst h58
            simp only [if_true, Bool.not_true, Bool.false_eq_true, if_false]
            by_cases h8 : ws.length ≤ 7
            · rw [if_neg (by simp [mk]; omega)]
              have := ih t (by simp at hs; omega) (ws ++ [hval 0 hs']) k (by simp; omega) (fun j hj => by have := hk j hj; simp; omega)
              have est := store_mk ws k t (hval 0 hs') true h8
              simp only [mk] at est
              simp only [mk, est, Option.bind_some]
              refine reads_congr this fun r => ?_
              constructor
              · rintro ⟨vs, j, us, h1, h2, h3, h4, rfl⟩
                refine ⟨hval 0 hs' :: vs, j.map (· + 1), us, (items_group hne hh hr).mpr (Or.inr (Or.inr ⟨t, vs, j, rfl, hv, h1, rfl, rfl⟩)), ?_, ?_, ?_, rfl⟩
                · rcases h2 with h2 | h2
                  · exact Or.inl h2
                  · rw [h2]; exact Or.inr rfl
                · simp at h3 ⊢; omega
                · rw [or_map_succ]; simpa using h4
              · rintro ⟨vs, j, us, h1, h2, h3, h4, rfl⟩
                rcases (items_group hne hh hr).mp h1 with ⟨h, _⟩ | ⟨_, _, _, _, _, h, _⟩ | ⟨t', vs', j', e, _, h, rfl, rfl⟩
                · cases h
                · cases h
                · cases e
                  refine ⟨vs', j', us, h, ?_, ?_, ?_, rfl⟩
                  · rcases h2 with h2 | h2
                    · exact Or.inl h2
                    · exact Or.inr (by simpa using h2)
                  · simp at h3 ⊢; omega
                  · rw [or_map_succ] at h4; simpa using h4
            · rw [if_pos (by simp [mk]; omega), Option.bind_some]
              refine no_reads ?_
              intro vs j h1 _ h3
              rcases (items_group hne hh hr).mp h1 with ⟨h, _⟩ | ⟨_, _, _, _, _, h, _⟩ | ⟨t', vs', j', e, _, h, rfl, rfl⟩
              · cases h
              · cases h
              · simp at h3; omega
          · simp only [if_neg h58]
            by_cases h46 : c = 46
            · subst h46
              have hi : ∀ vs' j', Items (hs' ++ 46 :: t) vs' j' ↔ ∃ a b c d, Quad (hs' ++ 46 :: t) a b c d ∧ vs' = [256 * a + b, 256 * c + d] ∧ j' = none := by
                intro vs' j'; rw [items_group hne hh hr]; simp [hv]
              obtain ⟨x, hx1, hx2⟩ := pton4_spec (hs' ++ 46 :: t)
              by_cases h6 : ws.length ≤ 6
              · rw [if_pos (by simp [mk]; omega)]
                have hx1' : pton4 (mk ws k (hs' ++ 46 :: t)).curtok = some x := hx1
                simp only [hx1', Option.bind_some]
                cases x with
                | none =>
                  refine no_reads ?_
                  intro vs j h1 _ _
                  obtain ⟨a, b, c, d, hq, _⟩ := (hi _ _).mp h1
                  have := (hx2 _).mpr ⟨a, b, c, d, hq, rfl⟩
                  cases this
                | some q =>
                  obtain ⟨a, b, c, d, hq, rfl⟩ := (hx2 q).mp rfl
                  have hb : a ≤ 255 ∧ b ≤ 255 ∧ c ≤ 255 ∧ d ≤ 255 := by
                    obtain ⟨_, _, _, _, _, h1, h2, h3, h4⟩ := hq
                    exact ⟨h1.2.2.2, h2.2.2.2, h3.2.2.2, h4.2.2.2⟩
                  have hp := put4_mk ws a b c d h6 hb.1 hb.2.1 hb.2.2.1 hb.2.2.2
                  have hp' : put4 (mk ws k (hs' ++ 46 :: t)).tmp (mk ws k (hs' ++ 46 :: t)).tp [UInt8.ofNat a, UInt8.ofNat b, UInt8.ofNat c, UInt8.ofNat d] = _ := hp
                  simp only [hp', Option.map_some, Option.bind_some, after]
                  have he := end_mk (ws ++ [256 * a + b, 256 * c + d]) k (hs' ++ 46 :: t) (hval 0 hs') (by simp; omega) (fun j hj => by have := hk j hj; simp; omega)
                  have hi' : ∀ vs' j', Items (hs' ++ 46 :: t) vs' j' ↔ vs' = [256 * a + b, 256 * c + d] ∧ j' = none := by
                    intro vs' j'
                    rw [hi]
                    constructor
                    · rintro ⟨a', b', c', d', hq', rfl, rfl⟩
                      have hb' : a' ≤ 255 ∧ b' ≤ 255 ∧ c' ≤ 255 ∧ d' ≤ 255 := by
                        obtain ⟨_, _, _, _, _, h1, h2, h3, h4⟩ := hq'
                        exact ⟨h1.2.2.2, h2.2.2.2, h3.2.2.2, h4.2.2.2⟩
                      have e := (hx2 _).mpr ⟨a', b', c', d', hq', rfl⟩
                      simp only [Option.some.injEq, List.cons.injEq, and_true] at e
                      have u : ∀ x y : Nat, x ≤ 255 → y ≤ 255 → UInt8.ofNat x = UInt8.ofNat y → x = y := by
                        intro x y h1 h2 h
                        have := congrArg UInt8.toNat h
                        simp at this; omega
                      obtain ⟨e1, e2, e3, e4⟩ := e
                      rw [u _ _ hb.1 hb'.1 e1, u _ _ hb.2.1 hb'.2.1 e2, u _ _ hb.2.2.1 hb'.2.2.1 e3, u _ _ hb.2.2.2 hb'.2.2.2 e4]
                      exact ⟨rfl, rfl⟩
                    · rintro ⟨rfl, rfl⟩
                      exact ⟨a, b, c, d, hq, rfl, rfl⟩
                  have := some_reads (s := hs' ++ 46 :: t) (ws := ws) (vs := [256 * a + b, 256 * c + d]) (k := k) (j := none) hi' (Or.inr rfl) (by simp; omega)
                  simp only [Option.map_none, Option.or_none] at this
                  rw [← he] at this
                  simpa [mk, Nat.mul_add] using this
              · rw [if_neg (by simp [mk]; omega), Option.bind_some]
                refine no_reads ?_
                intro vs j h1 _ h3
                obtain ⟨a, b, c, d, hq, rfl, _⟩ := (hi _ _).mp h1
                simp at h3; omega
            · rw [if_neg (fun hh => h46 hh.1), Option.bind_some]
              refine no_reads ?_
              intro vs j h1 _ _
              rcases (items_group hne hh hr).mp h1 with ⟨h, _⟩ | ⟨_, _, _, _, _, h, _⟩ | ⟨_, _, _, h, _⟩
              · cases h
              · exact h46 (List.cons.inj h).1
              · exact h58 (List.cons.inj h).1
      · rw [if_neg hv, Option.bind_some]
        refine no_reads ?_
        intro vs j h1 _ _
        rcases (items_group hne hh hr).mp h1 with ⟨_, h, _⟩ | ⟨_, _, _, _, _, _, h, _⟩ | ⟨_, _, _, _, h, _⟩ <;> exact hv h

/-! ## Bytes and words -/

theorem words_enc : ∀ ws : List Nat, (∀ w ∈ ws, w ≤ 65535) → InetSpec.words (enc ws) = ws := by
  intro ws
  induction ws with
  | nil => intro _; rfl
  | cons w ws ih =>
    intro h
    have hw := h w (by simp)
    have e : enc (w :: ws) = UInt8.ofNat (w >>> 8) :: UInt8.ofNat w :: enc ws := rfl
    rw [e, InetSpec.words, ih fun v hv => h v (by simp [hv])]
    congr 1
    rw [Nat.shiftRight_eq_div_pow]
    simp
    omega

theorem enc_words : ∀ (n : Nat) (bs : Bytes), bs.length = 2 * n → enc (InetSpec.words bs) = bs ∧ (InetSpec.words bs).length = n ∧ ∀ w ∈ InetSpec.words bs, w ≤ 65535 := by
  intro n
  induction n with
  | zero =>
    intro bs h
    rw [List.length_eq_zero_iff.mp h]
    exact ⟨rfl, rfl, by simp [InetSpec.words]⟩
  | succ n ih =>
    intro bs h
    match bs, h with
    | a :: b :: rest, h =>
      obtain ⟨i1, i2, i3⟩ := ih rest (by simp at h; omega)
      have ha := a.toNat_lt
      have hb := b.toNat_lt
      rw [InetSpec.words]
      refine ⟨?_, by simp [i2], ?_⟩
      · have e : ∀ w ws, enc (w :: ws) = UInt8.ofNat (w >>> 8) :: UInt8.ofNat w :: enc ws := fun _ _ => rfl
        rw [e, i1, Nat.shiftRight_eq_div_pow]
        have e1 : UInt8.ofNat ((256 * a.toNat + b.toNat) / 2 ^ 8) = a := by
          apply UInt8.toNat_inj.mp; simp; omega
        have e2 : UInt8.ofNat (256 * a.toNat + b.toNat) = b := by
          apply UInt8.toNat_inj.mp; simp
        rw [e1, e2]
      · intro w hw
        rcases List.mem_cons.mp hw with rfl | hw
        · omega
        · exact i3 w hw
    | [_], h => simp at h; omega

theorem items_small {s : Bytes} {vs : List Nat} {j : Option Nat} (h : Items s vs j) : (∀ v ∈ vs, v ≤ 65535) ∧ ∀ k, j = some k → k ≤ vs.length := by
  induction h with
  | nil => simp
  | one g v hg => exact ⟨by simpa using hg.2.2, by simp⟩
  | quad s a b c d hq =>
    obtain ⟨_, _, _, _, _, h1, h2, h3, h4⟩ := hq
    have := h1.2.2.2; have := h2.2.2.2; have := h3.2.2.2; have := h4.2.2.2
    exact ⟨by intro v hv; simp at hv; omega, by simp⟩
  | cons g v s vs k hg _ ih =>
    refine ⟨?_, ?_⟩
    · intro w hw
      rcases List.mem_cons.mp hw with rfl | hw
      · exact hg.2.2
      · exact ih.1 w hw
    · intro m hm
      obtain ⟨k', h1, rfl⟩ := Option.map_eq_some_iff.mp hm
      have := ih.2 k' h1
      simpa using this
  | colon s vs _ ih => exact ⟨ih.1, by simp⟩

theorem fin_small {ws us : List Nat} {k : Option Nat} (h : ∀ v ∈ ws, v ≤ 65535) (h8 : ws.length ≤ 8) (hk : ∀ j, k = some j → j ≤ ws.length) (hf : fin ws k = some us) :
    us.length = 8 ∧ ∀ v ∈ us, v ≤ 65535 := by
  cases k with
  | none =>
    simp only [fin] at hf
    split at hf
    · cases hf; exact ⟨by assumption, h⟩
    · cases hf
  | some k =>
    have hk := hk k rfl
    simp only [fin] at hf
    split at hf
    · cases hf
      refine ⟨by simp; omega, ?_⟩
      intro v hv
      rcases List.mem_append.mp hv with hv | hv
      · exact h v (List.mem_of_mem_take hv)
      · rw [(List.mem_replicate.mp hv).2]; omega
    · cases hf
      refine ⟨by simp; omega, ?_⟩
      intro v hv
      rcases List.mem_append.mp hv with hv | hv
      · rcases List.mem_append.mp hv with hv | hv
        · exact h v (List.mem_of_mem_take hv)
        · rw [(List.mem_replicate.mp hv).2]; omega
      · exact h v (List.mem_of_mem_drop hv)

theorem accepted_cases {s : Bytes} {us : List Nat} (h : Accepted s us) : ∃ t, Lead s t ∧
    ((Items t us none ∧ us.length = 8) ∨
      (∃ ws k, Items t ws (some k) ∧ ws.length ≤ 7 ∧ us = ws.take k ++ List.replicate (8 - ws.length) 0 ++ ws.drop k) ∨
      ∃ ws k, Items t ws (some k) ∧ ws.length = 8 ∧ us = ws.take k ++ List.replicate (8 - k) 0) := by
  induction h with
  | full t ws h1 h2 h3 => exact ⟨t, h1, Or.inl ⟨h2, h3⟩⟩
  | short t ws k h1 h2 h3 => exact ⟨t, h1, Or.inr (Or.inl ⟨ws, k, h2, h3, rfl⟩)⟩
  | lost t ws k h1 h2 h3 => exact ⟨t, h1, Or.inr (Or.inr ⟨ws, k, h2, h3, rfl⟩)⟩

theorem reads_accepted {s t : Bytes} (hl : Lead s t) (r : Bytes) : Reads t [] none r ↔ ∃ us, Accepted s us ∧ r = enc us ∧ us.length = 8 ∧ ∀ v ∈ us, v ≤ 65535 := by
  have huniq : ∀ {t'}, Lead s t' → t' = t := by
    intro t' h'
    rcases hl with ⟨rfl, h⟩ | ⟨u, rfl, rfl⟩ <;> rcases h' with ⟨rfl, h'⟩ | ⟨u', e, e'⟩
    · rfl
    · exact absurd e (h _)
    · exact absurd rfl (h' _)
    · exact (List.cons.inj e).2.symm
  constructor
  · rintro ⟨vs, j, us, h1, _, h3, h4, rfl⟩
    obtain ⟨s1, s2⟩ := items_small h1
    simp only [List.nil_append, Option.none_or, List.length_nil, Nat.zero_add, Nat.add_zero, Option.map_id_fun', id] at h3 h4
    refine ⟨us, ?_, rfl, fin_small s1 h3 s2 h4⟩
    cases j with
    | none =>
      simp only [fin] at h4
      split at h4
      · cases h4; exact .full _ _ _ hl h1 (by assumption)
      · cases h4
    | some k =>
      simp only [fin] at h4
      split at h4
      · cases h4; exact .lost _ _ _ _ hl h1 (by assumption)
      · cases h4; exact .short _ _ _ _ hl h1 (by omega)
  · rintro ⟨us, ha, rfl, _, _⟩
    obtain ⟨t', h1, ⟨h2, h3⟩ | ⟨ws, k, h2, h3, rfl⟩ | ⟨ws, k, h2, h3, rfl⟩⟩ := accepted_cases ha
    · cases huniq h1
      exact ⟨us, none, us, h2, Or.inl rfl, by simp; omega, by simp [fin, h3], rfl⟩
    · cases huniq h1
      exact ⟨ws, some k, _, h2, Or.inl rfl, by simp; omega, by simp [fin, show ws.length ≠ 8 by omega], rfl⟩
    · cases huniq h1
      exact ⟨ws, some k, _, h2, Or.inl rfl, by simp; omega, by simp [fin, h3], rfl⟩

/-- What `inet_pton6` accepts, and what it stores. -/
theorem pton6_spec (s : Bytes) : ∃ x, pton6 s = some x ∧ ∀ r, x = some r ↔ r.length = 16 ∧ Accepted s (InetSpec.words r) := by
  have hfin : ∀ {t x}, Lead s t → (∀ r, x = some r ↔ Reads t [] none r) → ∀ r, x = some r ↔ r.length = 16 ∧ Accepted s (InetSpec.words r) := by
    intro t x hl h r
    rw [h, reads_accepted hl]
    constructor
    · rintro ⟨us, h1, rfl, h3, h4⟩
      exact ⟨by rw [enc_length]; omega, by rw [words_enc us h4]; exact h1⟩
    · rintro ⟨h1, h2⟩
      obtain ⟨w1, w2, w3⟩ := enc_words 8 r h1
      exact ⟨_, h2, w1.symm, w2, w3⟩
  have hgo : ∀ t : Bytes, (pton6Loop t (mk [] none t)).bind after = (pton6Loop t { curtok := t }).bind fun r => match r with
      | none => some none
      | some s => pton6End s := by
    intro t
    have e : mk [] none t = { curtok := t } := rfl
    rw [e]
    exact congrArg _ (funext fun r => by cases r <;> rfl)
  by_cases h : ∃ t, s = 58 :: t
  · obtain ⟨t, rfl⟩ := h
    by_cases h2 : ∃ u, t = 58 :: u
    · obtain ⟨u, rfl⟩ := h2
      obtain ⟨x, hx, hy⟩ := loop_mk _ (58 :: u) (Nat.le_refl _) [] none (by simp) (by simp)
      refine ⟨x, ?_, hfin (Or.inr ⟨u, rfl, rfl⟩) hy⟩
      rw [hgo] at hx
      exact hx
    · refine ⟨none, ?_, fun r => ⟨by simp, ?_⟩⟩
      · have : t.head? ≠ some 58 := by
          cases t with
          | nil => simp
          | cons c t => intro e; simp at e; exact h2 ⟨t, by rw [e]⟩
        simp [pton6, this]
      · rintro ⟨_, ha⟩
        have : ∀ t', Lead (58 :: t) t' → False := by
          rintro t' (⟨rfl, h⟩ | ⟨u, e, rfl⟩)
          · exact h _ rfl
          · exact h2 ⟨u, (List.cons.inj e).2⟩
        obtain ⟨t', h1, _⟩ := accepted_cases ha
        exact (this t' h1).elim
  · obtain ⟨x, hx, hy⟩ := loop_mk _ s (Nat.le_refl _) [] none (by simp) (by simp)
    refine ⟨x, ?_, hfin (Or.inl ⟨rfl, fun u e => h ⟨u, e⟩⟩) hy⟩
    rw [hgo] at hx
    unfold pton6
    split
    · next rest => exact absurd ⟨rest, rfl⟩ h
    · exact hx

/-! ## Text forms are accepted -/

theorem words_items {s : Bytes} {ws : List Nat} (h : InetSpec.Words s ws) : Items s ws none ∧ ∃ c t, s = c :: t ∧ isHex c = true := by
  have hhead : ∀ (g t : Bytes), g ≠ [] → g.all isHex = true → ∃ c u, g ++ t = c :: u ∧ isHex c = true := by
    intro g t hne hg
    cases g with
    | nil => exact absurd rfl hne
    | cons c g => simp only [List.all_cons, Bool.and_eq_true] at hg; exact ⟨c, g ++ t, rfl, hg.1⟩
  induction h with
  | one g v hg => exact ⟨.one _ _ hg, by simpa using hhead g [] hg.1 (group_iff.mp hg).2.1⟩
  | quad s a b c d hq =>
    obtain ⟨A, t, rfl, hA⟩ := quad_parts hq
    exact ⟨.quad _ _ _ _ _ hq, hhead _ _ hA.1 (all_digit_hex hA.2.1)⟩
  | cons g v s vs hg _ ih =>
    rw [List.append_assoc]
    exact ⟨.cons g v s vs none hg ih.1, hhead _ _ hg.1 (group_iff.mp hg).2.1⟩

theorem groups_items {l : Bytes} {ls : List Nat} (h : InetSpec.Groups l ls) {t : Bytes} {vs : List Nat} {j : Option Nat} (ht : Items t vs j) :
    Items (l ++ 58 :: t) (ls ++ vs) (j.map (· + ls.length)) ∧ ∃ c u, l = c :: u ∧ isHex c = true := by
  have hhead : ∀ (g t : Bytes), g ≠ [] → g.all isHex = true → ∃ c u, g ++ t = c :: u ∧ isHex c = true := by
    intro g t hne hg
    cases g with
    | nil => exact absurd rfl hne
    | cons c g => simp only [List.all_cons, Bool.and_eq_true] at hg; exact ⟨c, g ++ t, rfl, hg.1⟩
  induction h with
  | one g v hg => exact ⟨.cons g v t vs j hg ht, by simpa using hhead g [] hg.1 (group_iff.mp hg).2.1⟩
  | cons g v s vs' hg _ ih =>
    have := Items.cons g v _ _ _ hg ih.1
    refine ⟨?_, by rw [List.append_assoc]; exact hhead _ _ hg.1 (group_iff.mp hg).2.1⟩
    have e : (j.map (· + vs'.length)).map (· + 1) = j.map (· + (v :: vs').length) := by
      cases j with
      | none => rfl
      | some j => simp [Nat.add_assoc]
    rw [e] at this
    simpa using this

theorem text_accepted {s : Bytes} {ws : List Nat} (h : InetSpec.Text s ws) : Accepted s ws := by
  have hlead : ∀ s : Bytes, (∃ c t, s = c :: t ∧ isHex c = true) → Lead s s := by
    rintro s ⟨c, t, rfl, hc⟩
    refine Or.inl ⟨rfl, ?_⟩
    intro u e
    rw [(List.cons.inj e).1, colon_hex] at hc
    cases hc
  induction h with
  | full s ws h1 h2 => exact .full _ _ _ (hlead _ (words_items h1).2) (words_items h1).1 h2
  | short l r ls rs hl hr hlen =>
    have hr' : Items r rs none := by
      rcases hr with ⟨rfl, rfl⟩ | hr
      · exact .nil
      · exact (words_items hr).1
    rcases hl with ⟨rfl, rfl⟩ | hl
    · have := Accepted.short (58 :: 58 :: r) (58 :: r) rs 0 (Or.inr ⟨r, rfl, rfl⟩) (.colon _ _ hr') (by simpa using hlen)
      simpa using this
    · obtain ⟨g1, c, u, g2, g3⟩ := groups_items hl (.colon _ _ hr')
      have := Accepted.short _ _ _ _ (hlead (l ++ 58 :: 58 :: r) ⟨c, u ++ 58 :: 58 :: r, by rw [g2]; rfl, g3⟩) g1 (by simpa using hlen)
      simpa [Nat.sub_add_eq] using this

end Inet
