import Verif.Props.Ip6
import Verif.Props.StrNum
/-! # C34 and C35: comparing and printing addresses -/
open IpSpec NumSpec TrimSpec

namespace Ip

/-- The values the C types allow: four bytes or eight 16-bit numbers, and a 16-bit port. -/
def Addr.WF : Addr → Prop
  | .v4 a => a.octets.length = 4 ∧ (∀ x ∈ a.octets, x ≤ 255) ∧ a.port ≤ 65535
  | .v6 a => a.sixteen.length = 8 ∧ (∀ x ∈ a.sixteen, x ≤ 65535) ∧ a.port ≤ 65535

theorem eqLoop_ok (a b : List Nat) : ∀ (k i : Nat), i + k = a.length → i + k = b.length →
    eqLoop a b i k = some (if a.drop i = b.drop i then 1 else 0) := by
  intro k
  induction k with
  | zero =>
    intro i ha hb
    rw [List.drop_of_length_le (by omega), List.drop_of_length_le (by omega)]; rfl
  | succ k ih =>
    intro i ha hb
    have h1 : i < a.length := by omega
    have h2 : i < b.length := by omega
    rw [eqLoop, List.getElem?_eq_getElem h1, List.getElem?_eq_getElem h2, show a.drop i = a[i] :: a.drop (i + 1) from List.drop_eq_getElem_cons h1,
      show b.drop i = b[i] :: b.drop (i + 1) from List.drop_eq_getElem_cons h2]
    simp only [Option.bind_eq_bind, Option.bind_some]
    by_cases h : a[i] = b[i]
    · rw [if_neg (by simp [h]), ih (i + 1) (by omega) (by omega)]; simp only [h, List.cons.injEq, true_and]
    · rw [if_pos h, if_neg (by rw [List.cons.injEq]; exact fun hh => h hh.1)]

theorem lex_iff (x y : Nat) (xs ys : List Nat) : Lex (x :: xs) (y :: ys) ↔ x < y ∨ (x = y ∧ Lex xs ys) := by
  constructor
  · intro h
    cases h with
    | first _ _ _ _ h => exact Or.inl h
    | rest _ _ _ h => exact Or.inr ⟨rfl, h⟩
  · rintro (h | ⟨rfl, h⟩)
    · exact .first _ _ _ _ h
    · exact .rest _ _ _ h

theorem lessLoop_ok (a b : List Nat) : ∀ (k i : Nat), i + k = a.length → i + k = b.length →
    ∃ r, lessLoop a b i k = some r ∧ (r = true ↔ Lex (a.drop i) (b.drop i)) := by
  intro k
  induction k with
  | zero =>
    intro i ha hb
    rw [List.drop_of_length_le (by omega), List.drop_of_length_le (by omega)]
    exact ⟨false, rfl, by simp; intro h; cases h⟩
  | succ k ih =>
    intro i ha hb
    have h1 : i < a.length := by omega
    have h2 : i < b.length := by omega
    rw [lessLoop, List.getElem?_eq_getElem h1, List.getElem?_eq_getElem h2, List.drop_eq_getElem_cons h1, List.drop_eq_getElem_cons h2]
    simp only [Option.bind_eq_bind, Option.bind_some, lex_iff]
    by_cases h : a[i] > b[i]
    · exact ⟨false, by rw [if_pos h], by simp; omega⟩
    · by_cases h' : a[i] < b[i]
      · exact ⟨true, by rw [if_neg h, if_pos h'], by simp [h']⟩
      · obtain ⟨r, hr, hl⟩ := ih (i + 1) (by omega) (by omega)
        refine ⟨r, by rw [if_neg h, if_neg h', hr], ?_⟩
        rw [hl]
        constructor
        · intro h; exact Or.inr ⟨by omega, h⟩
        · rintro (h | ⟨_, h⟩)
          · omega
          · exact h

/-- The family and the numbers of an address, without its port. -/
def Addr.key : Addr → Bool × List Nat
  | .v4 a => (false, a.octets)
  | .v6 a => (true, a.sixteen)

end Ip

namespace IpSpec
theorem lex_irrefl (a : List Nat) : ¬ Lex a a := by
  induction a with
  | nil => intro h; cases h
  | cons x a ih => rw [Ip.lex_iff]; rintro (h | ⟨_, h⟩); · omega
                   · exact ih h
theorem lex_trans (a : List Nat) : ∀ b c, Lex a b → Lex b c → Lex a c := by
  induction a with
  | nil => intro b c h; cases h
  | cons x a ih =>
    intro b c h1 h2
    cases b with
    | nil => cases h1
    | cons y b =>
      cases c with
      | nil => cases h2
      | cons z c =>
        rw [Ip.lex_iff] at *
        rcases h1 with h1 | ⟨rfl, h1⟩ <;> rcases h2 with h2 | ⟨rfl, h2⟩
        · exact Or.inl (by omega)
        · exact Or.inl h1
        · exact Or.inl h2
        · exact Or.inr ⟨rfl, ih _ _ h1 h2⟩
theorem lex_total (a : List Nat) : ∀ b, a.length = b.length → Lex a b ∨ a = b ∨ Lex b a := by
  induction a with
  | nil => intro b h; cases b with
    | nil => exact Or.inr (Or.inl rfl)
    | cons _ _ => simp at h
  | cons x a ih =>
    intro b h
    cases b with
    | nil => simp at h
    | cons y b =>
      rw [Ip.lex_iff, Ip.lex_iff]
      rcases Nat.lt_trichotomy x y with hxy | rfl | hxy
      · exact Or.inl (Or.inl hxy)
      · rcases ih b (by simpa using h) with h | rfl | h
        · exact Or.inl (Or.inr ⟨rfl, h⟩)
        · exact Or.inr (Or.inl rfl)
        · exact Or.inr (Or.inr (Or.inr ⟨rfl, h⟩))
      · exact Or.inr (Or.inr (Or.inl hxy))
end IpSpec

/-- C34. `IPAddressIsEqual` says 1 exactly for two addresses of one family with the same numbers (the port does not count), 0 for different
addresses of one family, -1 for two families. -/
theorem C34_equal (a b : Ip.Addr) (ha : a.WF) (hb : b.WF) :
    Ip.isEqual (some a) (some b) = some (if a.key.1 ≠ b.key.1 then -1 else if a.key = b.key then 1 else 0) := by
  cases a <;> cases b <;> simp only [Ip.isEqual, Ip.Addr.key]
  · rw [Ip.eqLoop_ok _ _ 4 0 (by have := ha.1; omega) (by have := hb.1; omega)]; simp
  · rfl
  · rfl
  · rw [Ip.eqLoop_ok _ _ 8 0 (by have := ha.1; omega) (by have := hb.1; omega)]; simp

/-- C34. `IPAddressCompareLess` orders all IPv4 addresses before all IPv6 ones, and the addresses of one family as numbers, most significant part
first. -/
theorem C34_less (a b : Ip.Addr) (ha : a.WF) (hb : b.WF) :
    ∃ r, Ip.less (some a) (some b) = some r ∧ (r = true ↔ (a.key.1 = false ∧ b.key.1 = true) ∨ (a.key.1 = b.key.1 ∧ Lex a.key.2 b.key.2)) := by
  cases a <;> cases b <;> simp only [Ip.less, Ip.Addr.key]
  · rename_i a b; obtain ⟨r, h, h'⟩ := Ip.lessLoop_ok a.octets b.octets 4 0 (by have := ha.1; omega) (by have := hb.1; omega)
    exact ⟨r, h, by simpa using h'⟩
  · exact ⟨true, rfl, by simp⟩
  · exact ⟨false, rfl, by simp⟩
  · rename_i a b; obtain ⟨r, h, h'⟩ := Ip.lessLoop_ok a.sixteen b.sixteen 8 0 (by have := ha.1; omega) (by have := hb.1; omega)
    exact ⟨r, h, by simpa using h'⟩

/-- C34. The order is irreflexive and transitive, of two addresses that are not equal exactly one is less, and equal ones are not less: a strict
weak order whose ties are the equal addresses. -/
theorem C34_strict_weak_order (a b c : Ip.Addr) (ha : a.WF) (hb : b.WF) (hc : c.WF) :
    Ip.less (some a) (some a) = some false ∧
    (Ip.less (some a) (some b) = some true → Ip.less (some b) (some a) = some false) ∧
    (Ip.less (some a) (some b) = some true → Ip.less (some b) (some c) = some true → Ip.less (some a) (some c) = some true) ∧
    (Ip.less (some a) (some b) = some false → Ip.less (some b) (some a) = some false → Ip.isEqual (some a) (some b) = some 1) ∧
    (Ip.isEqual (some a) (some b) = some 1 → Ip.less (some a) (some b) = some false) := by
  have key : ∀ a b : Ip.Addr, a.WF → b.WF → (Ip.less (some a) (some b) = some true ↔ (a.key.1 = false ∧ b.key.1 = true) ∨ (a.key.1 = b.key.1 ∧ Lex a.key.2 b.key.2)) ∧
      (Ip.less (some a) (some b) = some false ↔ ¬ ((a.key.1 = false ∧ b.key.1 = true) ∨ (a.key.1 = b.key.1 ∧ Lex a.key.2 b.key.2))) := by
    intro a b ha hb
    obtain ⟨r, h, h'⟩ := C34_less a b ha hb
    rw [h]
    cases r with
    | true => exact ⟨⟨fun _ => h'.1 rfl, fun _ => rfl⟩, ⟨fun h => (by simp at h), fun h => absurd (h'.1 rfl) h⟩⟩
    | false => exact ⟨⟨fun h => (by simp at h), fun h => absurd (h'.2 h) (by simp)⟩, ⟨fun _ h => absurd (h'.2 h) (by simp), fun _ => rfl⟩⟩
  rw [(key a a ha ha).2, (key a b ha hb).1, (key a b ha hb).2, (key b a hb ha).2, (key b c hb hc).1, (key a c ha hc).1, C34_equal a b ha hb]
  refine ⟨?_, ?_, ?_, ?_, ?_⟩
  · rintro (⟨h1, h2⟩ | ⟨_, h⟩)
    · rw [h1] at h2; cases h2
    · exact lex_irrefl _ h
  · rintro (⟨h1, h2⟩ | ⟨h0, h⟩) (⟨h3, h4⟩ | ⟨h5, h6⟩)
    · rw [h1] at h4; cases h4
    · rw [h1, h2] at h5; cases h5
    · rw [h0, h3] at h4; cases h4
    · exact lex_irrefl _ (lex_trans _ _ _ h h6)
  · rintro (⟨h1, h2⟩ | ⟨h0, h⟩) (⟨h3, h4⟩ | ⟨h5, h6⟩)
    · exact Or.inl ⟨h1, h4⟩
    · exact Or.inl ⟨h1, h5 ▸ h2⟩
    · exact Or.inl ⟨h0 ▸ h3, h4⟩
    · exact Or.inr ⟨h0.trans h5, lex_trans _ _ _ h h6⟩
  · intro h1 h2
    have hk : a.key.1 = b.key.1 := by
      cases ha1 : a.key.1 <;> cases hb1 : b.key.1 <;> simp [ha1, hb1] at h1 h2 ⊢
    have hl : a.key.2.length = b.key.2.length := by
      cases a <;> cases b <;> simp only [Ip.Addr.key] at hk ⊢
      · rw [ha.1, hb.1]
      · cases hk
      · cases hk
      · rw [ha.1, hb.1]
    rcases lex_total _ _ hl with h | h | h
    · exact absurd (Or.inr ⟨hk, h⟩) h1
    · rw [if_neg (by simp [hk]), if_pos (Prod.ext hk h)]
    · exact absurd (Or.inr ⟨hk.symm, h⟩) h2
  · intro h
    split at h
    · cases h
    · split at h
      · rename_i hk
        rw [hk]
        rintro (⟨h1, h2⟩ | ⟨_, h⟩)
        · rw [h1] at h2; cases h2
        · exact lex_irrefl _ h
      · cases h

example : Ip.less (some (.v4 ⟨[10, 0, 0, 9], 0⟩)) (some (.v4 ⟨[10, 0, 0, 10], 0⟩)) = some true ∧
    Ip.less (some (.v4 ⟨[255, 0, 0, 9], 0⟩)) (some (.v6 ⟨[0, 0, 0, 0, 0, 0, 0, 1], 0⟩)) = some true ∧
    Ip.isEqual (some (.v4 ⟨[10, 0, 0, 9], 80⟩)) (some (.v4 ⟨[10, 0, 0, 9], 0⟩)) = some 1 := by decide

/-- Finding: with a NULL argument `IPAddressCompareLess` answers true both ways, so it is no order on pointers that may be NULL. -/
theorem C34_null_not_an_order : ∃ a : Ip.Addr, a.WF ∧ Ip.less none (some a) = some true ∧ Ip.less (some a) none = some true ∧ Ip.less none none = some true :=
  ⟨.v4 ⟨[1, 2, 3, 4], 0⟩, ⟨by decide, by decide, by decide⟩, rfl, rfl, rfl⟩

/-! ## Printing -/

namespace IpSpec
theorem hexDigit_facts : ∀ k : Fin 16, hexChar (StrSpec.hexDigit k.val) = true ∧ hexValue (StrSpec.hexDigit k.val) = k.val ∧
    UInt8.ofNat (Nat.digitChar k.val).toNat = StrSpec.hexDigit k.val := by decide

theorem hexTextSpec_group (n : Nat) (h : n ≤ 65535) : Group (hexTextSpec n) n := by
  have main : ∀ n, hexTextSpec n ≠ [] ∧ (hexTextSpec n).all hexChar = true ∧ (hexTextSpec n).foldl (fun n c => 16 * n + hexValue c) 0 = n := by
    intro n
    induction n using Nat.strongRecOn with
    | _ n ih =>
      rw [hexTextSpec]
      by_cases h : n < 16
      · rw [if_pos h]
        have := hexDigit_facts ⟨n, h⟩
        simp only at this
        exact ⟨by simp, by simp [this.1], by simp [this.2.1]⟩
      · rw [if_neg h]
        obtain ⟨h1, h2, h3⟩ := ih (n / 16) (by omega)
        have := hexDigit_facts ⟨n % 16, by omega⟩
        simp only at this
        refine ⟨by simp, by rw [List.all_append, h2]; simp [this.1], ?_⟩
        rw [List.foldl_append, h3]
        simp [this.2.1]; omega
  exact ⟨(main n).1, (main n).2.1, (main n).2.2, h⟩

theorem hexText_eq (n : Nat) : Ip.hexText n = hexTextSpec n := by
  induction n using Nat.strongRecOn with
  | _ n ih =>
    rw [hexTextSpec, Ip.hexText, Nat.toDigits_eq_if (by omega)]
    by_cases h : n < 16
    · rw [if_pos h, if_pos h]; simp [(hexDigit_facts ⟨n, h⟩).2.2]
    · rw [if_neg h, if_neg h, List.map_append, ← ih _ (by omega)]
      simp [Ip.hexText, (hexDigit_facts ⟨n % 16, by omega⟩).2.2]
end IpSpec

namespace Ip

theorem list4 (l : List Nat) (h : l.length = 4) : ∃ a b c d, l = [a, b, c, d] := by
  match l, h with
  | [a, b, c, d], _ => exact ⟨a, b, c, d, rfl⟩
theorem list8 (l : List Nat) (h : l.length = 8) : ∃ a b c d e f g i, l = [a, b, c, d, e, f, g, i] := by
  match l, h with
  | [a, b, c, d, e, f, g, i], _ => exact ⟨a, b, c, d, e, f, g, i, rfl⟩

theorem dec_text (n m : Nat) (h : n ≤ m) : Dec m (Str.natText n) n := by
  rw [natText_eq]
  exact ⟨(decimal_digits n).2, (decimal_digits n).1, value_decimal n, h⟩

/-- A text with two colons and no dot is no IPv4 address. -/
theorem parse4_colons (a b c : List UInt8) (h : (46 : UInt8) ∉ a ++ [58] ++ b ++ [58] ++ c) : parse4 (a ++ [58] ++ b ++ [58] ++ c) = none := by
  cases hp : parse4 (a ++ [58] ++ b ++ [58] ++ c) with
  | none => rfl
  | some r =>
    exfalso
    rcases (C32_parse_iff _ _).1 hp with ⟨_, _, _, _, ⟨A, B, C, D, h1, _⟩, _⟩ | ⟨_, _, _, _, _, ⟨_, _, h1, ⟨A, B, C, D, h2, _⟩, _⟩, _⟩ | ⟨⟨ds, x, v, h1, hd, _⟩, _⟩ |
      ⟨A, _, _, h1, _⟩ | ⟨A, _, _, _, _, h1, _⟩ | ⟨A, _, _, _, _, _, _, h1, _⟩
    · rw [h1] at h; simp at h
    · rw [h1, h2] at h; simp at h
    · have hm : (58 : UInt8) ∈ ds := by
        rcases List.eq_nil_or_concat c with rfl | ⟨c', y, rfl⟩
        · have h1' : (a ++ [58] ++ b) ++ [58] = ds ++ [x] := by simpa using h1
          have := (List.append_inj' h1' rfl).1
          rw [← this]; simp
        · have h1' : (a ++ [58] ++ b ++ [58] ++ c') ++ [y] = ds ++ [x] := by simpa using h1
          have := (List.append_inj' h1' rfl).1
          rw [← this]; simp
      have := List.all_eq_true.1 hd.2.1 _ hm
      revert this; decide
    · rw [h1] at h; simp at h
    · rw [h1] at h; simp at h
    · rw [h1] at h; simp at h

theorem groups_nodot {s : List UInt8} {vs : List Nat} (h : Groups s vs) : (46 : UInt8) ∉ s := by
  have g : ∀ {g : List UInt8} {v : Nat}, Group g v → (46 : UInt8) ∉ g := by
    intro g v hg hm
    have := List.all_eq_true.1 hg.2.1 _ hm
    revert this; decide
  induction h with
  | one _ _ h => exact g h
  | cons _ _ _ _ h _ ih => simp [g h, ih]

end Ip

/-- C35. The text of an address, handed back to `IPAddressNew`, gives an address that `IPAddressIsEqual` calls equal: same family and numbers.
The port is not printed, so the new address has port 0. -/
theorem C35_round_trip (a : Ip.Addr) (ha : a.WF) :
    ∃ b, Ip.new (Ip.text a) = .ok b ∧ Ip.isEqual (some a) (some b) = some 1 ∧ Ip.port b = 0 := by
  have eqk : ∀ a b : Ip.Addr, a.WF → b.WF → a.key = b.key → Ip.isEqual (some a) (some b) = some 1 := by
    intro a b ha hb h
    rw [C34_equal a b ha hb, if_neg (by simp [h]), if_pos h]
  cases a with
  | v4 a =>
    obtain ⟨l, p⟩ := a
    obtain ⟨w, x, y, z, rfl⟩ := Ip.list4 l ha.1
    have hb := ha.2.1
    simp at hb
    have hp : Ip.parse4 (Ip.text (.v4 ⟨[w, x, y, z], p⟩)) = some ⟨[w, x, y, z], 0⟩ :=
      (C32_parse_iff _ _).2 (Or.inl ⟨w, x, y, z, ⟨_, _, _, _, rfl, Ip.dec_text _ _ hb.1, Ip.dec_text _ _ hb.2.1, Ip.dec_text _ _ hb.2.2.1, Ip.dec_text _ _ hb.2.2.2⟩, rfl⟩)
    refine ⟨.v4 ⟨[w, x, y, z], 0⟩, by rw [Ip.new, hp], eqk _ _ ha ⟨ha.1, ha.2.1, by simp⟩ rfl, rfl⟩
  | v6 a =>
    obtain ⟨l, p⟩ := a
    obtain ⟨a, b, c, d, e, f, g, i, rfl⟩ := Ip.list8 l ha.1
    have hb := ha.2.1
    simp at hb
    obtain ⟨h1, h2, h3, h4, h5, h6, h7, h8⟩ := hb
    have G : ∀ n, n ≤ 65535 → Group (Ip.hexText n) n := fun n h => by rw [hexText_eq]; exact hexTextSpec_group n h
    have hg : Groups (Ip.text (.v6 ⟨[a, b, c, d, e, f, g, i], p⟩)) [a, b, c, d, e, f, g, i] := by
      have := Groups.cons _ _ _ _ (G a h1) <| Groups.cons _ _ _ _ (G b h2) <| Groups.cons _ _ _ _ (G c h3) <| Groups.cons _ _ _ _ (G d h4) <|
        Groups.cons _ _ _ _ (G e h5) <| Groups.cons _ _ _ _ (G f h6) <| Groups.cons _ _ _ _ (G g h7) <| Groups.one _ _ (G i h8)
      simpa [Ip.text] using this
    have h6p := C33_full_form _ _ hg rfl
    have h4n : Ip.parse4 (Ip.text (.v6 ⟨[a, b, c, d, e, f, g, i], p⟩)) = none := by
      have hd := Ip.groups_nodot hg
      have hs : ∃ r, Ip.text (.v6 ⟨[a, b, c, d, e, f, g, i], p⟩) = Ip.hexText a ++ [58] ++ Ip.hexText b ++ [58] ++ r := by
        simp only [Ip.text, List.append_assoc, List.append_cancel_left_eq]
        exact ⟨_, rfl⟩
      obtain ⟨r, hr⟩ := hs
      rw [hr] at hd ⊢
      exact Ip.parse4_colons _ _ _ hd
    refine ⟨.v6 ⟨[a, b, c, d, e, f, g, i], 0⟩, ?_, eqk _ _ ha ⟨ha.1, ha.2.1, by simp⟩ rfl, rfl⟩
    rw [Ip.new, h4n, h6p]; rfl

example : Ip.text (.v4 ⟨[192, 168, 0, 1], 80⟩) = [49, 57, 50, 46, 49, 54, 56, 46, 48, 46, 49] ∧
    Ip.new (Ip.text (.v6 ⟨[0x2001, 0xdb8, 0, 0, 0, 0, 0, 1], 443⟩)) = .ok (.v6 ⟨[0x2001, 0xdb8, 0, 0, 0, 0, 0, 1], 0⟩) := by decide +kernel

/-- C35. The addresses `IPAddressNew` makes are of the kind the other theorems speak of: the round trip applies to every parsed address. -/
theorem C35_parsed_v4 (s : List UInt8) (a : Ip.V4) (h : Ip.parse4 s = some a) : (Ip.Addr.v4 a).WF := by
  rcases (C32_parse_iff _ _).1 h with ⟨_, _, _, _, ⟨_, _, _, _, _, h1, h2, h3, h4⟩, rfl⟩ | ⟨_, _, _, _, _, ⟨_, _, _, ⟨_, _, _, _, _, h1, h2, h3, h4⟩, h5⟩, rfl⟩ | ⟨_, rfl⟩ |
      ⟨_, _, _, _, h1, _, rfl⟩ | ⟨_, _, _, _, _, _, h1, h2, _, rfl⟩ | ⟨_, _, _, _, _, _, _, _, h1, h2, h3, _, rfl⟩
  · exact ⟨rfl, by simp [h1.2.2.2, h2.2.2.2, h3.2.2.2, h4.2.2.2], by simp⟩
  · exact ⟨rfl, by simp [h1.2.2.2, h2.2.2.2, h3.2.2.2, h4.2.2.2], h5.2.2.2⟩
  · exact ⟨rfl, by simp, by simp⟩
  · exact ⟨rfl, by simp [h1.2.2.2], by simp⟩
  · exact ⟨rfl, by simp [h1.2.2.2, h2.2.2.2], by simp⟩
  · exact ⟨rfl, by simp [h1.2.2.2, h2.2.2.2, h3.2.2.2], by simp⟩

namespace Ip

/-- What the C types guarantee of `struct IPV6Address`, as an invariant of the parser. -/
def W6 (a : V6) : Prop := a.sixteen.length = 8 ∧ (∀ x ∈ a.sixteen, x ≤ 65535) ∧ a.port ≤ 65535

theorem W6_set {a : V6} (h : W6 a) (i n : Nat) : W6 { a with sixteen := a.sixteen.set i (n % 65536) } := by
  refine ⟨by simp [h.1], ?_, h.2.2⟩
  intro x hx
  rcases List.mem_or_eq_of_mem_set hx with hx | rfl
  · exact h.2.1 x hx
  · omega

/-- `x` carries only addresses that are `W6`. -/
def Keeps (x : R S6) : Prop := ∀ t, x = .ok t → W6 t.addr

theorem Keeps.ok {s : S6} (h : W6 s.addr) : Keeps (.ok s) := by intro t ht; cases ht; exact h
theorem Keeps.bind {x : R S6} {f : S6 → R S6} (h : Keeps x) (hf : ∀ s, W6 s.addr → Keeps (f s)) : Keeps (x.bind f) := by
  cases x with
  | oob => intro t ht; cases ht
  | reject => intro t ht; cases ht
  | ok s => exact hf s (h s rfl)
theorem Keeps.assign {s : S6} (h : W6 s.addr) (i : Nat) : Keeps (s.assign i) := by
  rw [S6.assign]; split
  · exact .ok (W6_set h _ _)
  · intro t ht; cases ht
theorem Keeps.push {s : S6} (h : W6 s.addr) : Keeps s.push := by
  rw [S6.push]; split
  · exact .ok h
  · intro t ht; cases ht
theorem Keeps.hex {s : S6} (h : W6 s.addr) (c : UInt8) : Keeps (.ok (s.hexDigit c)) := by
  rw [S6.hexDigit]; split <;> exact .ok h

theorem Keeps.switch {s : S6} (h : W6 s.addr) (c : UInt8) : Keeps (switch6 s c) := by
  have hn : ∀ t : S6, W6 t.addr → Keeps (.ok t.next) := fun t ht => .ok ht
  unfold switch6
  split
  · unfold case0; repeat' split
    all_goals first | exact .ok h | exact .hex h c | exact .bind (.assign h _) hn
  split
  · unfold case1; repeat' split
    all_goals first | exact .ok h | exact .hex h c | exact .bind (.assign h _) hn
  split
  · unfold case26; repeat' split
    all_goals first | exact .ok h | exact .hex h c | exact .bind (.assign h _) hn | exact .bind (.push h) hn | exact .bind (.push (s := { s with bracket := false }) h) (fun t ht => .ok ht)
  split
  · unfold case7; repeat' split
    all_goals first | exact .ok h | exact .hex h c | exact .bind (.assign (s := { s with bracket := false }) h _) hn
  split
  · split <;> exact .ok h
  split
  · split <;> exact .ok h
  split
  · exact .ok h
  · intro t ht; cases ht

theorem Keeps.loop (cs : List UInt8) : ∀ {s : S6}, W6 s.addr → Keeps (loop6 s cs) := by
  induction cs with
  | nil => intro s h; exact .ok h
  | cons c cs ih =>
    intro s h
    rw [loop6]
    refine .bind ?_ (fun s hs => ih hs)
    rw [step6]
    refine .bind (Keeps.switch (s := { s with upper := if isxdigit c ∧ isalpha c then Str.isupper c else s.upper }) h c) (fun t ht => ?_)
    rw [check6]
    split
    · intro t ht; cases ht
    · split <;> exact .ok ht

theorem Keeps.copy (f : Nat → Nat) : ∀ (k i : Nat) (s : S6), W6 s.addr → Keeps (copyLoop s f i k) := by
  intro k
  induction k with
  | zero => intro i s h; exact .ok h
  | succ k ih =>
    intro i s h
    rw [copyLoop]
    split
    · exact ih _ _ (W6_set h _ _)
    · intro t ht; cases ht

theorem R.bind_ok {α β : Type} {x : R α} {f : α → R β} {b : β} (h : x.bind f = .ok b) : ∃ a, x = .ok a ∧ f a = .ok b := by
  cases x with
  | oob => cases h
  | reject => cases h
  | ok a => exact ⟨a, rfl, h⟩

theorem finish_W {s : S6} {a : V6} (h : W6 s.addr) (hf : finish6 s = .ok a) : W6 a := by
  unfold finish6 at hf
  repeat' split at hf
  all_goals first
    | (cases hf; done)
    | (cases hf; exact h)
    | (cases hf; refine ⟨h.1, h.2.1, ?_⟩; show s.port % 65536 ≤ 65535; omega)
    | (obtain ⟨t, h1, h2⟩ := R.bind_ok hf
       have ht : W6 t.addr := Keeps.push h t h1
       split at h2
       · obtain ⟨u, h3, h4⟩ := R.bind_ok h2
         cases h4; exact Keeps.copy _ _ _ _ ht u h3
       · cases h2)
    | (obtain ⟨t, h1, h2⟩ := R.bind_ok hf; cases h2; exact Keeps.assign h _ t h1)
    | (obtain ⟨t, h1, h2⟩ := R.bind_ok hf; cases h2; exact Keeps.copy _ _ _ _ h t h1)
end Ip

/-- C35. Every address `IPAddressNew` makes, of either family and whatever the text, can be printed, and the text parses to an equal address. -/
theorem C35_parsed_round_trip (s : List UInt8) (a : Ip.Addr) (h : Ip.new s = .ok a) :
    ∃ b, Ip.new (Ip.text a) = .ok b ∧ Ip.isEqual (some a) (some b) = some 1 ∧ Ip.port b = 0 := by
  refine C35_round_trip a ?_
  unfold Ip.new at h
  split at h
  · rename_i x hx
    cases h; exact C35_parsed_v4 s x hx
  · obtain ⟨x, h1, h2⟩ := Ip.R.bind_ok h
    cases h2
    obtain ⟨t, h3, h4⟩ := Ip.R.bind_ok (x := Ip.loop6 {} s) h1
    exact Ip.finish_W (Ip.Keeps.loop s (s := {}) ⟨rfl, by decide, by decide⟩ t h3) h4

example : Ip.new [49, 48, 46, 48, 46, 48, 46, 49, 58, 56, 48] = .ok (.v4 ⟨[10, 0, 0, 1], 80⟩) ∧ Ip.text (.v4 ⟨[10, 0, 0, 1], 80⟩) = [49, 48, 46, 48, 46, 48, 46, 49] := by
  decide +kernel
