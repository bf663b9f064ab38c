import Mathlib.Tactic.IntervalCases
import Mathlib.Tactic.NormNum
import Mathlib.Tactic.Ring
import Verif.Model.IpHex
import Verif.Spec.IpHex
/-! # C135: hexadecimal addresses, and IPAddressIsIPAddress -/
namespace Ip
open IpSpec

theorem hexDigit_cases {c : UInt8} {v : Nat} (h : HexDigit c v) : isxdigit c = true ∧ (∀ b, char2Hex b c = 16 * b + v) ∧ v < 16 ∧ Str.isspace c = false ∧ c ≠ 45 ∧ c ≠ 43 ∧ c ≠ 120 ∧ c ≠ 88 := by
  have key : ∀ c : UInt8, ∀ v : Nat, v < 16 → ((48 ≤ c.toNat ∧ c.toNat ≤ 57 ∧ v = c.toNat - 48) ∨ (65 ≤ c.toNat ∧ c.toNat ≤ 70 ∧ v = c.toNat - 55) ∨ (97 ≤ c.toNat ∧ c.toNat ≤ 102 ∧ v = c.toNat - 87)) →
      isxdigit c = true ∧ (if 97 ≤ c ∧ c ≤ 102 then c.toNat - 97 + 10 else if 65 ≤ c ∧ c ≤ 70 then c.toNat - 65 + 10 else c.toNat - 48) = v ∧ Str.isspace c = false ∧ c ≠ 45 ∧ c ≠ 43 ∧ c ≠ 120 ∧ c ≠ 88 := by
    intro c v _ hc
    have e : c = UInt8.ofNat c.toNat := by simp
    have hlt : c.toNat < 103 := by omega
    generalize c.toNat = n at hc e hlt ⊢
    subst e
    interval_cases n <;> first | omega | (rcases hc with hc | hc | hc <;> first | omega | (obtain ⟨_, _, rfl⟩ := hc; decide))
  have hv : v < 16 := by rcases h with h | h | h <;> omega
  obtain ⟨h1, h2, h3, h4, h5, h6, h7⟩ := key c v hv h
  exact ⟨h1, fun b => by rw [char2Hex, h2]; omega, hv, h3, h4, h5, h6, h7⟩

theorem hexNumber_all {d : List UInt8} {n : Nat} (h : HexNumber d n) : (∀ c ∈ d, ∃ v, HexDigit c v) ∧ d.foldl char2Hex 0 = n ∧ n < 16 ^ d.length := by
  induction h with
  | nil => simp
  | @snoc s n c v _ hc ih =>
    obtain ⟨h1, h2, h3⟩ := ih
    refine ⟨?_, ?_, ?_⟩
    · intro x hx
      simp only [List.mem_append, List.mem_singleton] at hx
      rcases hx with hx | rfl
      · exact h1 x hx
      · exact ⟨v, hc⟩
    · rw [List.foldl_append, h2]
      exact (hexDigit_cases hc).2.1 n
    · have := (hexDigit_cases hc).2.2.1
      rw [List.length_append, List.length_singleton, Nat.pow_succ]
      omega

theorem takeHex_eq (d rest : List UInt8) (h : ∀ c ∈ d, ∃ v, HexDigit c v) : takeHex d.length (d ++ rest) = (d, rest) := by
  induction d with
  | nil => cases rest <;> rfl
  | cons c d ih =>
    obtain ⟨v, hv⟩ := h c (by simp)
    simp only [List.length_cons, List.cons_append, takeHex, (hexDigit_cases hv).1, if_true, ih (fun c hc => h c (by simp [hc]))]

/-- A conversion reads exactly the digits given to it. -/
theorem scanX_eq {d : List UInt8} {n : Nat} (h : HexNumber d n) (hd : 2 ≤ d.length) (rest : List UInt8) : scanX d.length (d ++ rest) = some (n, rest) := by
  obtain ⟨h1, h2, _⟩ := hexNumber_all h
  have ht := takeHex_eq d rest h1
  match d, hd with
  | c :: c' :: d, _ =>
    obtain ⟨v, hv⟩ := h1 c (by simp)
    obtain ⟨v', hv'⟩ := h1 c' (by simp)
    obtain ⟨_, _, _, a1, a2, a3, _⟩ := hexDigit_cases hv
    obtain ⟨_, _, _, _, _, _, b1, b2⟩ := hexDigit_cases hv'
    have hd : scanDigits (c :: c' :: d).length (c :: c' :: d ++ rest) = some (n, rest) := by
      have e : hexRun (c :: c' :: d).length (c :: c' :: d ++ rest) = (c :: c' :: d, rest) := by
        unfold hexRun
        split
        · rename_i x t heq
          simp only [List.cons_append, List.cons.injEq] at heq
          rw [if_neg (by rw [← heq.2.1]; simp [b1, b2]), ht]
        · exact ht
      unfold scanDigits
      rw [e]
      simp [← h2]
    unfold scanX
    have : (c :: c' :: d ++ rest).dropWhile Str.isspace = c :: c' :: d ++ rest := by simp [a1]
    rw [this]
    split
    · rename_i heq
      exact absurd (List.cons.inj heq).1 a2
    · rename_i heq
      exact absurd (List.cons.inj heq).1 a3
    · exact hd

theorem scanN_eq (w : Nat) (hw : 2 ≤ w) : ∀ (gs : List (List UInt8 × Nat)) (rest : List UInt8), (∀ g ∈ gs, HexNumber g.1 g.2 ∧ g.1.length = w) →
    scanN w gs.length ((gs.map (·.1)).flatten ++ rest) = some (gs.map (·.2), rest) := by
  intro gs
  induction gs with
  | nil => intro rest _; rfl
  | cons g gs ih =>
    intro rest h
    obtain ⟨h1, h2⟩ := h g (by simp)
    have hs := scanX_eq h1 (by omega) ((gs.map (·.1)).flatten ++ rest)
    rw [h2] at hs
    simp only [List.length_cons, List.map_cons, List.flatten_cons, List.append_assoc, scanN, hs, Option.bind_some, ih rest (fun g hg => h g (by simp [hg])), Option.map_some]

theorem small {d : List UInt8} {n k : Nat} (h : HexNumber d n) (hl : d.length = k) : n < 16 ^ k := hl ▸ (hexNumber_all h).2.2

/-- Eight hexadecimal digits, in either case, are the four octets in reverse order. -/
theorem C135_v4 {A B C D : List UInt8} {a b c d : Nat} (hA : HexNumber A a) (hB : HexNumber B b) (hC : HexNumber C c) (hD : HexNumber D d) (lA : A.length = 2) (lB : B.length = 2) (lC : C.length = 2) (lD : D.length = 2) :
    newHex (A ++ B ++ C ++ D) = some (.v4 ⟨[d, c, b, a], 0⟩) := by
  have := scanN_eq 2 (by omega) [(A, a), (B, b), (C, c), (D, d)] [] (by simp [hA, hB, hC, hD, lA, lB, lC, lD])
  simp only [List.length_cons, List.length_nil, List.map_cons, List.map_nil, List.flatten_cons, List.flatten_nil, List.append_nil, ← List.append_assoc] at this
  have h1 := small hA lA; have h2 := small hB lB; have h3 := small hC lC; have h4 := small hD lD
  norm_num at h1 h2 h3 h4
  have : hex4 (A ++ B ++ C ++ D) = some ⟨[d, c, b, a], 0⟩ := by
    rw [hex4, if_pos (by simp [lA, lB, lC, lD]), this]
    simp [Nat.mod_eq_of_lt, h1, h2, h3, h4]
  rw [newHex, this]

/-- ... and with a colon and four more digits the port. -/
theorem C135_v4_port {A B C D P : List UInt8} {a b c d p : Nat} (hA : HexNumber A a) (hB : HexNumber B b) (hC : HexNumber C c) (hD : HexNumber D d) (hP : HexNumber P p)
    (lA : A.length = 2) (lB : B.length = 2) (lC : C.length = 2) (lD : D.length = 2) (lP : P.length = 4) :
    newHex (A ++ B ++ C ++ D ++ [58] ++ P) = some (.v4 ⟨[d, c, b, a], p⟩) := by
  have := scanN_eq 2 (by omega) [(A, a), (B, b), (C, c), (D, d)] ([58] ++ P) (by simp [hA, hB, hC, hD, lA, lB, lC, lD])
  simp only [List.length_cons, List.length_nil, List.map_cons, List.map_nil, List.flatten_cons, List.flatten_nil, List.append_nil, ← List.append_assoc] at this
  have hp := scanX_eq hP (by omega) []
  rw [lP, List.append_nil] at hp
  have h1 := small hA lA; have h2 := small hB lB; have h3 := small hC lC; have h4 := small hD lD; have h5 := small hP lP
  norm_num at h1 h2 h3 h4 h5
  have : hex4 (A ++ B ++ C ++ D ++ [58] ++ P) = some ⟨[d, c, b, a], p⟩ := by
    rw [hex4, if_neg (by simp [lA, lB, lC, lD, lP]), if_pos (by simp [lA, lB, lC, lD, lP]), this]
    simp [Nat.mod_eq_of_lt, h1, h2, h3, h4, h5, scanPort, hp]
  rw [newHex, this]

theorem fixedHex_ok (k : Nat) : ∀ n, n < 16 ^ k → HexNumber (fixedHex k n) n ∧ (fixedHex k n).length = k := by
  induction k with
  | zero => intro n h; simp at h; subst h; exact ⟨.nil, rfl⟩
  | succ k ih =>
    intro n h
    obtain ⟨h1, h2⟩ := ih (n / 16) (by rw [Nat.pow_succ] at h; exact Nat.div_lt_of_lt_mul (by omega))
    refine ⟨?_, by simp [fixedHex, h2]⟩
    have hd : HexDigit (upperHexDigit (n % 16)) (n % 16) := by
      have hm : n % 16 < 16 := Nat.mod_lt _ (by omega)
      generalize n % 16 = m at hm
      interval_cases m <;> simp [HexDigit, upperHexDigit]
    have := HexNumber.snoc h1 hd
    rwa [Nat.div_add_mod] at this

/-- What Linux prints for an IPv4 socket in /proc/net/tcp is read as that address and port, for every address and port. -/
theorem C135_procfs_v4 (a b c d p : Nat) (ha : a < 256) (hb : b < 256) (hc : c < 256) (hd : d < 256) (hp : p < 65536) : newHex (procV4 a b c d p) = some (.v4 ⟨[a, b, c, d], p⟩) := by
  obtain ⟨a1, a2⟩ := fixedHex_ok 2 a (by omega)
  obtain ⟨b1, b2⟩ := fixedHex_ok 2 b (by omega)
  obtain ⟨c1, c2⟩ := fixedHex_ok 2 c (by omega)
  obtain ⟨d1, d2⟩ := fixedHex_ok 2 d (by omega)
  obtain ⟨p1, p2⟩ := fixedHex_ok 4 p (by omega)
  exact C135_v4_port d1 c1 b1 a1 p1 d2 c2 b2 a2 p2

/-- 127.0.0.1:80 is "0100007F:0050". -/
example : procV4 127 0 0 1 80 = "0100007F:0050".toUTF8.data.toList ∧ newHex (procV4 127 0 0 1 80) = some (.v4 ⟨[127, 0, 0, 1], 80⟩) :=
  ⟨by decide +kernel, C135_procfs_v4 127 0 0 1 80 (by omega) (by omega) (by omega) (by omega) (by omega)⟩

theorem flat_len {w : Nat} : ∀ (gs : List (List UInt8 × Nat)), (∀ g ∈ gs, HexNumber g.1 g.2 ∧ g.1.length = w) → ((gs.map (·.1)).flatten).length = gs.length * w := by
  intro gs
  induction gs with
  | nil => intro _; simp
  | cons g gs ih =>
    intro h
    simp only [List.map_cons, List.flatten_cons, List.length_append, (h g (by simp)).2, ih (fun g hg => h g (by simp [hg])), List.length_cons]
    ring

theorem mods {w : Nat} (hw : 16 ^ w ≤ 65536) (gs : List (List UInt8 × Nat)) (h : ∀ g ∈ gs, HexNumber g.1 g.2 ∧ g.1.length = w) : (gs.map (·.2)).map (· % 65536) = gs.map (·.2) := by
  rw [List.map_map]
  refine List.map_congr_left fun g hg => ?_
  have := small (h g hg).1 (h g hg).2
  simp only [Function.comp_apply]
  exact Nat.mod_eq_of_lt (by omega)

/-- Eight groups of four hexadecimal digits are the groups of the address, in order; the port is not stored. -/
theorem C135_v6 (gs : List (List UInt8 × Nat)) (hg : ∀ g ∈ gs, HexNumber g.1 g.2 ∧ g.1.length = 4) (hl : gs.length = 8) : newHex ((gs.map (·.1)).flatten) = some (.v6 (gs.map (·.2)) none) := by
  have h1 := scanN_eq 4 (by omega) gs [] hg
  have h2 := flat_len gs hg
  rw [hl, List.append_nil] at h1
  rw [hl] at h2
  rw [newHex, hex4, if_neg (by omega), if_neg (by omega)]
  simp only [hex6, h2, if_true, h1, Option.map_some, mods (by norm_num) gs hg]

/-- ... and with a colon and four more digits the port. -/
theorem C135_v6_port (gs : List (List UInt8 × Nat)) (hg : ∀ g ∈ gs, HexNumber g.1 g.2 ∧ g.1.length = 4) (hl : gs.length = 8) {P : List UInt8} {p : Nat} (hP : HexNumber P p) (lP : P.length = 4) :
    newHex ((gs.map (·.1)).flatten ++ [58] ++ P) = some (.v6 (gs.map (·.2)) (some p)) := by
  have h1 := scanN_eq 4 (by omega) gs ([58] ++ P) hg
  have h2 := flat_len gs hg
  have hp := scanX_eq hP (by omega) []
  rw [lP, List.append_nil] at hp
  have h5 := small hP lP
  norm_num at h5
  rw [hl, ← List.append_assoc] at h1
  rw [hl] at h2
  have hlen : ((gs.map (fun g : List UInt8 × Nat => g.1)).flatten ++ [58] ++ P).length = 37 := by
    rw [List.length_append, List.length_append, h2, lP]; rfl
  rw [newHex, hex4, if_neg (by omega), if_neg (by omega)]
  rw [hex6, if_neg (by omega), if_pos (by omega), h1]
  simp only [Option.bind_some, List.append_assoc, List.cons_append, List.nil_append, scanPort, hp, Option.map_some, Nat.mod_eq_of_lt h5, mods (by norm_num : 16 ^ 4 ≤ 65536) gs hg]

/-- Eight groups 2001 0db8 ... meet the hypotheses. -/
example : newHex (fixedHex 4 0x2001 ++ fixedHex 4 0xdb8 ++ fixedHex 4 0 ++ fixedHex 4 0 ++ fixedHex 4 0 ++ fixedHex 4 0 ++ fixedHex 4 0 ++ fixedHex 4 1) = some (.v6 [0x2001, 0xdb8, 0, 0, 0, 0, 0, 1] none) := by
  decide +kernel

/-! ## Findings -/

theorem fixedHex_two (x y : Nat) (hx : x < 256) (hy : y < 256) : HexNumber (fixedHex 2 x ++ fixedHex 2 y) (256 * x + y) := by
  have e1 : fixedHex 2 y = [upperHexDigit (y / 16 % 16)] ++ [upperHexDigit (y % 16)] := by simp [fixedHex]
  have hd : ∀ m, m < 16 → HexDigit (upperHexDigit m) m := by
    intro m hm
    interval_cases m <;> simp [HexDigit, upperHexDigit]
  have := HexNumber.snoc (HexNumber.snoc (fixedHex_ok 2 x (by omega)).1 (hd (y / 16 % 16) (Nat.mod_lt _ (by omega)))) (hd (y % 16) (Nat.mod_lt _ (by omega)))
  rw [e1, ← List.append_assoc]
  convert this using 1
  omega

/-- What Linux prints in /proc/net/tcp6 on a little-endian machine is read with the bytes of each 32-bit word reversed, for every address. -/
theorem C135_procfs_v6_reversed_negated (b : Fin 16 → Nat) (hb : ∀ i, b i < 256) :
    newHex (procV6 b) = some (.v6 [256 * b 3 + b 2, 256 * b 1 + b 0, 256 * b 7 + b 6, 256 * b 5 + b 4, 256 * b 11 + b 10, 256 * b 9 + b 8, 256 * b 15 + b 14, 256 * b 13 + b 12] none) := by
  let g : Fin 16 → Fin 16 → List UInt8 × Nat := fun i j => (fixedHex 2 (b i) ++ fixedHex 2 (b j), 256 * b i + b j)
  have hg : ∀ i j, HexNumber (g i j).1 (g i j).2 ∧ (g i j).1.length = 4 := fun i j => ⟨fixedHex_two _ _ (hb i) (hb j), by simp [g, fixedHex]⟩
  have := C135_v6 [g 3 2, g 1 0, g 7 6, g 5 4, g 11 10, g 9 8, g 15 14, g 13 12] (by
    intro x hx
    simp only [List.mem_cons, List.not_mem_nil, or_false] at hx
    rcases hx with rfl | rfl | rfl | rfl | rfl | rfl | rfl | rfl <;> exact hg _ _) rfl
  have e : procV6 b = ([g 3 2, g 1 0, g 7 6, g 5 4, g 11 10, g 9 8, g 15 14, g 13 12].map (fun x : List UInt8 × Nat => x.1)).flatten := by simp [procV6, procWord, g]
  rw [e]
  exact this

/-- So ::1 is read as ::100:0. -/
theorem C135_loopback_negated : procV6 (fun i => if i = 15 then 1 else 0) = "00000000000000000000000001000000".toUTF8.data.toList ∧
    newHex (procV6 fun i => if i = 15 then 1 else 0) = some (.v6 [0, 0, 0, 0, 0, 0, 256, 0] none) := by
  decide +kernel

/-- The port of an IPv6 address without a port is uninitialised memory. -/
theorem C135_port_uninitialised_negated : (newHex (procV6 fun _ => 0)).bind HexAddr.getPort = none ∧ newHex (procV6 fun _ => 0) ≠ none := by
  decide +kernel

/-- Texts that are no addresses are accepted: " 1 2 3 4" as 4.3.2.1, "-1-1-1-1" as 255.255.255.255. -/
theorem C135_accepts_blanks_and_signs_negated : newHex " 1 2 3 4".toUTF8.data.toList = some (.v4 ⟨[4, 3, 2, 1], 0⟩) ∧ newHex "-1-1-1-1".toUTF8.data.toList = some (.v4 ⟨[255, 255, 255, 255], 0⟩) := by
  decide +kernel

/-- Nothing else than eight, thirteen, 32 or 37 characters is accepted. -/
theorem C135_lengths {s : List UInt8} {a : HexAddr} (h : newHex s = some a) : s.length = 8 ∨ s.length = 13 ∨ s.length = 32 ∨ s.length = 37 := by
  by_contra hn
  simp only [not_or] at hn
  obtain ⟨h1, h2, h3, h4⟩ := hn
  simp [newHex, hex4, hex6, h1, h2, h3, h4] at h

example : newHex (procV4 1 2 3 4 5) ≠ none := by decide +kernel

/-! ## IPAddressIsIPAddress -/

/-- It is true exactly for the texts IPAddressNew accepts, gives the same object if asked to, and leaves nothing but that object allocated. -/
theorem C135_is_ip_address (src : List UInt8) (create : Bool) :
    isIPAddress src create = match new src with
      | .oob => .oob
      | .reject => .ok (false, none, [])
      | .ok a => .ok (true, if create then some a else none, if create then [(match a with | .v4 _ => .ipv4 | .v6 _ => .ipv6), .object] else []) := by
  unfold isIPAddress new
  cases parse4 src with
  | some a => cases create <;> rfl
  | none =>
    cases parse6 src with
    | oob => rfl
    | reject => rfl
    | ok a => cases create <;> rfl

example : isIPAddress "10.0.0.1".toUTF8.data.toList true = .ok (true, some (.v4 ⟨[10, 0, 0, 1], 0⟩), [.ipv4, .object]) := by decide +kernel

end Ip
