import Verif.Lemmas.InetNtop
/-! # C85–C87: the replacements for inet_pton and inet_ntop -/
open IpSpec NumSpec TrimSpec
open InetSpec (Text Canon Accepted)

private def B (s : String) : List UInt8 := s.toUTF8.toList

/-! ## C85: IPv4 -/

/-- C85. `inet_pton(AF_INET)` ends for every string without touching memory it must not, and returns 1 for the dotted quads and only for them; then the four bytes are the numbers. -/
theorem C85_pton (inet6 : Bool) (s : List UInt8) :
    ∃ x, Inet.pton inet6 .inet s = some (if x.isSome then 1 else 0, x) ∧
      ∀ r, x = some r ↔ ∃ a b c d, Quad s a b c d ∧ r = [UInt8.ofNat a, UInt8.ofNat b, UInt8.ofNat c, UInt8.ofNat d] := by
  obtain ⟨x, h1, h2⟩ := Inet.pton4_spec s
  exact ⟨x, by simp [Inet.pton, h1], h2⟩

example : Quad (B "192.168.000.7") 192 168 0 7 ∧ Inet.pton false .inet (B "192.168.000.7") = some (1, some [192, 168, 0, 7]) ∧ Inet.pton false .inet (B "1.2.3.256") = some (0, none) ∧
    Inet.pton false .inet (B "1.2.3") = some (0, none) ∧ Inet.pton false .inet (B "1.2.3.4 ") = some (0, none) :=
  ⟨⟨B "192", B "168", B "000", B "7", by decide +kernel, ⟨by decide +kernel, by decide +kernel, by decide +kernel, by decide⟩, ⟨by decide +kernel, by decide +kernel, by decide +kernel, by decide⟩,
    ⟨by decide +kernel, by decide +kernel, by decide +kernel, by decide⟩, ⟨by decide +kernel, by decide +kernel, by decide +kernel, by decide⟩⟩, by decide +kernel, by decide +kernel, by decide +kernel, by decide +kernel⟩

/-- C85. `inet_ntop(AF_INET)` writes the decimal dotted quad and a terminator, and nothing else, where they fit, and otherwise leaves the memory alone and returns NULL. -/
theorem C85_ntop (a b c d : UInt8) (dst : List (Option UInt8)) (size : Nat) (h : size ≤ dst.length) (t : List UInt8)
    (ht : t = decimal a.toNat ++ [46] ++ decimal b.toNat ++ [46] ++ decimal c.toNat ++ [46] ++ decimal d.toNat) :
    t.length ≤ 15 ∧ Inet.ntop .inet [a, b, c, d] dst size = some (if t.length < size then some ((t ++ [0]).map some ++ dst.drop (t.length + 1)) else none) := by
  subst ht
  exact ⟨(Inet.dotted_quad a b c d).2, Inet.ntop4_spec a b c d [] dst size h⟩

example : Inet.ntop .inet [10, 0, 0, 255] (List.replicate 12 none) 12 = some (some ((B "10.0.0.255" ++ [0]).map some ++ [none])) ∧
    Inet.ntop .inet [10, 0, 0, 255] (List.replicate 12 none) 10 = some none := by decide +kernel

/-- C85. What `inet_ntop` writes reads back as the same address. -/
theorem C85_round_trip (inet6 : Bool) (a b c d : UInt8) (dst dst' : List (Option UInt8)) (size : Nat) (t : List UInt8) (rest : List (Option UInt8)) (h : size ≤ dst.length)
    (hn : Inet.ntop .inet [a, b, c, d] dst size = some (some dst')) (ht : dst' = t.map some ++ some 0 :: rest) (h0 : (0 : UInt8) ∉ t) :
    Inet.pton inet6 .inet t = some (1, some [a, b, c, d]) := by
  have he := Inet.ntop4_spec a b c d [] dst size h
  have hn' : Inet.ntop4 [a, b, c, d] dst size = some (some dst') := hn
  rw [he] at hn'
  have hq := Inet.dotted_quad a b c d
  generalize Inet.dotted a b c d = u at hq hn'
  have hu0 : (0 : UInt8) ∉ u := by
    obtain ⟨⟨A, B, C, D, rfl, h1, h2, h3, h4⟩, _⟩ := hq
    have hd : ∀ {ds : List UInt8} {v}, Dec 255 ds v → (0 : UInt8) ∉ ds := by
      intro ds v hd hm
      have := List.all_eq_true.mp hd.2.1 0 hm
      cases this
    simp [hd h1, hd h2, hd h3, hd h4]
  have hut : u = t := by
    split at hn'
    · simp only [Option.some.injEq] at hn'
      rw [ht] at hn'
      have hcut : ∀ (x y : List UInt8) (p q : List (Option UInt8)), (0 : UInt8) ∉ x → (0 : UInt8) ∉ y → x.map some ++ some 0 :: p = y.map some ++ some 0 :: q → x = y := by
        intro x
        induction x with
        | nil =>
          intro y p q _ hy e
          cases y with
          | nil => rfl
          | cons c y => simp only [List.map_nil, List.nil_append, List.map_cons, List.cons_append, List.cons.injEq, Option.some.injEq] at e; rw [← e.1] at hy; simp at hy
        | cons c x ih =>
          intro y p q hx hy e
          cases y with
          | nil => simp only [List.map_nil, List.nil_append, List.map_cons, List.cons_append, List.cons.injEq, Option.some.injEq] at e; rw [e.1] at hx; simp at hx
          | cons d y =>
            simp only [List.map_cons, List.cons_append, List.cons.injEq, Option.some.injEq] at e
            simp only [List.mem_cons, not_or] at hx hy
            rw [e.1, ih y p q hx.2 hy.2 e.2]
      exact hcut u t _ rest hu0 h0 (by simpa using hn')
    · cases hn'
  subst hut
  obtain ⟨x, h1, h2⟩ := Inet.pton4_spec u
  have := (h2 [a, b, c, d]).mpr ⟨_, _, _, _, hq.1, by simp⟩
  subst this
  simp [Inet.pton, h1]

/-! ## C86: printing IPv6 -/

/-- C86. `inet_ntop(AF_INET6)` writes the recommended text of the address — lower case, no leading zeros, the first longest run of two or more zero words as `::`, the last words of
IPv4-compatible and IPv4-mapped addresses as a dotted quad — where it fits with its terminator, and nothing otherwise; that text denotes the address and takes at most 46 bytes. -/
theorem C86_ntop (src : List UInt8) (h16 : src.length = 16) :
    ∃ t, Canon (InetSpec.words src) t ∧ Text t (InetSpec.words src) ∧ t.length ≤ 45 ∧ ∀ (dst : List (Option UInt8)) (size : Nat), size ≤ dst.length →
      Inet.ntop .inet6 src dst size = some (if t.length < size then some ((t ++ [0]).map some ++ dst.drop (t.length + 1)) else none) := by
  obtain ⟨t, h1, h2, h3⟩ := Inet.ntop6_spec src h16
  obtain ⟨_, h8, hs⟩ := Inet.enc_words 8 src h16
  exact ⟨t, h1, Inet.canon_text h8 hs h1, h2, h3⟩

/-- The run that is abbreviated is determined by the address. -/
theorem C86_canon_unique (ws : List Nat) (t t' : List UInt8) (h : Canon ws t) (h' : Canon ws t') : t = t' := by
  have huniq : ∀ {b l b' l'}, InetSpec.BestRun ws b l → InetSpec.BestRun ws b' l' → b = b' ∧ l = l' := by
    intro b l b' l' h1 h2
    have e1 := h1.2.2 _ _ h2.2.1
    have e2 := h2.2.2 _ _ h1.2.1
    have hl : l = l' := by omega
    exact ⟨by have := e1.2 hl.symm; have := e2.2 hl; omega, hl⟩
  cases h with
  | full h => cases h' with
    | full => rfl
    | short b l hb => exact absurd hb (h b l)
  | short b l hb => cases h' with
    | full h => exact absurd hb (h b l)
    | short b' l' hb' => obtain ⟨rfl, rfl⟩ := huniq hb hb'; rfl

private def six (ws : List Nat) : List UInt8 := ws.flatMap fun w => [UInt8.ofNat (w / 256), UInt8.ofNat w]
private def shown (ws : List Nat) : Option (List UInt8) :=
  (Inet.ntop .inet6 (six ws) (List.replicate 46 none) 46).bind fun r => r.bind fun m => some ((m.takeWhile (· != some 0)).filterMap id)

/-- Meeting the hypotheses, with a run in the middle, two runs, embedded quads and no run. -/
example : shown [0x2001, 0xdb8, 0, 0, 1, 0, 0, 1] = some (B "2001:db8::1:0:0:1") ∧ shown [0, 0, 0, 0, 0, 0xffff, 0xc0a8, 1] = some (B "::ffff:192.168.0.1") ∧
    shown [1, 0, 2, 0, 3, 0, 4, 0] = some (B "1:0:2:0:3:0:4:0") ∧ shown [0xfe80, 0, 0, 0, 0, 0, 0, 0] = some (B "fe80::") ∧ shown [0, 0, 0, 0, 0, 0, 0, 0] = some (B "::") ∧
    shown [0, 0, 0, 0, 0, 0, 0, 1] = some (B "::1") := by decide +kernel

/-! ## C87: reading IPv6 -/

/-- C87. Where it is compiled in (see `C87_not_compiled_in`), `inet_pton(AF_INET6)` ends for every string without touching memory it must not, and stores the address of every
text form of RFC 4291. -/
theorem C87_accepts (s : List UInt8) (ws : List Nat) (h : Text s ws) : ∃ bs, Inet.pton true .inet6 s = some (1, some bs) ∧ bs.length = 16 ∧ InetSpec.words bs = ws := by
  obtain ⟨x, h1, h2⟩ := Inet.pton6_spec s
  have ha := Inet.text_accepted h
  obtain ⟨l, hs⟩ : ws.length = 8 ∧ ∀ w ∈ ws, w ≤ 65535 := by
    obtain ⟨t, hl, h⟩ := Inet.accepted_cases ha
    rcases h with ⟨hi, h8⟩ | ⟨vs, k, hi, h7, rfl⟩ | ⟨vs, k, hi, h8, rfl⟩
    · exact ⟨h8, (Inet.items_small hi).1⟩
    · exact Inet.fin_small (Inet.items_small hi).1 (by omega) (Inet.items_small hi).2 (k := some k) (by simp [Inet.fin, show vs.length ≠ 8 by omega])
    · exact Inet.fin_small (Inet.items_small hi).1 (by omega) (Inet.items_small hi).2 (k := some k) (by simp [Inet.fin, h8])
  have := (h2 (Inet.enc ws)).mpr ⟨by rw [Inet.enc_length]; omega, by rw [Inet.words_enc ws hs]; exact ha⟩
  subst this
  exact ⟨_, by simp [Inet.pton, h1], by rw [Inet.enc_length]; omega, Inet.words_enc ws hs⟩

/-- C87. Exactly what is accepted, and the address it gives. -/
theorem C87_exact (s : List UInt8) : ∃ x, Inet.pton true .inet6 s = some (if x.isSome then 1 else 0, x) ∧ ∀ r, x = some r ↔ r.length = 16 ∧ Accepted s (InetSpec.words r) := by
  obtain ⟨x, h1, h2⟩ := Inet.pton6_spec s
  exact ⟨x, by simp [Inet.pton, h1], h2⟩

/-- C87. What `inet_ntop` prints reads back as the same sixteen bytes. -/
theorem C87_round_trip (src t : List UInt8) (h16 : src.length = 16) (ht : Canon (InetSpec.words src) t) : Inet.pton true .inet6 t = some (1, some src) := by
  obtain ⟨e, h8, hs⟩ := Inet.enc_words 8 src h16
  obtain ⟨bs, h1, h2, h3⟩ := C87_accepts t _ (Inet.canon_text h8 hs ht)
  have := (Inet.enc_words 8 bs h2).1
  rw [h3, e] at this
  rw [h1, this]

example : Text (B "1:2::3:4.5.6.7") [1, 2, 0, 0, 0, 3, 0x405, 0x607] ∧ Inet.pton true .inet6 (B "1:2::3:4.5.6.7") = some (1, some [0, 1, 0, 2, 0, 0, 0, 0, 0, 0, 0, 3, 4, 5, 6, 7]) := by
  have g : ∀ c v, InetSpec.hexNumber [c] = some v → v ≤ 65535 → InetSpec.Group [c] v := fun c v h1 h2 => ⟨by simp, h1, h2⟩
  have e : B "1:2::3:4.5.6.7" = B "1:2" ++ [58, 58] ++ B "3:4.5.6.7" := by decide +kernel
  refine ⟨e ▸ .short (B "1:2") (B "3:4.5.6.7") [1, 2] [3, 0x405, 0x607] (Or.inr ?_) (Or.inr ?_) (by decide), by decide +kernel⟩
  · have e : B "1:2" = [49] ++ [58] ++ [50] := by decide +kernel
    exact e ▸ .cons [49] 1 [50] [2] (g _ _ (by decide +kernel) (by decide)) (.one [50] 2 (g _ _ (by decide +kernel) (by decide)))
  · have e : B "3:4.5.6.7" = [51] ++ [58] ++ B "4.5.6.7" := by decide +kernel
    refine e ▸ .cons [51] 3 (B "4.5.6.7") [0x405, 0x607] (g _ _ (by decide +kernel) (by decide)) (.quad _ 4 5 6 7 ⟨[52], [53], [54], [55], by decide +kernel, ?_, ?_, ?_, ?_⟩) <;>
      exact ⟨by simp, by decide +kernel, by decide +kernel, by decide⟩

/-- Some refusals. -/
example : Inet.pton true .inet6 (B ":1:2:3:4:5:6:7") = some (0, none) ∧ Inet.pton true .inet6 (B "1::2::3") = some (0, none) ∧ Inet.pton true .inet6 (B "1:2:3:4:5:6:7") = some (0, none) ∧
    Inet.pton true .inet6 (B "1:2:3:4:5:6:7:8:9") = some (0, none) ∧ Inet.pton true .inet6 (B "12345::") = some (0, none) ∧ Inet.pton true .inet6 (B "::1.2.3") = some (0, none) := by decide +kernel

/-- A `::` among eight groups is accepted, and the groups after it are lost. -/
theorem C87_groups_lost : Inet.pton true .inet6 (B "1:2:3:4::5:6:7:8") = Inet.pton true .inet6 (B "1:2:3:4:0:0:0:0") ∧
    Inet.pton true .inet6 (B "1:2:3:4:0:0:0:0") = some (1, some (six [1, 2, 3, 4, 0, 0, 0, 0])) := by decide +kernel

/-- A colon at the end is accepted. -/
theorem C87_trailing_colon : Inet.pton true .inet6 (B "1:2:3:4:5:6:7:8:") = some (1, some (six [1, 2, 3, 4, 5, 6, 7, 8])) := by decide +kernel

/-- The code for IPv6 depends on a macro nothing in the repository defines: without it `inet_pton(AF_INET6)` says, for every string, that it does not know the family, while `inet_ntop`
prints such addresses. -/
theorem C87_not_compiled_in (s src : List UInt8) (h16 : src.length = 16) : Inet.pton false .inet6 s = some (-1, none) ∧
    ∀ dst : List (Option UInt8), 46 ≤ dst.length → ∃ m, Inet.ntop .inet6 src dst 46 = some (some m) := by
  refine ⟨rfl, fun dst hd => ?_⟩
  obtain ⟨t, _, _, h, h3⟩ := C86_ntop src h16
  exact ⟨_, by rw [h3 dst 46 hd, if_pos (by omega)]⟩
