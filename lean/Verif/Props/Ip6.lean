import Verif.Props.Ip
/-! # C33 (IPv6 parsing) -/
open IpSpec NumSpec TrimSpec

namespace Ip

/-- What is returned from loop state `s` on the remaining text. -/
def P6 (s : S6) (cs : List UInt8) : R V6 := (loop6 s cs).bind finish6

theorem P6_nil (s : S6) : P6 s [] = finish6 s := rfl
theorem P6_cons (s : S6) (c : UInt8) (cs : List UInt8) : P6 s (c :: cs) = (step6 s c).bind (fun s => P6 s cs) := by
  simp only [P6, loop6]
  cases step6 s c <;> rfl
theorem parse6_eq (s : List UInt8) : parse6 s = P6 {} s := rfl

/-! ## No access outside the arrays, whatever the text -/

/-- Invariant of the loop. -/
structure Inv (s : S6) : Prop where
  addr : s.addr.sixteen.length = 8
  uns : s.unsorted.length = 6
  up : s.up ≤ s.state - 2
  lim : s.up ≤ 5
  st : s.state ≤ 11

/-- Between the switch and the check. -/
theorem R.bind_ne_oob {α β : Type} {x : R α} {f : α → R β} (hx : x ≠ .oob) (hf : ∀ a, x = .ok a → f a ≠ .oob) : x.bind f ≠ .oob := by
  cases x with
  | oob => exact absurd rfl hx
  | reject => simp [R.bind]
  | ok a => exact hf a rfl

/-- `x` is not an out-of-bounds access and, if it is a state, satisfies `Q`. -/
def Post (x : R S6) (Q : S6 → Prop) : Prop := match x with | .oob => False | .reject => True | .ok s => Q s

theorem Post.bind {x : R S6} {f : S6 → R S6} {Q Q' : S6 → Prop} (h : Post x Q) (hf : ∀ s, Q s → Post (f s) Q') : Post (x.bind f) Q' := by
  cases x with
  | oob => exact h
  | reject => trivial
  | ok s => exact hf s h

theorem inv_hex {s : S6} (h : Inv s) (c : UInt8) : Inv (s.hexDigit c) := by
  rw [S6.hexDigit]; split
  · exact ⟨h.addr, h.uns, by have := h.lim; simp [S6.err]; omega, h.lim, by simp [S6.err]⟩
  · exact ⟨h.addr, h.uns, h.up, h.lim, h.st⟩

theorem inv_err {s : S6} (h : Inv s) : Inv s.err := ⟨h.addr, h.uns, by have := h.lim; simp [S6.err]; omega, h.lim, by simp [S6.err]⟩

theorem post_assign {s : S6} (h : Inv s) (i : Nat) (hi : i < 8) : Post (s.assign i) (fun t => Inv t ∧ t.state = s.state) := by
  rw [S6.assign, if_pos (by rw [h.addr]; exact hi)]
  exact ⟨⟨by simp [h.addr], h.uns, h.up, h.lim, h.st⟩, rfl⟩

theorem inv_next {s : S6} (h : Inv s) (hs : s.state ≤ 10) : Inv s.next :=
  ⟨h.addr, h.uns, by have := h.up; simp [S6.next]; omega, h.lim, by simp [S6.next]; omega⟩

theorem post_switch {s : S6} (h : Inv s) (c : UInt8) : Post (switch6 s c) Inv := by
  have hx := inv_hex h c
  have he := inv_err h
  have hu := h.up
  have hl := h.lim
  rw [switch6]
  by_cases h0 : s.state = 0
  · rw [if_pos h0, case0]
    split
    · split
      · exact ⟨h.addr, h.uns, h.up, h.lim, h.st⟩
      · exact he
    · split
      · exact hx
      · split
        · exact (post_assign h 0 (by omega)).bind fun t ht => inv_next ht.1 (by omega)
        · exact he
  rw [if_neg h0]
  by_cases h1 : s.state = 1
  · rw [if_pos h1, case1]
    split
    · exact hx
    · split
      · split
        · exact inv_next ⟨h.addr, h.uns, h.up, h.lim, h.st⟩ (by simp; omega)
        · exact (post_assign h s.state (by omega)).bind fun t ht => inv_next ht.1 (by omega)
      · exact he
  rw [if_neg h1]
  by_cases h6 : s.state ≤ 6
  · rw [if_pos h6, case26]
    have hpush : ∀ b, Post (({ s with bracket := b } : S6).push) (fun t => t.addr.sixteen.length = 8 ∧ t.unsorted.length = 6 ∧ t.up ≤ s.state - 1 ∧ t.up ≤ 5 ∧ t.state = s.state) := by
      intro b
      rw [S6.push, if_pos (by rw [show ({ s with bracket := b } : S6).unsorted = s.unsorted from rfl, h.uns]; simp; omega)]
      refine ⟨h.addr, by simp [h.uns], ?_, ?_, rfl⟩ <;> simp <;> omega
    split
    · exact hx
    · split
      · split
        · split
          · exact he
          · exact ⟨h.addr, h.uns, h.up, h.lim, h.st⟩
        · split
          · exact (hpush s.bracket).bind fun t ⟨a1, a2, a3, a4, a5⟩ => ⟨a1, a2, by simp [S6.next]; omega, a4, by simp [S6.next]; omega⟩
          · exact (post_assign h s.state (by omega)).bind fun t ht => inv_next ht.1 (by omega)
      · split
        · split
          · exact (hpush false).bind fun t ⟨a1, a2, a3, a4, a5⟩ => ⟨a1, a2, by simp; omega, a4, by simp⟩
          · exact he
        · exact he
  rw [if_neg h6]
  by_cases h7 : s.state = 7
  · rw [if_pos h7, case7]
    split
    · exact hx
    · split
      · split
        · exact (post_assign (s := { s with bracket := false }) ⟨h.addr, h.uns, h.up, h.lim, h.st⟩ s.state (by omega)).bind
            fun t ht => inv_next ht.1 (by rw [ht.2]; simp; omega)
        · exact he
      · exact he
  rw [if_neg h7]
  split
  · split
    · exact inv_next h (by omega)
    · exact he
  · split
    · split
      · exact ⟨h.addr, h.uns, h.up, h.lim, h.st⟩
      · exact he
    · split
      · exact h
      · trivial

theorem post_step {s : S6} (h : Inv s) (c : UInt8) : Post (step6 s c) Inv := by
  refine Post.bind (Q := Inv) ?_ fun t ht => ?_
  · apply post_switch; exact ⟨h.addr, h.uns, h.up, h.lim, h.st⟩
  rw [check6]
  split
  · trivial
  · split
    · exact ⟨ht.addr, ht.uns, ht.up, ht.lim, ht.st⟩
    · exact ⟨ht.addr, ht.uns, ht.up, ht.lim, ht.st⟩

theorem post_loop (cs : List UInt8) : ∀ {s : S6}, Inv s → Post (loop6 s cs) Inv := by
  induction cs with
  | nil => intro s h; exact h
  | cons c cs ih => intro s h; exact (post_step h c).bind fun t ht => ih ht

theorem copyLoop_ok (f : Nat → Nat) : ∀ (k i : Nat) (s : S6), s.addr.sixteen.length = 8 → s.unsorted.length = 6 → i + k ≤ 8 →
    (∀ j, i ≤ j → j < i + k → f j < 6) → ∃ t, copyLoop s f i k = .ok t ∧ t.addr.port = s.addr.port := by
  intro k
  induction k with
  | zero => intro i s _ _ _ _; exact ⟨s, rfl, rfl⟩
  | succ k ih =>
    intro i s h1 h2 h3 h4
    rw [copyLoop, if_pos ⟨by omega, by omega, by rw [h2]; exact h4 i (by omega) (by omega)⟩]
    obtain ⟨t, ht, hp⟩ := ih (i + 1) { s with addr := { s.addr with sixteen := s.addr.sixteen.set (7 - i) ((s.unsorted.getD (f i) 0) % 65536) } }
      (by simp [h1]) h2 (by omega) (fun j hj hj2 => h4 j (by omega) (by omega))
    exact ⟨t, ht, hp⟩

end Ip

/-- C33. Parsing any text terminates without an access outside the address or the scratch array. -/
theorem C33_memory_safe (s : List UInt8) : Ip.parse6 s ≠ .oob := by
  have h := Ip.post_loop s (s := {}) ⟨rfl, rfl, by decide, by decide, by decide⟩
  rw [Ip.parse6]
  cases hl : Ip.loop6 {} s with
  | oob => rw [hl] at h; exact absurd h (by simp [Ip.Post])
  | reject => simp [Ip.R.bind]
  | ok t =>
    rw [hl] at h
    have h : Ip.Inv t := h
    show Ip.finish6 t ≠ .oob
    rw [Ip.finish6]
    split
    · simp
    · split
      · split
        · simp
        · rw [Ip.S6.push, if_pos (by rw [h.uns]; have := h.lim; omega)]
          simp only [Ip.R.bind]
          split
          · obtain ⟨u, hu, _⟩ := Ip.copyLoop_ok (fun i => t.up + 1 - i - 1) (t.up + 1) 0 { t with unsorted := t.unsorted.set t.up t.sixteen, up := t.up + 1 }
              h.addr (by simp [h.uns]) (by have := h.lim; omega) (by have := h.lim; intro j _ _; omega)
            rw [hu]; simp
          · simp
      · split
        · split
          · simp
          · split
            · simp
            · rw [Ip.S6.assign, if_pos (by rw [h.addr]; omega)]; simp [Ip.R.bind]
        · split
          · split
            · obtain ⟨u, hu, _⟩ := Ip.copyLoop_ok (fun i => i) t.up 0 t h.addr h.uns (by have := h.lim; omega) (by have := h.lim; intro j _ _; omega)
              rw [hu]; simp [Ip.R.bind]
            · simp
          · split
            · split <;> simp
            · split <;> simp

namespace Ip

/-! ## Steps of the parser on well-formed texts -/

def val16 (o : Nat) (g : List UInt8) : Nat := g.foldl (fun n c => 16 * n + hexValue c) o

theorem val16_ge (g : List UInt8) : ∀ o, o ≤ val16 o g := by
  induction g with
  | nil => intro o; exact Nat.le_refl _
  | cons c g ih => intro o; exact Nat.le_trans (by omega) (ih (16 * o + hexValue c))

theorem hexChar_facts (c : UInt8) : hexChar c = true → isxdigit c = true ∧ c ≠ 91 ∧ c ≠ 58 ∧ c ≠ 93 ∧ (isalpha c = true → Str.isupper c = false) ∧
    ∀ o : Fin 1, char2Hex o.val c = hexValue c :=
  Str.byte_all (P := fun c => hexChar c = true → isxdigit c = true ∧ c ≠ 91 ∧ c ≠ 58 ∧ c ≠ 93 ∧ (isalpha c = true → Str.isupper c = false) ∧
    ∀ o : Fin 1, char2Hex o.val c = hexValue c) (by decide +kernel) c

theorem char2Hex_eq (o : Nat) (c : UInt8) (h : hexChar c = true) : char2Hex o c = 16 * o + hexValue c := by
  have := (hexChar_facts c h).2.2.2.2.2 0
  simp only [char2Hex] at this ⊢
  rw [show o * 16 = 16 * o by omega]
  simpa using this

/-- Reading one digit in states 0 to 7. -/
theorem step_hex (s : S6) (c : UInt8) (hst : s.state ≤ 7) (hu : s.upper = false) (hch : s.change = false) (hp : s.port = 0) (hc : hexChar c = true)
    (hv : 16 * s.sixteen + hexValue c ≤ 65535) :
    step6 s c = .ok { s with sixteen := 16 * s.sixteen + hexValue c, chars := s.chars + 1 } := by
  obtain ⟨h1, h2, h3, h4, h5, _⟩ := hexChar_facts c hc
  have hup : (if isxdigit c = true ∧ isalpha c = true then Str.isupper c else s.upper) = false := by
    by_cases ha : isalpha c = true
    · rw [if_pos ⟨h1, ha⟩, h5 ha]
    · rw [if_neg (by simp [ha]), hu]
  have key : ∀ t : S6, t = { s with upper := false } → switch6 t c = .ok { t with sixteen := 16 * t.sixteen + hexValue c } := by
    rintro t rfl
    have hx : S6.hexDigit { s with upper := false } c = { s with upper := false, sixteen := 16 * s.sixteen + hexValue c } := by
      simp [S6.hexDigit, char2Hex_eq _ _ hc]
    rw [switch6]
    by_cases a0 : s.state = 0
    · rw [if_pos a0, case0, if_neg h2, if_pos h1, hx]
    · rw [if_neg a0]
      by_cases a1 : s.state = 1
      · rw [if_pos a1, case1, if_pos h1, hx]
      · rw [if_neg a1]
        by_cases a6 : s.state ≤ 6
        · rw [if_pos a6, case26, if_pos h1, hx]
        · rw [if_neg a6, if_pos (by simp; omega), case7, if_pos h1, hx]
  rw [step6, hup]
  rw [key _ rfl]
  simp only [R.bind, check6]
  rw [if_neg (by simp [hp]; omega)]
  simp [hch]
  cases s; simp at hu; simp [hu]

theorem P6_hex (cs : List UInt8) : ∀ (g : List UInt8) (s : S6), s.state ≤ 7 → s.upper = false → s.change = false → s.port = 0 → g.all hexChar = true →
    val16 s.sixteen g ≤ 65535 → P6 s (g ++ cs) = P6 { s with sixteen := val16 s.sixteen g, chars := s.chars + g.length } cs := by
  intro g
  induction g with
  | nil => intro s _ _ _ _ _ _; rfl
  | cons c g ih =>
    intro s h1 h2 h3 h4 h5 h6
    simp only [List.all_cons, Bool.and_eq_true] at h5
    have hval : val16 s.sixteen (c :: g) = val16 (16 * s.sixteen + hexValue c) g := rfl
    rw [hval] at h6
    have hle := val16_ge g (16 * s.sixteen + hexValue c)
    rw [List.cons_append, P6_cons, step_hex s c h1 h2 h3 h4 h5.1 (by omega)]
    show P6 _ (g ++ cs) = _
    rw [ih { s with sixteen := 16 * s.sixteen + hexValue c, chars := s.chars + 1 } h1 h2 h3 h4 h5.2 h6, hval]
    simp only [List.length_cons]
    rw [show s.chars + 1 + g.length = s.chars + (g.length + 1) by omega]

/-- The state after a reset. -/
abbrev st6 (st n : Nat) (br z : Bool) (us : List Nat) (up : Nat) (a : V6) : S6 :=
  { state := st, chars := n, bracket := br, zero := z, already := z, unsorted := us, up := up, addr := a }

theorem P6_group (cs : List UInt8) (g : List UInt8) (v st n : Nat) (br z : Bool) (us : List Nat) (up : Nat) (a : V6) (hst : st ≤ 7) (hg : Group g v) :
    P6 (st6 st n br z us up a) (g ++ cs) = P6 { st6 st (n + g.length) br z us up a with sixteen := v } cs := by
  obtain ⟨_, h2, h3, h4⟩ := hg
  have hv : val16 0 g = v := h3
  rw [P6_hex cs g (st6 st n br z us up a) hst rfl rfl rfl h2 (by rw [show (st6 st n br z us up a).sixteen = 0 from rfl, hv]; exact h4)]
  rw [show (st6 st n br z us up a).sixteen = 0 from rfl, hv]

/-- A colon after a group, no compression so far. -/
theorem P6_colon (cs : List UInt8) (v st n : Nat) (br : Bool) (us : List Nat) (up : Nat) (a : V6) (hst : st ≤ 6) (hn : st ≠ 0 → 0 < n) (hv : v ≤ 65535)
    (ha : a.sixteen.length = 8) :
    P6 { st6 st n br false us up a with sixteen := v } (58 :: cs) = P6 (st6 (st + 1) 0 br false us up { a with sixteen := a.sixteen.set st v }) cs := by
  have hv2 : v % 65536 = v := Nat.mod_eq_of_lt (by omega)
  rw [P6_cons]
  have hassign : ∀ i, i < 8 → S6.assign { st6 st n br false us up a with sixteen := v } i =
      .ok { st6 st n br false us up { a with sixteen := a.sixteen.set i v } with sixteen := v } := by
    intro i hi; rw [S6.assign, if_pos (by simp [ha]; exact hi), hv2]
  have : step6 { st6 st n br false us up a with sixteen := v } 58 = .ok (st6 (st + 1) 0 br false us up { a with sixteen := a.sixteen.set st v }) := by
    have hsw : switch6 { st6 st n br false us up a with sixteen := v } 58 =
        .ok ({ st6 st n br false us up { a with sixteen := a.sixteen.set st v } with sixteen := v } : S6).next := by
      rw [switch6]
      by_cases a0 : st = 0
      · subst a0
        rw [if_pos rfl, case0, if_neg (by decide), if_neg (by decide), if_pos rfl, hassign 0 (by omega)]; rfl
      · rw [if_neg a0]
        by_cases a1 : st = 1
        · subst a1
          rw [if_pos rfl, case1, if_neg (by decide), if_pos rfl, if_neg (by have := hn (by omega); simp; omega), hassign 1 (by omega)]; rfl
        · rw [if_neg a1, if_pos hst, case26, if_neg (by decide), if_pos rfl, if_neg (by have := hn a0; simp; omega), if_neg (by simp), hassign st (by omega)]; rfl
    rw [step6]
    simp only [show isxdigit 58 = false by decide, Bool.false_eq_true, false_and, if_false]
    rw [hsw]
    simp only [R.bind, check6, S6.next]
    rw [if_neg (by simp; omega)]; rfl
  rw [this]; rfl

/-- Groups before any compression. -/
theorem P6_groups (cs : List UInt8) {s : List UInt8} {vs : List Nat} (h : Groups s vs) : ∀ (st n : Nat) (br : Bool) (us : List Nat) (up : Nat) (pre : List Nat),
    pre.length = st → st + vs.length ≤ 8 → ∃ n' v, 0 < n' ∧ v ≤ 65535 ∧ vs = vs.dropLast ++ [v] ∧
    P6 (st6 st n br false us up ⟨pre ++ List.replicate (8 - st) 0, 0⟩) (s ++ cs) =
      P6 { st6 (st + vs.length - 1) n' br false us up ⟨pre ++ vs.dropLast ++ List.replicate (8 - (st + vs.length - 1)) 0, 0⟩ with sixteen := v } cs := by
  induction h with
  | one g v hg =>
    intro st n br us up pre hp hlen
    simp only [List.length_cons, List.length_nil] at hlen
    refine ⟨n + g.length, v, ?_, hg.2.2.2, by simp, ?_⟩
    · have := List.length_pos_iff.2 hg.1; omega
    · rw [P6_group cs g v st n br false us up _ (by omega) hg]
      simp
  | cons g v s vs hg hs ih =>
    intro st n br us up pre hp hlen
    simp only [List.length_cons] at hlen
    have hpos := List.length_pos_iff.2 hg.1
    have hvs : vs ≠ [] := by cases hs <;> simp
    have hvl := List.length_pos_iff.2 hvs
    rw [List.append_assoc, List.append_assoc, P6_group _ g v st n br false us up _ (by omega) hg]
    simp only [List.singleton_append]
    rw [P6_colon _ v st (n + g.length) br us up _ (by omega) (by omega) hg.2.2.2 (by simp; omega)]
    have hset : (pre ++ List.replicate (8 - st) 0).set st v = (pre ++ [v]) ++ List.replicate (8 - (st + 1)) 0 := by
      rw [← hp, show 8 - pre.length = (8 - (pre.length + 1)) + 1 by omega, List.replicate_succ]
      simp
    simp only [hset]
    obtain ⟨n', v', h1, h2, h3, h4⟩ := ih (st + 1) 0 br us up (pre ++ [v]) (by simp [hp]) (by omega)
    refine ⟨n', v', h1, h2, ?_, ?_⟩
    · rw [List.dropLast_cons_of_ne_nil hvs, List.cons_append, ← h3]
    · rw [h4, List.dropLast_cons_of_ne_nil hvs, show st + 1 + vs.length - 1 = st + (v :: vs).length - 1 by simp only [List.length_cons]; omega]
      simp

end Ip

/-- C33. Eight groups separated by colons are parsed to their values. -/
theorem C33_full_form (s : List UInt8) (vs : List Nat) (h : Groups s vs) (h8 : vs.length = 8) : Ip.parse6 s = .ok ⟨vs, 0⟩ := by
  obtain ⟨n', v, h1, h2, h3, h4⟩ := Ip.P6_groups [] h 0 0 false [0, 0, 0, 0, 0, 0] 0 [] rfl (by omega)
  rw [List.append_nil] at h4
  rw [Ip.parse6_eq]
  refine Eq.trans h4 ?_
  rw [Ip.P6_nil, h8]
  simp only [Ip.finish6]
  have hl : vs.dropLast.length = 7 := by simp [h8]
  simp [Ip.S6.assign, hl, Ip.R.bind, show ¬ n' = 0 by omega, Nat.mod_eq_of_lt (show v < 65536 by omega)]
  exact h3.symm

example : Groups [49, 58, 97] [1, 10] := .cons [49] 1 [97] [10] (by unfold Group; decide) (.one [97] 10 (by unfold Group; decide))

namespace Ip

/-- The closing bracket in state 7. -/
theorem P6_close (cs : List UInt8) (v n : Nat) (us : List Nat) (up : Nat) (a : V6) (hv : v ≤ 65535) (ha : a.sixteen.length = 8) :
    P6 { st6 7 n true false us up a with sixteen := v } (93 :: cs) = P6 (st6 8 0 false false us up { a with sixteen := a.sixteen.set 7 v }) cs := by
  have hv2 : v % 65536 = v := Nat.mod_eq_of_lt (by omega)
  rw [P6_cons]
  have : step6 { st6 7 n true false us up a with sixteen := v } 93 = .ok (st6 8 0 false false us up { a with sixteen := a.sixteen.set 7 v }) := by
    rw [step6]
    simp only [show isxdigit 93 = false by decide, Bool.false_eq_true, false_and, if_false]
    simp [switch6, case7, S6.assign, ha, R.bind, S6.next, show isxdigit 93 = false by decide, hv2, check6]
    omega
  rw [this]; rfl

abbrev port6 (p n : Nat) (z : Bool) (us : List Nat) (up : Nat) (a : V6) : S6 :=
  { state := 9, port := p, chars := n, zero := z, already := z, unsorted := us, up := up, addr := a }

theorem P6_port_digits (z : Bool) (us : List Nat) (up : Nat) (a : V6) : ∀ (ds : List UInt8) (p n : Nat), ds.all digit = true → val p ds ≤ 65535 →
    P6 (port6 p n z us up a) ds = finish6 { port6 (val p ds) (n + ds.length) z us up a with upper := false } := by
  intro ds
  induction ds with
  | nil => intro p n _ _; rfl
  | cons c ds ih =>
    intro p n hd hv
    simp only [List.all_cons, Bool.and_eq_true] at hd
    have hval : val p (c :: ds) = val (10 * p + (c.toNat - 48)) ds := rfl
    rw [hval] at hv ⊢
    have hge := val_ge ds (10 * p + (c.toNat - 48))
    have hi : Str.isdigit c = true := by rw [Str.isdigit_eq, hd.1]
    have hal : isalpha c = false := by
      have := Str.byte_all (P := fun c => digit c = true → isalpha c = false) (by decide +kernel) c
      exact this hd.1
    have : step6 (port6 p n z us up a) c = .ok (port6 (10 * p + (c.toNat - 48)) (n + 1) z us up a) := by
      rw [step6]
      simp [hal, switch6, hi, R.bind, check6, char2Dec]
      rw [if_neg (by omega), show p * 10 + (c.toNat - 48) = 10 * p + (c.toNat - 48) by omega]
    rw [P6_cons, this]
    show P6 _ ds = _
    rw [ih _ _ hd.2 hv]
    simp only [List.length_cons]
    rw [show n + 1 + ds.length = n + (ds.length + 1) by omega]

end Ip

/-- C33. Eight groups between brackets, optionally followed by a colon and a port, are parsed to their values and the port. -/
theorem C33_bracket_form (s : List UInt8) (vs : List Nat) (h : Groups s vs) (h8 : vs.length = 8) :
    Ip.parse6 ([91] ++ s ++ [93]) = .ok ⟨vs, 0⟩ ∧
    ∀ P p, Dec 65535 P p → Ip.parse6 ([91] ++ s ++ [93] ++ [58] ++ P) = .ok ⟨vs, p⟩ := by
  have key : ∀ tail, Ip.parse6 (91 :: (s ++ 93 :: tail)) = Ip.P6 (Ip.st6 8 0 false false [0, 0, 0, 0, 0, 0] 0 ⟨vs, 0⟩) tail := by
    intro tail
    obtain ⟨n', v, h1, h2, h3, h4⟩ := Ip.P6_groups (93 :: tail) h 0 1 true [0, 0, 0, 0, 0, 0] 0 [] rfl (by omega)
    have hopen : Ip.parse6 (91 :: (s ++ 93 :: tail)) = Ip.P6 (Ip.st6 0 1 true false [0, 0, 0, 0, 0, 0] 0 ⟨[] ++ List.replicate (8 - 0) 0, 0⟩) (s ++ 93 :: tail) := by
      rw [Ip.parse6_eq, Ip.P6_cons]; rfl
    rw [hopen, h4, h8]
    have hl : vs.dropLast.length = 7 := by simp [h8]
    simp only [List.nil_append, Nat.zero_add]
    rw [Ip.P6_close _ _ _ _ _ _ h2 (by simp [h8])]
    have : (vs.dropLast ++ List.replicate (8 - (8 - 1)) 0).set 7 v = vs := by
      rw [List.set_append_right _ _ (by omega), hl]
      simp only [Nat.sub_self]
      exact h3.symm
    simp only [this]
  constructor
  · have := key []
    simp only [List.cons_append, List.nil_append] at this ⊢
    rw [this]; rfl
  · intro P p hP
    have := key (58 :: P)
    have e : [91] ++ s ++ [93] ++ [58] ++ P = 91 :: (s ++ 93 :: 58 :: P) := by simp
    rw [e, this, Ip.P6_cons]
    have hst : Ip.step6 (Ip.st6 8 0 false false [0, 0, 0, 0, 0, 0] 0 ⟨vs, 0⟩) 58 = .ok (Ip.port6 0 0 false [0, 0, 0, 0, 0, 0] 0 ⟨vs, 0⟩) := rfl
    rw [hst]
    show Ip.P6 _ P = _
    have hval : Ip.val 0 P = p := hP.2.2.1
    rw [Ip.P6_port_digits _ _ _ _ _ _ _ hP.2.1 (by rw [hval]; exact hP.2.2.2), hval]
    have := hP.2.2.2
    simp [Ip.finish6, hP.1]
    omega

namespace Ip

/-- The second colon of `::`. -/
theorem P6_double (cs : List UInt8) (st : Nat) (us : List Nat) (up : Nat) (a : V6) (h1 : 1 ≤ st) (h6 : st ≤ 6) :
    P6 (st6 st 0 false false us up a) (58 :: cs) = P6 (st6 (max st 2) (if st = 1 then 0 else 1) false true us up a) cs := by
  rw [P6_cons]
  have : step6 (st6 st 0 false false us up a) 58 = .ok (st6 (max st 2) (if st = 1 then 0 else 1) false true us up a) := by
    rw [step6]
    simp only [show isxdigit 58 = false by decide, Bool.false_eq_true, false_and, if_false]
    by_cases a1 : st = 1
    · subst a1; simp [switch6, case1, show isxdigit 58 = false by decide, S6.next, R.bind, check6]
    · rw [show max st 2 = st by omega]
      simp [switch6, case26, show isxdigit 58 = false by decide, R.bind, check6, a1, show st ≠ 0 by omega, h6]
  rw [this]; rfl

/-- A colon after a group, after `::`. -/
theorem P6_colon_z (cs : List UInt8) (v st n : Nat) (us : List Nat) (up : Nat) (a : V6) (h2 : 2 ≤ st) (h6 : st ≤ 6) (hn : 0 < n) (hv : v ≤ 65535)
    (hu : up < us.length) :
    P6 { st6 st n false true us up a with sixteen := v } (58 :: cs) = P6 (st6 (st + 1) 0 false true (us.set up v) (up + 1) a) cs := by
  rw [P6_cons]
  have : step6 { st6 st n false true us up a with sixteen := v } 58 = .ok (st6 (st + 1) 0 false true (us.set up v) (up + 1) a) := by
    rw [step6]
    simp only [show isxdigit 58 = false by decide, Bool.false_eq_true, false_and, if_false]
    simp [switch6, case26, show isxdigit 58 = false by decide, R.bind, check6, show st ≠ 0 by omega, show st ≠ 1 by omega, h6, show n ≠ 0 by omega, S6.push, hu, S6.next]
    omega
  rw [this]; rfl

/-- Groups after `::`, up to the end of the text. -/
theorem P6_groups_z {s : List UInt8} {vs : List Nat} (h : Groups s vs) : ∀ (st n : Nat) (ps : List Nat) (a : V6),
    2 ≤ st → st + vs.length ≤ 7 → ps.length + vs.length ≤ 6 → ∃ n' v, v ≤ 65535 ∧ vs = vs.dropLast ++ [v] ∧
    P6 (st6 st n false true (ps ++ List.replicate (6 - ps.length) 0) ps.length a) s =
      finish6 { st6 (st + vs.length - 1) n' false true (ps ++ vs.dropLast ++ List.replicate (6 - (ps.length + vs.dropLast.length)) 0) (ps.length + vs.dropLast.length) a with sixteen := v } := by
  induction h with
  | one g v hg =>
    intro st n ps a h2 hst hps
    simp only [List.length_cons, List.length_nil] at hst hps
    refine ⟨n + g.length, v, hg.2.2.2, by simp, ?_⟩
    have := P6_group [] g v st n false true (ps ++ List.replicate (6 - ps.length) 0) ps.length a (by omega) hg
    rw [List.append_nil] at this
    rw [this, P6_nil]; simp
  | cons g v s vs hg hs ih =>
    intro st n ps a h2 hst hps
    simp only [List.length_cons] at hst hps
    have hpos := List.length_pos_iff.2 hg.1
    have hvs : vs ≠ [] := by cases hs <;> simp
    have hvl := List.length_pos_iff.2 hvs
    rw [List.append_assoc, P6_group _ g v st n false true _ _ _ (by omega) hg]
    simp only [List.singleton_append]
    rw [P6_colon_z _ v st (n + g.length) _ _ _ h2 (by omega) (by omega) hg.2.2.2 (by simp; omega)]
    have hset : (ps ++ List.replicate (6 - ps.length) 0).set ps.length v = (ps ++ [v]) ++ List.replicate (6 - (ps ++ [v]).length) 0 := by
      rw [show 6 - ps.length = (6 - (ps ++ [v]).length) + 1 by simp; omega, List.replicate_succ]
      simp
    obtain ⟨n', v', h1, h3, h4⟩ := ih (st + 1) 0 (ps ++ [v]) a (by omega) (by omega) (by simp; omega)
    refine ⟨n', v', h1, ?_, ?_⟩
    · rw [List.dropLast_cons_of_ne_nil hvs, List.cons_append, ← h3]
    · rw [hset, show ps.length + 1 = (ps ++ [v]).length by simp, h4, List.dropLast_cons_of_ne_nil hvs,
        show st + 1 + vs.length - 1 = st + (v :: vs).length - 1 by simp only [List.length_cons]; omega]
      simp only [List.append_assoc, List.singleton_append, List.length_append, List.length_cons, List.length_nil, List.length_dropLast]
      rw [show ps.length + (0 + 1) + (vs.length - 1) = ps.length + (vs.length - 1 + 1) by omega]

/-- The copy loop places the collected numbers at the end of the address. -/
theorem copyLoop_spec (bs rest : List Nat) (hb : ∀ v ∈ bs, v ≤ 65535) (up : Nat) (hup : up = bs.length) : ∀ (k i : Nat) (s : S6) (A : List Nat),
    s.unsorted = bs ++ rest → A.length = 8 → i + k = bs.length → bs.length ≤ 6 → s.addr.sixteen = A.take (8 - i) ++ bs.drop (bs.length - i) →
    ∃ t, copyLoop s (fun i => up - i - 1) i k = .ok t ∧ t.addr = ⟨A.take (8 - bs.length) ++ bs, s.addr.port⟩ := by
  intro k
  induction k with
  | zero =>
    intro i s A hs hA hik hl haddr
    refine ⟨s, rfl, ?_⟩
    have : i = bs.length := by omega
    subst this
    rw [Nat.sub_self, List.drop_zero] at haddr
    cases hs2 : s.addr; rw [hs2] at haddr; simp at haddr; simp [haddr]
  | succ k ih =>
    intro i s A hs hA hik hl haddr
    have hlen : s.addr.sixteen.length = 8 := by rw [haddr]; simp [hA]; omega
    have hidx : up - i - 1 < bs.length := by omega
    rw [copyLoop, if_pos ⟨by omega, by omega, by rw [hs]; simp; omega⟩]
    have hval : s.unsorted.getD (up - i - 1) 0 = bs[up - i - 1] := by
      rw [hs, List.getD_eq_getElem?_getD, List.getElem?_append_left hidx, List.getElem?_eq_getElem hidx]; rfl
    have hle := hb _ (List.getElem_mem hidx)
    obtain ⟨t, ht, hp⟩ := ih (i + 1) { s with addr := { s.addr with sixteen := s.addr.sixteen.set (7 - i) ((s.unsorted.getD (up - i - 1) 0) % 65536) } } A hs hA
      (by omega) hl (by
        simp only
        rw [hval, Nat.mod_eq_of_lt (by omega), haddr]
        have e1 : (A.take (8 - i)).set (7 - i) bs[up - i - 1] = A.take (8 - (i + 1)) ++ [bs[up - i - 1]] := by
          apply List.ext_getElem
          · simp [hA]; omega
          · intro j h1 h2
            simp only [List.length_set, List.length_take, hA] at h1
            simp only [List.getElem_set, List.getElem_append, List.length_take, hA, List.getElem_take]
            by_cases hj : 7 - i = j
            · rw [if_pos hj, dif_neg (by omega)]; simp
            · rw [if_neg hj, dif_pos (by omega)]
        rw [List.set_append_left _ _ (by simp [hA]; omega), e1, List.append_assoc]
        congr 1
        rw [List.singleton_append, show bs.length - (i + 1) = up - i - 1 by omega, List.drop_eq_getElem_cons hidx]
        congr 2; omega)
    exact ⟨t, ht, hp⟩

theorem groups_le {s : List UInt8} {vs : List Nat} (h : Groups s vs) : ∀ v ∈ vs, v ≤ 65535 := by
  induction h with
  | one g v hg => simpa using hg.2.2.2
  | cons g v s vs hg _ ih => intro x hx; rcases List.mem_cons.1 hx with rfl | hx; exact hg.2.2.2; exact ih x hx

theorem finish_z (st n v : Nat) (ps rest : List Nat) (A : List Nat) (hst2 : 2 ≤ st) (hst : st ≤ 6) (hA : A.length = 8) (hv : v ≤ 65535)
    (hps : ∀ x ∈ ps, x ≤ 65535) (hl : (ps ++ rest).length = 6) (hl2 : ps.length < 6) :
    finish6 { st6 st n false true (ps ++ rest) ps.length ⟨A, 0⟩ with sixteen := v } = .ok ⟨A.take (8 - (ps.length + 1)) ++ (ps ++ [v]), 0⟩ := by
  rw [finish6, if_neg (by simp; omega), if_pos hst, if_neg (by simp), S6.push, if_pos (by simp only [hl]; exact hl2)]
  obtain ⟨t, ht, hp⟩ := copyLoop_spec (ps ++ [v]) (rest.drop 1) (by intro x hx; rcases List.mem_append.1 hx with h | h; exact hps x h; simp at h; omega)
    (ps.length + 1) (by simp) (ps.length + 1) 0
    { st6 st n false true ((ps ++ rest).set ps.length v) (ps.length + 1) ⟨A, 0⟩ with sixteen := v } A
    (by
      obtain ⟨r0, rs, rfl⟩ : ∃ r0 rs, rest = r0 :: rs := by
        cases rest with
        | nil => simp at hl; omega
        | cons a b => exact ⟨a, b, rfl⟩
      simp) hA (by simp) (by simp; omega) (by simp [← hA])
  simp only [R.bind, if_true]
  rw [ht]
  simp only [hp, List.length_append, List.length_cons, List.length_nil]

end Ip

/-- C33, partial. `front::back` stands for the groups of `front`, as many zeros as needed, and the groups of `back`. Missing: addresses in which
`::` stands for few groups, more precisely with seven groups in front, or with at most one group in front and six or more behind; there the
parser is wrong (next theorems). -/
theorem C33_compressed_form_partial (f b : List UInt8) (fs bs : List Nat) (hf : Groups0 f fs) (hb : Groups0 b bs)
    (hlen : max fs.length 2 + max bs.length 1 ≤ 7) :
    Ip.parse6 (f ++ [58, 58] ++ b) = .ok ⟨fs ++ List.replicate (8 - fs.length - bs.length) 0 ++ bs, 0⟩ := by
  -- the front
  have front : ∀ b, ∃ n, Ip.parse6 (f ++ [58, 58] ++ b) = Ip.P6 (Ip.st6 (max fs.length 2) n false true [0, 0, 0, 0, 0, 0] 0 ⟨fs ++ List.replicate (8 - fs.length) 0, 0⟩) b := by
    intro b
    rcases hf with ⟨rfl, rfl⟩ | hf
    · refine ⟨0, ?_⟩
      rw [Ip.parse6_eq]
      show Ip.P6 _ (58 :: 58 :: b) = _
      have := Ip.P6_colon (58 :: b) 0 0 0 false [0, 0, 0, 0, 0, 0] 0 ⟨[0, 0, 0, 0, 0, 0, 0, 0], 0⟩ (by omega) (by omega) (by omega) rfl
      refine Eq.trans this ?_
      rw [Ip.P6_double _ _ _ _ _ (by omega) (by omega)]; rfl
    · have hpos : 0 < fs.length := by cases hf <;> simp
      obtain ⟨n', v, h1, h2, h3, h4⟩ := Ip.P6_groups ([58, 58] ++ b) hf 0 0 false [0, 0, 0, 0, 0, 0] 0 [] rfl (by omega)
      refine ⟨if fs.length = 1 then 0 else 1, ?_⟩
      rw [Ip.parse6_eq, List.append_assoc]
      refine Eq.trans h4 ?_
      simp only [List.nil_append, Nat.zero_add, List.cons_append]
      rw [Ip.P6_colon _ _ _ _ _ _ _ _ (by omega) (by omega) h2 (by simp; omega)]
      have hset : (fs.dropLast ++ List.replicate (8 - (fs.length - 1)) 0).set (fs.length - 1) v = fs ++ List.replicate (8 - fs.length) 0 := by
        rw [show 8 - (fs.length - 1) = (8 - fs.length) + 1 by omega, List.replicate_succ, List.set_append_right _ _ (by simp), List.length_dropLast]
        rw [Nat.sub_self, List.set_cons_zero]
        conv => rhs; rw [h3]
        simp
        omega
      simp only [hset, show fs.length - 1 + 1 = fs.length by omega]
      rw [Ip.P6_double _ _ _ _ _ (by omega) (by omega)]
  obtain ⟨n, hfront⟩ := front b
  rw [hfront]
  have hA : (fs ++ List.replicate (8 - fs.length) 0).length = 8 := by simp; omega
  rcases hb with ⟨rfl, rfl⟩ | hb
  · rw [Ip.P6_nil]
    have := Ip.finish_z (max fs.length 2) n 0 [] [0, 0, 0, 0, 0, 0] (fs ++ List.replicate (8 - fs.length) 0) (by omega) (by simp at hlen; omega) hA (by omega) (by simp) rfl (by simp)
    refine Eq.trans this ?_
    congr 2
    simp only [List.length_nil, List.nil_append, Nat.zero_add, Nat.sub_zero, List.append_nil]
    rw [List.take_append, List.take_of_length_le (by simp at hlen; omega), List.take_replicate, List.append_assoc, show [0] = List.replicate 1 0 from rfl, List.replicate_append_replicate]
    congr 2
    simp at hlen; omega
  · have hpos : 0 < bs.length := by cases hb <;> simp
    obtain ⟨n', v, h2, h3, h4⟩ := Ip.P6_groups_z hb (max fs.length 2) n [] ⟨fs ++ List.replicate (8 - fs.length) 0, 0⟩ (by omega) (by omega) (by simp; omega)
    simp only [List.nil_append, List.length_nil, Nat.zero_add] at h4
    have h4' : Ip.P6 (Ip.st6 (max fs.length 2) n false true [0, 0, 0, 0, 0, 0] 0 ⟨fs ++ List.replicate (8 - fs.length) 0, 0⟩) b = _ := h4
    rw [h4', Ip.finish_z _ _ _ _ _ _ (by omega) (by omega) hA h2 (fun x hx => Ip.groups_le hb x (List.dropLast_subset _ hx)) (by simp; omega) (by simp; omega)]
    rw [← h3]
    congr 2
    rw [List.length_dropLast, show bs.length - 1 + 1 = bs.length by omega, List.take_append, List.take_of_length_le (by omega), List.take_replicate]
    congr 3
    omega

example : Ip.parse6 ([49] ++ [58, 58] ++ [97, 98]) = .ok ⟨[1, 0, 0, 0, 0, 0, 0, 171], 0⟩ ∧ Groups0 [49] [1] ∧ Groups0 [97, 98] [171] :=
  ⟨by decide, Or.inr (.one _ _ (by unfold Group; decide)), Or.inr (.one _ _ (by unfold Group; decide))⟩
example : Groups0 [] [] := Or.inl ⟨rfl, rfl⟩

/-- Finding: when `::` stands for one group behind the first, all groups but the first and the last are lost: 1::2:3:4:5:6:7 becomes 1:0:0:0:0:0:0:7. -/
theorem C33_groups_lost : Ip.parse6 [49, 58, 58, 50, 58, 51, 58, 52, 58, 53, 58, 54, 58, 55] = .ok ⟨[1, 0, 0, 0, 0, 0, 0, 7], 0⟩ := by decide
/-- Finding: between brackets the groups behind `::` are stored in reverse order: [1::2:3] becomes 1:0:0:0:0:0:3:2. -/
theorem C33_brackets_reverse : Ip.parse6 [91, 49, 58, 58, 50, 58, 51, 93] = .ok ⟨[1, 0, 0, 0, 0, 0, 3, 2], 0⟩ := by decide
/-- Finding: with a port they are lost: [1::2:3]:80 becomes 1:0:0:0:0:0:0:0 with port 80. -/
theorem C33_brackets_port_lost : Ip.parse6 [91, 49, 58, 58, 50, 58, 51, 93, 58, 56, 48] = .ok ⟨[1, 0, 0, 0, 0, 0, 0, 0], 80⟩ := by decide
/-- Finding: seven groups and `::` is refused. -/
theorem C33_seven_groups_refused : Ip.parse6 [49, 58, 50, 58, 51, 58, 52, 58, 53, 58, 54, 58, 55, 58, 58] = .reject := by decide
/-- Finding: texts that are no addresses are accepted: an empty first group, three colons, an empty last group between brackets. -/
theorem C33_malformed_accepted :
    Ip.parse6 [58, 50, 58, 51, 58, 52, 58, 53, 58, 54, 58, 55, 58, 56] = .ok ⟨[0, 2, 3, 4, 5, 6, 7, 8], 0⟩ ∧
    Ip.parse6 [49, 58, 50, 58, 58, 58, 51] = .ok ⟨[1, 2, 0, 0, 0, 0, 0, 3], 0⟩ ∧
    Ip.parse6 [91, 49, 58, 50, 58, 51, 58, 52, 58, 53, 58, 54, 58, 55, 58, 93] = .ok ⟨[1, 2, 3, 4, 5, 6, 7, 0], 0⟩ := by decide

/-! ## Texts that are refused -/
namespace Ip

/-- A state that is not the (unreachable) state 10. -/
def Live (s : S6) : Prop := s.state ≤ 9 ∨ s.state = 11

theorem dead {s : S6} (h : s.state = 11) (cs : List UInt8) : P6 s cs = .reject := by
  cases cs with
  | nil => rw [P6_nil, finish6]; simp [h]
  | cons c cs =>
    rw [P6_cons, step6]
    have : switch6 { s with upper := if isxdigit c ∧ isalpha c then Str.isupper c else s.upper } c = .reject := by
      rw [switch6]; simp [h]
    simp only [this]; rfl

/-- `x` is a refusal or a state that refuses. -/
def Refusing (x : R S6) : Prop := x = .reject ∨ ∃ t, x = .ok t ∧ t.state = 11

theorem Refusing.step {x : R S6} (h : Refusing x) : Refusing (x.bind fun s => check6 { s with chars := s.chars + 1 }) := by
  rcases h with h | ⟨t, h, ht⟩
  · rw [h]; exact .inl rfl
  · rw [h]
    simp only [R.bind, check6]
    split
    · exact .inl rfl
    · split
      · exact .inr ⟨_, rfl, ht⟩
      · exact .inr ⟨_, rfl, ht⟩

theorem Refusing.rest {x : R S6} (h : Refusing x) (cs : List UInt8) : (x.bind fun s => P6 s cs) = .reject := by
  rcases h with h | ⟨t, h, ht⟩
  · rw [h]; rfl
  · rw [h]; exact dead ht cs

/-- The characters an accepted text can have. -/
def ok6 (c : UInt8) : Bool := hexChar c || c == 58 || c == 91 || c == 93

theorem bad_facts (c : UInt8) : ok6 c = false → c ≠ 91 ∧ c ≠ 58 ∧ c ≠ 93 ∧ Str.isdigit c = false ∧ (isxdigit c = true → isalpha c = true ∧ Str.isupper c = true) := by
  revert c
  have h := Str.byte_all (P := fun c => !(ok6 c == false) || (!(c == 91) && !(c == 58) && !(c == 93) && (Str.isdigit c == false) && (!(isxdigit c) || (isalpha c && Str.isupper c)))) (by decide +kernel)
  intro c hc
  have := h c
  simp only [hc, beq_self_eq_true, Bool.not_true, Bool.false_or, Bool.and_eq_true, Bool.not_eq_true', beq_eq_false_iff_ne, beq_iff_eq, Bool.or_eq_true] at this
  obtain ⟨⟨⟨⟨h1, h2⟩, h3⟩, h4⟩, h5⟩ := this
  refine ⟨h1, h2, h3, h4, fun hx => ?_⟩
  rcases h5 with h5 | h5
  · rw [hx] at h5; cases h5
  · exact h5

theorem bad_step {s : S6} (h : Live s) {c : UInt8} (hc : ok6 c = false) : Refusing (step6 s c) := by
  obtain ⟨h1, h2, h3, h4, h5⟩ := bad_facts c hc
  refine Refusing.step ?_
  have hhex : ∀ t : S6, t = { s with upper := if isxdigit c ∧ isalpha c then Str.isupper c else s.upper } → isxdigit c = true → (t.hexDigit c).state = 11 := by
    intro t ht hx
    obtain ⟨h6, h7⟩ := h5 hx
    rw [S6.hexDigit, if_pos (by rw [ht]; simp [hx, h6, h7])]; rfl
  have herr : ∀ t : S6, Refusing (.ok t.err) := fun t => .inr ⟨_, rfl, rfl⟩
  generalize hs' : ({ s with upper := if isxdigit c ∧ isalpha c then Str.isupper c else s.upper } : S6) = t at hhex
  have hst : t.state = s.state := by rw [← hs']
  have hx' : isxdigit c = true → Refusing (.ok (t.hexDigit c)) := fun hx => .inr ⟨_, rfl, hhex t rfl hx⟩
  rw [switch6]
  have hcase : ∀ (y : R S6), Refusing y → Refusing (if isxdigit c then .ok (t.hexDigit c) else y) := by
    intro y hy
    by_cases hx : isxdigit c = true
    · rw [if_pos hx]; exact hx' hx
    · rw [if_neg hx]; exact hy
  by_cases h0 : t.state = 0
  · rw [if_pos h0, case0, if_neg h1]
    exact hcase _ (by rw [if_neg h2]; exact herr t)
  rw [if_neg h0]
  by_cases h0 : t.state = 1
  · rw [if_pos h0, case1]
    exact hcase _ (by rw [if_neg h2]; exact herr t)
  rw [if_neg h0]
  by_cases h0 : t.state ≤ 6
  · rw [if_pos h0, case26]
    exact hcase _ (by rw [if_neg h2, if_neg h3]; exact herr t)
  rw [if_neg h0]
  by_cases h0 : t.state = 7
  · rw [if_pos h0, case7]
    exact hcase _ (by rw [if_neg h3]; exact herr t)
  rw [if_neg h0]
  by_cases h0 : t.state = 8
  · rw [if_pos h0, if_neg h2]; exact herr t
  rw [if_neg h0]
  by_cases h0 : t.state = 9
  · rw [if_pos h0, if_neg (by simp [h4])]; exact herr t
  rw [if_neg h0, if_neg (by rcases h with h | h <;> omega)]
  exact .inl rfl

/-- What a step leaves: live, and the flag for `::` is not taken back. -/
def KeepsA (s : S6) (x : R S6) : Prop := ∀ t, x = .ok t → Live t ∧ (s.already = true → t.already = true)

theorem keepsA_ok {s t : S6} (h1 : Live t) (h2 : s.already = true → t.already = true) : KeepsA s (.ok t) := by
  intro t' h; cases h; exact ⟨h1, h2⟩
theorem keepsA_err (s : S6) : KeepsA s (.ok s.err) := keepsA_ok (.inr rfl) id

theorem keepsA_step {s : S6} (h : Live s) (c : UInt8) : KeepsA s (step6 s c) := by
  have hsw : ∀ t : S6, Live t → KeepsA t (switch6 t c) := by
    intro t ht
    have hhex : KeepsA t (.ok (t.hexDigit c)) := by
      rw [S6.hexDigit]; split
      · exact keepsA_err t
      · exact keepsA_ok ht id
    have hassign : ∀ (u : S6) (i : Nat), u.state ≤ 8 → u.already = t.already → KeepsA t ((u.assign i).bind fun s => .ok s.next) := by
      intro u i hu ha
      rw [S6.assign]; split
      · exact keepsA_ok (.inl (by simp [S6.next]; omega)) (fun h => by simp [S6.next, ha, h])
      · intro t' h'; cases h'
    have hpush : ∀ (u : S6) (f : S6 → S6), u.already = t.already → (∀ v : S6, v.state = u.state → Live (f v) ∧ (f v).already = v.already) → KeepsA t (u.push.bind fun s => .ok (f s)) := by
      intro u f ha hf
      rw [S6.push]; split
      · have hv := hf { u with unsorted := u.unsorted.set u.up u.sixteen, up := u.up + 1 } rfl
        exact keepsA_ok hv.1 (fun h => hv.2.trans (ha.trans h))
      · intro t' h'; cases h'
    rw [switch6]
    by_cases h0 : t.state = 0
    · rw [if_pos h0, case0]
      split
      · split
        · exact keepsA_ok ht id
        · exact keepsA_err t
      · split
        · exact hhex
        · split
          · exact hassign t 0 (by omega) rfl
          · exact keepsA_err t
    rw [if_neg h0]
    by_cases h1 : t.state = 1
    · rw [if_pos h1, case1]
      split
      · exact hhex
      · split
        · split
          · exact keepsA_ok (.inl (by simp [S6.next]; omega)) (fun _ => rfl)
          · exact hassign t _ (by omega) rfl
        · exact keepsA_err t
    rw [if_neg h1]
    by_cases h2 : t.state ≤ 6
    · rw [if_pos h2, case26]
      split
      · exact hhex
      · split
        · split
          · split
            · exact keepsA_err t
            · exact keepsA_ok ht (fun _ => rfl)
          · split
            · exact hpush t S6.next rfl fun v hv => ⟨.inl (by simp [S6.next]; omega), rfl⟩
            · exact hassign t _ (by omega) rfl
        · split
          · split
            · exact hpush _ (fun s => { s with state := 8, change := true }) rfl fun v hv => ⟨.inl (by simp), rfl⟩
            · exact keepsA_err t
          · exact keepsA_err t
    rw [if_neg h2]
    by_cases h3 : t.state = 7
    · rw [if_pos h3, case7]
      split
      · exact hhex
      · split
        · split
          · exact hassign { t with bracket := false } _ (by simp; omega) rfl
          · exact keepsA_err t
        · exact keepsA_err t
    rw [if_neg h3]
    split
    · split
      · exact keepsA_ok (.inl (by simp [S6.next]; omega)) id
      · exact keepsA_err t
    · split
      · split
        · exact keepsA_ok ht id
        · exact keepsA_err t
      · split
        · exact keepsA_ok ht id
        · intro t' h'; cases h'
  intro t' h'
  rw [step6] at h'
  have hu := hsw { s with upper := if isxdigit c ∧ isalpha c then Str.isupper c else s.upper } h
  cases hx : switch6 { s with upper := if isxdigit c ∧ isalpha c then Str.isupper c else s.upper } c with
  | oob => rw [hx] at h'; cases h'
  | reject => rw [hx] at h'; cases h'
  | ok u =>
    obtain ⟨hu1, hu2⟩ := hu u hx
    rw [hx] at h'
    simp only [R.bind, check6] at h'
    split at h'
    · cases h'
    · split at h'
      · cases h'; exact ⟨hu1, hu2⟩
      · cases h'; exact ⟨hu1, hu2⟩

theorem P6_bad : ∀ (a : List UInt8) (s : S6) (c : UInt8) (b : List UInt8), Live s → ok6 c = false → ∀ r, P6 s (a ++ c :: b) ≠ .ok r := by
  intro a
  induction a with
  | nil =>
    intro s c b h hc r
    rw [List.nil_append, P6_cons, (bad_step h hc).rest]
    simp
  | cons x a ih =>
    intro s c b h hc r
    rw [List.cons_append, P6_cons]
    cases hx : step6 s x with
    | oob => simp [R.bind]
    | reject => simp [R.bind]
    | ok t => exact ih t c b (keepsA_step h x t hx).1 hc r

end Ip

/-- C33. A text is refused if it has any character that is neither a digit, a letter a to f, a colon nor a bracket. (So are the letters A to F, which RFC 4291 allows.) -/
theorem C33_other_characters_refused (a : List UInt8) (c : UInt8) (b : List UInt8)
    (hc : ¬(48 ≤ c ∧ c ≤ 57) ∧ ¬(97 ≤ c ∧ c ≤ 102) ∧ c ≠ 58 ∧ c ≠ 91 ∧ c ≠ 93) : Ip.parse6 (a ++ c :: b) = .reject := by
  have hb : Ip.ok6 c = false := by
    have h := Str.byte_all (P := fun c => !(!(decide (48 ≤ c) && decide (c ≤ 57)) && !(decide (97 ≤ c) && decide (c ≤ 102)) && !(c == 58) && !(c == 91) && !(c == 93)) || (Ip.ok6 c == false)) (by decide +kernel) c
    obtain ⟨h1, h2, h3, h4, h5⟩ := hc
    have e1 : (decide (48 ≤ c) && decide (c ≤ 57)) = false := by simpa using h1
    have e2 : (decide (97 ≤ c) && decide (c ≤ 102)) = false := by simpa using h2
    simpa [e1, e2, h3, h4, h5] using h
  have h := Ip.P6_bad a {} c b (.inl (Nat.zero_le _)) hb
  have hs := C33_memory_safe (a ++ c :: b)
  rw [Ip.parse6_eq] at hs ⊢
  cases hp : Ip.P6 {} (a ++ c :: b) with
  | oob => exact absurd hp hs
  | reject => rfl
  | ok r => exact absurd hp (h r)

example : Ip.parse6 [49, 58, 58, 65] = .reject := C33_other_characters_refused [49, 58, 58] 65 [] (by decide)
example : Ip.parse6 [49, 58, 58, 97] = .ok ⟨[1, 0, 0, 0, 0, 0, 0, 10], 0⟩ := by decide

namespace Ip

/-- The loop's invariant for the flags. -/
structure Good (s : S6) : Prop where
  live : Live s
  change : s.change = false
  two : s.already = true → 2 ≤ s.state

/-- A step is the switch and, unless refused, a count of characters that restarts when the state changed. -/
theorem step6_ok {s t : S6} {c : UInt8} (h : step6 s c = .ok t) :
    ∃ u, switch6 { s with upper := if isxdigit c ∧ isalpha c then Str.isupper c else s.upper } c = .ok u ∧ t.state = u.state ∧ t.already = u.already ∧
      t.change = false ∧ t.chars = (if u.change then 0 else u.chars + 1) := by
  rw [step6] at h
  cases hx : switch6 { s with upper := if isxdigit c ∧ isalpha c then Str.isupper c else s.upper } c with
  | oob => rw [hx] at h; cases h
  | reject => rw [hx] at h; cases h
  | ok u =>
    rw [hx] at h
    simp only [R.bind, check6] at h
    refine ⟨u, rfl, ?_⟩
    split at h
    · cases h
    · split at h
      · rename_i hc; cases h; refine ⟨rfl, rfl, rfl, ?_⟩; simp [hc]
      · rename_i hc; cases h; have hc' := (Bool.not_eq_true _).mp hc; refine ⟨rfl, rfl, hc', ?_⟩; simp [hc']

theorem assign_next {u t : S6} {i : Nat} (h : ((u.assign i).bind fun s => R.ok s.next) = .ok t) : t.state = u.state + 1 ∧ t.change = true ∧ t.already = u.already := by
  rw [S6.assign] at h; split at h
  · cases h; exact ⟨rfl, rfl, rfl⟩
  · cases h
theorem push_next {u t : S6} (h : (u.push.bind fun s => R.ok s.next) = .ok t) : t.state = u.state + 1 ∧ t.change = true ∧ t.already = u.already := by
  rw [S6.push] at h; split at h
  · cases h; exact ⟨rfl, rfl, rfl⟩
  · cases h

/-- A colon. -/
theorem switch_colon {s u : S6} (hl : Live s) (h : switch6 s 58 = .ok u) :
    u.state = 11 ∨
    (s.state = 8 ∧ u.state = 9 ∧ u.already = s.already) ∨
    (s.state ≤ 6 ∧ u.state = s.state + 1 ∧ u.change = true ∧ (u.already = s.already ∧ (s.chars ≠ 0 ∨ s.state = 0) ∨ s.state = 1 ∧ s.chars = 0 ∧ u.already = true)) ∨
    (2 ≤ s.state ∧ s.state ≤ 6 ∧ u.state = s.state ∧ s.chars = 0 ∧ s.already = false ∧ u.already = true ∧ u.change = s.change) := by
  have hx : isxdigit 58 = false := by decide
  rw [switch6] at h
  by_cases h0 : s.state = 0
  · rw [if_pos h0, case0, if_neg (by decide), if_neg (by simp [hx]), if_pos rfl] at h
    obtain ⟨h1, h2, h3⟩ := assign_next h
    exact .inr (.inr (.inl ⟨by omega, h1, h2, .inl ⟨h3, .inr h0⟩⟩))
  rw [if_neg h0] at h
  by_cases h1 : s.state = 1
  · rw [if_pos h1, case1, if_neg (by simp [hx]), if_pos rfl] at h
    by_cases hc : s.chars = 0
    · rw [if_pos hc] at h; cases h
      exact .inr (.inr (.inl ⟨by omega, rfl, rfl, .inr ⟨h1, hc, rfl⟩⟩))
    · rw [if_neg hc] at h
      obtain ⟨e1, e2, e3⟩ := assign_next h
      exact .inr (.inr (.inl ⟨by omega, e1, e2, .inl ⟨e3, .inl hc⟩⟩))
  rw [if_neg h1] at h
  by_cases h2 : s.state ≤ 6
  · rw [if_pos h2, case26, if_neg (by simp [hx]), if_pos rfl] at h
    by_cases hc : s.chars = 0
    · rw [if_pos hc] at h
      by_cases ha : s.already = true
      · rw [if_pos ha] at h; cases h; exact .inl rfl
      · rw [if_neg ha] at h; cases h
        exact .inr (.inr (.inr ⟨by omega, h2, rfl, hc, by simpa using ha, rfl, rfl⟩))
    · rw [if_neg hc] at h
      by_cases hz : s.zero = true
      · rw [if_pos hz] at h
        obtain ⟨e1, e2, e3⟩ := push_next h
        exact .inr (.inr (.inl ⟨by omega, e1, e2, .inl ⟨e3, .inl hc⟩⟩))
      · rw [if_neg hz] at h
        obtain ⟨e1, e2, e3⟩ := assign_next h
        exact .inr (.inr (.inl ⟨by omega, e1, e2, .inl ⟨e3, .inl hc⟩⟩))
  rw [if_neg h2] at h
  by_cases h3 : s.state = 7
  · rw [if_pos h3, case7, if_neg (by simp [hx]), if_neg (by decide)] at h; cases h; exact .inl rfl
  rw [if_neg h3] at h
  by_cases h4 : s.state = 8
  · rw [if_pos h4, if_pos rfl] at h; cases h; exact .inr (.inl ⟨h4, by simp [S6.next, h4], rfl⟩)
  rw [if_neg h4] at h
  by_cases h5 : s.state = 9
  · rw [if_pos h5, if_neg (by decide)] at h; cases h; exact .inl rfl
  rw [if_neg h5, if_neg (by rcases hl with h | h <;> omega)] at h; cases h

/-- Any other character. -/
theorem switch_other {s u : S6} {c : UInt8} (hl : Live s) (hc : c ≠ 58) (h : switch6 s c = .ok u) :
    u.already = s.already ∧ (8 ≤ u.state ∨ (u.state = s.state ∧ u.change = s.change ∧ u.chars = s.chars)) := by
  have hhex : ∀ v, (.ok (s.hexDigit c) : R S6) = .ok v → v.already = s.already ∧ (8 ≤ v.state ∨ (v.state = s.state ∧ v.change = s.change ∧ v.chars = s.chars)) := by
    intro v hv; cases hv
    rw [S6.hexDigit]; split
    · exact ⟨rfl, .inl (by simp [S6.err])⟩
    · exact ⟨rfl, .inr ⟨rfl, rfl, rfl⟩⟩
  have herr : ∀ v, (.ok s.err : R S6) = .ok v → v.already = s.already ∧ (8 ≤ v.state ∨ (v.state = s.state ∧ v.change = s.change ∧ v.chars = s.chars)) := by
    intro v hv; cases hv; exact ⟨rfl, .inl (by simp [S6.err])⟩
  rw [switch6] at h
  by_cases h0 : s.state = 0
  · rw [if_pos h0, case0] at h
    split at h
    · split at h
      · cases h; exact ⟨rfl, .inr ⟨rfl, rfl, rfl⟩⟩
      · exact herr u h
    · split at h
      · exact hhex u h
      · (try rw [if_neg hc] at h); exact herr u h
  rw [if_neg h0] at h
  by_cases h1 : s.state = 1
  · rw [if_pos h1, case1] at h
    split at h
    · exact hhex u h
    · (try rw [if_neg hc] at h); exact herr u h
  rw [if_neg h1] at h
  by_cases h2 : s.state ≤ 6
  · rw [if_pos h2, case26] at h
    split at h
    · exact hhex u h
    · (try rw [if_neg hc] at h)
      split at h
      · split at h
        · rw [S6.push] at h; split at h
          · cases h; exact ⟨rfl, .inl (by simp)⟩
          · cases h
        · exact herr u h
      · exact herr u h
  rw [if_neg h2] at h
  by_cases h3 : s.state = 7
  · rw [if_pos h3, case7] at h
    split at h
    · exact hhex u h
    · split at h
      · split at h
        · obtain ⟨e1, e2, e3⟩ := assign_next h
          exact ⟨e3, .inl (by simp only at e1; omega)⟩
        · exact herr u h
      · exact herr u h
  rw [if_neg h3] at h
  by_cases h4 : s.state = 8
  · rw [if_pos h4, if_neg hc] at h; exact herr u h
  rw [if_neg h4] at h
  by_cases h5 : s.state = 9
  · rw [if_pos h5] at h
    split at h
    · cases h; exact ⟨rfl, .inl (by simp only; omega)⟩
    · exact herr u h
  rw [if_neg h5, if_neg (by rcases hl with h | h <;> omega)] at h; cases h

theorem good_step {s t : S6} {c : UInt8} (hg : Good s) (h : step6 s c = .ok t) : Good t := by
  obtain ⟨hl, ha⟩ := keepsA_step hg.live c t h
  obtain ⟨u, hu, e1, e2, e3, e4⟩ := step6_ok h
  refine ⟨hl, e3, fun h2 => ?_⟩
  have hl' : Live { s with upper := if isxdigit c ∧ isalpha c then Str.isupper c else s.upper } := hg.live
  have ht := hg.two
  rw [e1]; rw [e2] at h2
  by_cases hc : c = 58
  · subst hc
    rcases switch_colon hl' hu with h | ⟨_, h, _⟩ | ⟨_, h, _, ⟨h3, _⟩ | ⟨h3, _⟩⟩ | ⟨h, _, h3, _⟩
    · omega
    · omega
    · simp only at h h3; have := ht (by rw [← h3]; exact h2); omega
    · simp only at h h3; omega
    · simp only at h h3; omega
  · obtain ⟨h3, h4⟩ := switch_other hl' hc hu
    simp only at h3 h4
    have := ht (by rw [← h3]; exact h2)
    rcases h4 with h4 | ⟨h4, _⟩ <;> omega

/-- After a character that is no colon, or at the start. -/
def Fresh (s : S6) : Prop := s.chars ≠ 0 ∨ 8 ≤ s.state ∨ s.state = 0

theorem fresh_step {s t : S6} {c : UInt8} (hg : Good s) (hc : c ≠ 58) (h : step6 s c = .ok t) : Fresh t ∧ t.already = s.already := by
  obtain ⟨u, hu, e1, e2, e3, e4⟩ := step6_ok h
  obtain ⟨h3, h4⟩ := switch_other (s := { s with upper := if isxdigit c ∧ isalpha c then Str.isupper c else s.upper }) hg.live hc hu
  refine ⟨?_, e2.trans h3⟩
  rcases h4 with h4 | ⟨_, h5, _⟩
  · exact .inr (.inl (by omega))
  · left; rw [e4, h5]; simp [hg.change]

/-- Two colons. -/
theorem gap {s t1 t2 : S6} (hg : Good s) (hf : Fresh s) (h1 : step6 s 58 = .ok t1) (h2 : step6 t1 58 = .ok t2) :
    t2.state = 11 ∨ (t2.already = true ∧ s.already = false) := by
  have hg1 := good_step hg h1
  obtain ⟨u1, hu1, a1, a2, a3, a4⟩ := step6_ok h1
  obtain ⟨u2, hu2, b1, b2, b3, b4⟩ := step6_ok h2
  have hc1 := switch_colon (s := { s with upper := if isxdigit 58 ∧ isalpha 58 then Str.isupper 58 else s.upper }) hg.live hu1
  have hc2 := switch_colon (s := { t1 with upper := if isxdigit 58 ∧ isalpha 58 then Str.isupper 58 else t1.upper }) hg1.live hu2
  simp only at hc1 hc2
  have ht1 := hg.two
  -- the first colon changes the state
  have hst : t1.state = 11 ∨ t1.state = 9 ∨ (t1.chars = 0 ∧ 1 ≤ t1.state ∧ t1.state ≤ 7 ∧ t1.already = s.already ∧ t1.state = s.state + 1) := by
    rcases hc1 with h | ⟨_, h, _⟩ | ⟨h0, h, hch, h3⟩ | ⟨h0, h00, _, h3, _⟩
    · exact .inl (by omega)
    · exact .inr (.inl (by omega))
    · rcases h3 with ⟨h3, _⟩ | ⟨h3, h4, _⟩
      · exact .inr (.inr ⟨by rw [a4, if_pos hch], by omega, by omega, a2.trans h3, by omega⟩)
      · exfalso; unfold Fresh at hf; omega
    · exfalso; unfold Fresh at hf; omega
  rcases hst with h | h | ⟨h, h', h'', h3, h4⟩
  · rcases hc2 with h5 | ⟨h5, _⟩ | ⟨h5, _⟩ | ⟨_, h5, _⟩ <;> first | omega | exact .inl (by omega)
  · rcases hc2 with h5 | ⟨h5, _⟩ | ⟨h5, _⟩ | ⟨_, h5, _⟩ <;> first | omega | exact .inl (by omega)
  · rcases hc2 with h5 | ⟨h5, _⟩ | ⟨h5, h6, _, ⟨h7, h8⟩ | ⟨h7, _, h8⟩⟩ | ⟨_, h5, _, _, h6, h7, _⟩
    · exact .inl (by omega)
    · omega
    · omega
    · right
      refine ⟨b2.trans h8, ?_⟩
      cases hsa : s.already with
      | false => rfl
      | true => have := ht1 hsa; omega
    · exact .inr ⟨b2.trans h7, by rw [← h3]; exact h6⟩

theorem P6_run {s : S6} (hg : Good s) {cs : List UInt8} {v : V6} : ∀ (a : List UInt8), P6 s (a ++ cs) = .ok v →
    ∃ t, Good t ∧ (s.already = true → t.already = true) ∧ P6 t cs = .ok v ∧ ((a = [] ∧ t = s) ∨ ∃ c, a.getLast? = some c ∧ (c ≠ 58 → Fresh t)) := by
  intro a
  induction a generalizing s with
  | nil => intro h; exact ⟨s, hg, id, h, .inl ⟨rfl, rfl⟩⟩
  | cons x a ih =>
    intro h
    rw [List.cons_append, P6_cons] at h
    cases hx : step6 s x with
    | oob => rw [hx] at h; cases h
    | reject => rw [hx] at h; cases h
    | ok t =>
      rw [hx] at h
      obtain ⟨t', h1, h2, h3, h4⟩ := ih (good_step hg hx) h
      refine ⟨t', h1, fun h => h2 ((keepsA_step hg.live x t hx).2 h), h3, .inr ?_⟩
      rcases h4 with ⟨rfl, rfl⟩ | ⟨c, hc, hf⟩
      · exact ⟨x, rfl, fun hne => (fresh_step hg hne hx).1⟩
      · refine ⟨c, ?_, hf⟩
        cases a with
        | nil => cases hc
        | cons y a => rw [List.getLast?_cons_cons]; exact hc

theorem P6_two {s : S6} {cs : List UInt8} {v : V6} (h : P6 s (58 :: 58 :: cs) = .ok v) : ∃ t1 t2, step6 s 58 = .ok t1 ∧ step6 t1 58 = .ok t2 ∧ P6 t2 cs = .ok v := by
  rw [P6_cons] at h
  cases hx : step6 s 58 with
  | oob => rw [hx] at h; cases h
  | reject => rw [hx] at h; cases h
  | ok t1 =>
    rw [hx] at h
    have h : P6 t1 (58 :: cs) = .ok v := h
    rw [P6_cons] at h
    cases hy : step6 t1 58 with
    | oob => rw [hy] at h; cases h
    | reject => rw [hy] at h; cases h
    | ok t2 => rw [hy] at h; exact ⟨t1, t2, rfl, hy, h⟩

end Ip

/-- C33. A text with two places where `::` begins (each at the start of the text or behind another character than a colon) is refused. -/
theorem C33_two_gaps_refused (a b c : List UInt8) (ha : a.getLast? ≠ some 58) (hb : b ≠ []) (hb' : b.getLast? ≠ some 58) :
    Ip.parse6 (a ++ 58 :: 58 :: (b ++ 58 :: 58 :: c)) = .reject := by
  have hs := C33_memory_safe (a ++ 58 :: 58 :: (b ++ 58 :: 58 :: c))
  rw [Ip.parse6_eq] at hs ⊢
  cases hp : Ip.P6 {} (a ++ 58 :: 58 :: (b ++ 58 :: 58 :: c)) with
  | oob => exact absurd hp hs
  | reject => rfl
  | ok v =>
    exfalso
    have hg0 : Ip.Good {} := ⟨.inl (Nat.zero_le _), rfl, fun h => by cases h⟩
    obtain ⟨t, hg, _, h, hlast⟩ := Ip.P6_run hg0 a hp
    have hf : Ip.Fresh t := by
      rcases hlast with ⟨_, rfl⟩ | ⟨x, hx, hf⟩
      · exact .inr (.inr rfl)
      · exact hf (fun he => ha (by rw [hx, he]))
    obtain ⟨t1, t2, h1, h2, h3⟩ := Ip.P6_two h
    rcases Ip.gap hg hf h1 h2 with h11 | ⟨hal, _⟩
    · rw [Ip.dead h11] at h3; cases h3
    · obtain ⟨u, hgu, hau, h4, hlast⟩ := Ip.P6_run (Ip.good_step (Ip.good_step hg h1) h2) b h3
      have hf : Ip.Fresh u := by
        rcases hlast with ⟨he, _⟩ | ⟨x, hx, hf⟩
        · exact absurd he hb
        · exact hf (fun he => hb' (by rw [hx, he]))
      obtain ⟨t3, t4, h5, h6, h7⟩ := Ip.P6_two h4
      rcases Ip.gap hgu hf h5 h6 with h11 | ⟨_, hal2⟩
      · rw [Ip.dead h11] at h7; cases h7
      · rw [hau hal] at hal2; cases hal2

example : Ip.parse6 [49, 58, 58, 50, 58, 58, 51] = .reject := C33_two_gaps_refused [49] [50] [51] (by decide) (by decide) (by decide)
