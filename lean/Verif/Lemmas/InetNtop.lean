import Verif.Lemmas.Inet6
/-! # inet_ntop6 -/
open IpSpec NumSpec TrimSpec

namespace Inet
open InetSpec (hexDigit hexNumber join embed ZeroRun BestRun Canon Text Words)

theorem words_eq : ∀ (n : Nat) (bs : Bytes), bs.length = 2 * n → words bs = some (InetSpec.words bs) := by
  intro n
  induction n with
  | zero => intro bs h; rw [List.length_eq_zero_iff.mp h]; rfl
  | succ n ih =>
    intro bs h
    match bs, h with
    | a :: b :: rest, h =>
      rw [words, ih rest (by simp at h; omega), InetSpec.words, Option.map_some]
      have := b.toNat_lt
      rw [← Nat.shiftLeft_add_eq_or_of_lt (by simpa using this), Nat.shiftLeft_eq]
      congr 2
      omega
    | [_], h => simp at h; omega

/-! ## The run -/

/-- The same over which words are zero. -/
def scanB : List Bool → Nat → (best cur : Run) → Run
  | [], _, best, cur => match cur with
    | some c => better best c
    | none => best
  | z :: zs, i, best, cur =>
    if z then
      match cur with
      | none => scanB zs (i + 1) best (some (i, 1))
      | some c => scanB zs (i + 1) best (some (c.1, c.2 + 1))
    else
      match cur with
      | some c => scanB zs (i + 1) (better best c) none
      | none => scanB zs (i + 1) best none

def bestB (zs : List Bool) : Run :=
  match scanB zs 0 none none with
  | some r => if r.2 < 2 then none else some r
  | none => none

def zeros (ws : List Nat) : List Bool := ws.map (· == 0)

theorem scan_eq : ∀ (ws : List Nat) (i : Nat) (best cur : Run), scan ws i best cur = scanB (zeros ws) i best cur := by
  intro ws
  induction ws with
  | nil => intros; rfl
  | cons w ws ih =>
    intro i best cur
    rw [scan.eq_def, zeros, List.map_cons, scanB.eq_def]
    simp only
    by_cases h : w = 0
    · simp only [h, if_true, beq_self_eq_true]
      cases cur <;> exact ih _ _ _
    · simp only [h, if_false, beq_eq_false_iff_ne.mpr h, Bool.false_eq_true]
      cases cur <;> exact ih _ _ _

theorem bestRun_eq (ws : List Nat) : bestRun ws = bestB (zeros ws) := by
  unfold bestRun bestB
  rw [scan_eq]
  cases scanB (zeros ws) 0 none none <;> rfl

def runB (zs : List Bool) (b l : Nat) : Bool := decide (b + l ≤ zs.length) && (List.range l).all fun i => zs[b + i]? == some true
def isBestB (zs : List Bool) (b l : Nat) : Bool :=
  decide (2 ≤ l) && runB zs b l && (List.range 9).all fun b' => (List.range 9).all fun l' => !runB zs b' l' || (decide (l' ≤ l) && (decide (l' ≠ l) || decide (b ≤ b')))
def checkB (zs : List Bool) : Bool :=
  match bestB zs with
  | some (b, l) => isBestB zs b l
  | none => (List.range 9).all fun b' => (List.range 9).all fun l' => !runB zs b' l' || decide (l' < 2)

theorem checkB_all : ∀ a b c d e f g h : Bool, checkB [a, b, c, d, e, f, g, h] = true := by decide +kernel

theorem runB_iff (ws : List Nat) (b l : Nat) : runB (zeros ws) b l = true ↔ ZeroRun ws b l := by
  unfold runB ZeroRun zeros
  simp only [List.length_map, Bool.and_eq_true, decide_eq_true_eq, List.all_eq_true, List.mem_range, List.getElem?_map, beq_iff_eq]
  refine and_congr Iff.rfl ⟨fun h i h1 h2 => ?_, fun h i hi => ?_⟩
  · have := h (i - b) (by omega)
    rw [show b + (i - b) = i by omega] at this
    obtain ⟨w, h3, h4⟩ := Option.map_eq_some_iff.mp this
    rw [h3, beq_iff_eq.mp h4]
  · rw [h (b + i) (by omega) (by omega)]; rfl

theorem bestRun_spec (ws : List Nat) (h8 : ws.length = 8) :
    match bestRun ws with
    | some (b, l) => BestRun ws b l
    | none => ∀ b l, ¬ BestRun ws b l := by
  have hc : checkB (zeros ws) = true := by
    obtain ⟨a, b, c, d, e, f, g, i, rfl⟩ := Ip.list8 ws h8
    exact checkB_all _ _ _ _ _ _ _ _
  rw [bestRun_eq]
  unfold checkB at hc
  cases hb : bestB (zeros ws) with
  | none =>
    rw [hb] at hc
    intro b l h
    have hr := h.2.1
    have h1 := hr.1
    simp only [List.all_eq_true, List.mem_range, Bool.or_eq_true, Bool.not_eq_true', decide_eq_true_eq] at hc
    rcases hc b (by omega) l (by omega) with h2 | h2
    · rw [(runB_iff ws b l).mpr hr] at h2; cases h2
    · have := h.1; omega
  | some r =>
    obtain ⟨b, l⟩ := r
    rw [hb] at hc
    simp only [isBestB, List.all_eq_true, List.mem_range, Bool.or_eq_true, Bool.not_eq_true', decide_eq_true_eq, Bool.and_eq_true] at hc
    obtain ⟨⟨h1, h2⟩, h3⟩ := hc
    refine ⟨h1, (runB_iff _ _ _).mp h2, fun b' l' hr => ?_⟩
    have hr1 := hr.1
    rcases h3 b' (by omega) l' (by omega) with h4 | ⟨h4, h5⟩
    · rw [(runB_iff ws b' l').mpr hr] at h4; cases h4
    · exact ⟨h4, fun e => by rcases h5 with h5 | h5; exact absurd e h5; exact h5⟩

/-! ## The text -/

theorem hex_length : ∀ (k n : Nat), n < 16 ^ (k + 1) → (hexTextSpec n).length ≤ k + 1 := by
  intro k
  induction k with
  | zero => intro n h; rw [hexTextSpec, if_pos (by simpa using h)]; simp
  | succ k ih =>
    intro n h
    rw [hexTextSpec]
    split
    · simp
    · have := ih (n / 16) (by rw [Nat.div_lt_iff_lt_mul (by omega)]; rwa [Nat.pow_succ] at h)
      simp; omega

theorem hex_le4 {w : Nat} (h : w ≤ 65535) : (hexTextSpec w).length ≤ 4 := hex_length 3 w (by show w < 65536; omega)

/-- What word `i` contributes. -/
def part (ws : List Nat) (best : Run) (i : Nat) : Bytes :=
  if best.any fun b => b.1 ≤ i && i < b.1 + b.2 then (if best.any fun b => i == b.1 then [58] else [])
  else (if i ≠ 0 then [58] else []) ++ hexTextSpec (ws.getD i 0)

theorem part_length (ws : List Nat) (best : Run) (i : Nat) (h : ∀ w ∈ ws, w ≤ 65535) : (part ws best i).length ≤ 5 := by
  unfold part
  have : (hexTextSpec (ws.getD i 0)).length ≤ 4 := by
    apply hex_le4
    cases hi : ws[i]? with
    | none => simp [List.getD, hi]
    | some w => have := h w (List.mem_of_getElem? hi); simpa [List.getD, hi] using this
  split
  · split <;> simp
  · split <;> simp only [List.length_append, List.length_cons, List.length_nil] <;> omega

theorem app_ok {acc s : Bytes} {extra : Nat} (h : acc.length + s.length + extra ≤ 46) : app acc s extra = some (acc ++ s) := if_pos h

theorem format_step (src : Bytes) (ws : List Nat) (best : Run) (h8 : ws.length = 8) (hs : ∀ w ∈ ws, w ≤ 65535) (k i : Nat) (acc : Bytes)
    (he : i = 6 → embedded ws best = some false) (hi : i ≤ 7) (hl : acc.length ≤ 5 * i) :
    format src ws best (k + 1) i acc = format src ws best k (i + 1) (acc ++ part ws best i) := by
  rw [format]
  have hpl := part_length ws best i hs
  by_cases h1 : (best.any fun b => b.1 ≤ i && i < b.1 + b.2) = true
  · rw [if_pos h1]
    by_cases h2 : (best.any fun b => i == b.1) = true
    · rw [if_pos h2, app_ok (by simp; omega), Option.bind_some]
      unfold part; rw [if_pos h1, if_pos h2]
    · rw [if_neg h2]
      unfold part; rw [if_pos h1, if_neg h2, List.append_nil]
  · rw [if_neg h1]
    have e1 : (if i ≠ 0 then app acc [58] 0 else some acc) = some (acc ++ if i ≠ 0 then [58] else []) := by
      by_cases h0 : i ≠ 0
      · rw [if_pos h0, if_pos h0, app_ok (by simp; omega)]
      · rw [if_neg h0, if_neg h0, List.append_nil]
    have e2 : (if i = 6 then embedded ws best else some false) = some false := by
      split
      · exact he (by assumption)
      · rfl
    have e3 : ws[i]? = some (ws.getD i 0) := by
      rw [List.getD_eq_getElem?_getD, List.getElem?_eq_getElem (by omega)]; rfl
    have hw : ws.getD i 0 ≤ 65535 := hs _ (List.mem_of_getElem? e3)
    have h4 := hex_le4 hw
    rw [e1, Option.bind_some, e2, Option.bind_some, if_neg (by simp), e3, Option.bind_some]
    simp only [hexText_eq]
    have hlen : (if i ≠ 0 then [58] else ([] : Bytes)).length ≤ 1 := by split <;> simp
    rw [if_neg (by omega), app_ok (by rw [List.length_append]; omega), Option.bind_some]
    unfold part; rw [if_neg h1, List.append_assoc]

theorem format_steps (src : Bytes) (ws : List Nat) (best : Run) (h8 : ws.length = 8) (hs : ∀ w ∈ ws, w ≤ 65535) (m : Nat) :
    ∀ (k i : Nat) (acc : Bytes), (i + k ≤ 6 ∨ embedded ws best = some false) → i + k ≤ 8 → acc.length ≤ 5 * i →
      format src ws best (k + m) i acc = format src ws best m (i + k) (acc ++ (List.range' i k).flatMap (part ws best)) := by
  intro k
  induction k with
  | zero => intro i acc _ _ _; simp
  | succ k ih =>
    intro i acc he hi hl
    have hpl := part_length ws best i hs
    rw [show k + 1 + m = k + m + 1 by omega, format_step src ws best h8 hs _ i acc (fun e => by rcases he with h | h; omega; exact h) (by omega) hl,
      ih (i + 1) _ (by rcases he with h | h; exact Or.inl (by omega); exact Or.inr h) (by omega) (by simp; omega), List.range'_succ, List.flatMap_cons, ← List.append_assoc,
      show i + 1 + k = i + (k + 1) by omega]

/-- The last four bytes. -/
theorem src_tail (src : Bytes) (h : src.length = 16) : ∃ a b c d, src.drop 12 = [a, b, c, d] ∧
    (InetSpec.words src).drop 6 = [256 * a.toNat + b.toNat, 256 * c.toNat + d.toNat] := by
  match src, h with
  | [_, _, _, _, _, _, _, _, _, _, _, _, a, b, c, d], _ => exact ⟨a, b, c, d, rfl, rfl⟩

theorem quad_dotted (a b c d : UInt8) : InetSpec.quad (256 * a.toNat + b.toNat) (256 * c.toNat + d.toNat) = dotted a b c d := by
  have := a.toNat_lt; have := b.toNat_lt; have := c.toNat_lt; have := d.toNat_lt
  unfold InetSpec.quad dotted
  rw [show (256 * a.toNat + b.toNat) / 256 = a.toNat by omega, show (256 * a.toNat + b.toNat) % 256 = b.toNat by omega,
    show (256 * c.toNat + d.toNat) / 256 = c.toNat by omega, show (256 * c.toNat + d.toNat) % 256 = d.toNat by omega]

/-- The final colon. -/
def last (best : Run) : Bytes := if best.any fun b => b.1 + b.2 == 8 then [58] else []

theorem flat_length (ws : List Nat) (best : Run) (hs : ∀ w ∈ ws, w ≤ 65535) : ∀ (k i : Nat), ((List.range' i k).flatMap (part ws best)).length ≤ 5 * k := by
  intro k
  induction k with
  | zero => intro i; simp
  | succ k ih =>
    intro i
    have := part_length ws best i hs
    have := ih (i + 1)
    rw [List.range'_succ, List.flatMap_cons, List.length_append]
    omega

theorem runs_cases {b l : Nat} (h2 : 2 ≤ l) (h8 : b + l ≤ 8) :
    (b = 0 ∧ (l = 2 ∨ l = 3 ∨ l = 4 ∨ l = 5 ∨ l = 6 ∨ l = 7 ∨ l = 8)) ∨ (b = 1 ∧ (l = 2 ∨ l = 3 ∨ l = 4 ∨ l = 5 ∨ l = 6 ∨ l = 7)) ∨
    (b = 2 ∧ (l = 2 ∨ l = 3 ∨ l = 4 ∨ l = 5 ∨ l = 6)) ∨ (b = 3 ∧ (l = 2 ∨ l = 3 ∨ l = 4 ∨ l = 5)) ∨ (b = 4 ∧ (l = 2 ∨ l = 3 ∨ l = 4)) ∨
    (b = 5 ∧ (l = 2 ∨ l = 3)) ∨ (b = 6 ∧ l = 2) := by omega

/-- Without an embedded quad. -/
theorem plain_text (ws : List Nat) (h8 : ws.length = 8) (best : Run) (hb : ∀ b l, best = some (b, l) → 2 ≤ l ∧ b + l ≤ 8) :
    (List.range' 0 8).flatMap (part ws best) ++ last best =
      match best with
      | none => join ws
      | some (b, l) => join (ws.take b) ++ [58, 58] ++ join (ws.drop (b + l)) := by
  obtain ⟨a, b, c, d, e, f, g, i, rfl⟩ := Ip.list8 ws h8
  have hr : List.range' 0 8 = [0, 1, 2, 3, 4, 5, 6, 7] := by decide
  rw [hr]
  cases best with
  | none => simp [part, join, last]
  | some r =>
    obtain ⟨b, l⟩ := r
    obtain ⟨h1, h2⟩ := hb b l rfl
    rcases runs_cases h1 h2 with ⟨rfl, h | h | h | h | h | h | h⟩ | ⟨rfl, h | h | h | h | h | h⟩ | ⟨rfl, h | h | h | h | h⟩ | ⟨rfl, h | h | h | h⟩ | ⟨rfl, h | h | h⟩ |
      ⟨rfl, h | h⟩ | ⟨rfl, h⟩ <;> subst h <;> simp [part, join, last]

/-- With one. -/
theorem quad_text (ws : List Nat) (h8 : ws.length = 8) (w v : Nat) (hw : ws.drop 6 = [w, v]) (l : Nat) (h : l = 6 ∨ (l = 5 ∧ ws[5]? = some 65535)) :
    (List.range' 0 6).flatMap (part ws (some (0, l))) ++ [58] ++ InetSpec.quad w v = join (ws.take 0) ++ [58, 58] ++ embed 0 (ws.drop (0 + l)) := by
  obtain ⟨a, b, c, d, e, f, g, i, rfl⟩ := Ip.list8 ws h8
  have hr : List.range' 0 6 = [0, 1, 2, 3, 4, 5] := by decide
  rw [hr]
  simp at hw
  obtain ⟨rfl, rfl⟩ := hw
  rcases h with rfl | ⟨rfl, h⟩
  · simp [part, join, embed]
  · simp at h
    subst h
    simp [part, join, embed]

theorem quad_prefix (ws : List Nat) (h8 : ws.length = 8) (l : Nat) (h : l = 6 ∨ (l = 5 ∧ ws[5]? = some 65535)) :
    ((List.range' 0 6).flatMap (part ws (some (0, l)))).length ≤ 6 := by
  obtain ⟨a, b, c, d, e, f, g, i, rfl⟩ := Ip.list8 ws h8
  have hr : List.range' 0 6 = [0, 1, 2, 3, 4, 5] := by decide
  rw [hr]
  rcases h with rfl | ⟨rfl, h⟩
  · simp [part]
  · simp at h
    subst h
    have := hex_le4 (w := 65535) (by omega)
    simp [part]
    omega

theorem format_text (src : Bytes) (h16 : src.length = 16) :
    ∃ acc t, format src (InetSpec.words src) (bestRun (InetSpec.words src)) 8 0 [] = some (some acc) ∧ t = acc ++ last (bestRun (InetSpec.words src)) ∧
      Canon (InetSpec.words src) t ∧ t.length ≤ 45 := by
  obtain ⟨_, h8, hs⟩ := enc_words 8 src h16
  generalize hws : InetSpec.words src = ws at h8 hs
  have hbest := bestRun_spec ws h8
  generalize bestRun ws = best at hbest
  have hb : ∀ b l, best = some (b, l) → 2 ≤ l ∧ b + l ≤ 8 := by
    rintro b l rfl
    exact ⟨hbest.1, by have := hbest.2.1.1; omega⟩
  by_cases he : embedded ws best = some false
  · have hf := format_steps src ws best h8 hs 0 8 0 [] (Or.inr he) (by omega) (by simp)
    refine ⟨(List.range' 0 8).flatMap (part ws best), _, by rw [hf]; simp [format], rfl, ?_, ?_⟩
    · rw [plain_text ws h8 best hb]
      cases best with
      | none => exact .full hbest
      | some r =>
        obtain ⟨b, l⟩ := r
        have : join (ws.drop (b + l)) = embed b (ws.drop (b + l)) := by
          obtain ⟨h1, h2⟩ := hb b l rfl
          unfold embed
          split
          · next w v hd =>
            have := congrArg List.length hd
            simp at this
            rw [show l = 6 by omega] at he
            simp [embedded] at he
          · next w v hd =>
            have hl := congrArg List.length hd
            simp at hl
            have hl : l = 5 := by omega
            subst hl
            have : ws[5]? = some 65535 := by
              have := congrArg (·[0]?) hd
              simpa using this
            simp [embedded, this] at he
          · rfl
        show Canon ws (join (ws.take b) ++ [58, 58] ++ join (ws.drop (b + l)))
        rw [this]
        exact .short b l hbest
    · have := flat_length ws best hs 8 0
      have : (last best).length ≤ 1 := by unfold last; split <;> simp
      rw [List.length_append]; omega
  · obtain ⟨l, rfl, hl⟩ : ∃ l, best = some (0, l) ∧ (l = 6 ∨ (l = 5 ∧ ws[5]? = some 65535)) := by
      unfold embedded at he
      split at he
      · next l =>
        refine ⟨l, rfl, ?_⟩
        by_cases h6 : l = 6
        · exact Or.inl h6
        · rw [if_neg h6] at he
          by_cases h5 : l = 5
          · rw [if_pos h5] at he
            refine Or.inr ⟨h5, ?_⟩
            have h : ws[5]? = some (ws[5]'(by omega)) := List.getElem?_eq_getElem (by omega)
            rw [h] at he ⊢
            simp at he
            rw [he]
          · rw [if_neg h5] at he; exact absurd rfl he
      · exact absurd rfl he
    have htrue : embedded ws (some (0, l)) = some true := by
      rcases hl with rfl | ⟨rfl, h⟩
      · rfl
      · simp [embedded, h]
    obtain ⟨a, b, c, d, hd, hw⟩ := src_tail src h16
    rw [hws] at hw
    have ht := quad_text ws h8 _ _ hw l hl
    rw [quad_dotted] at ht
    have hf := format_steps src ws (some (0, l)) h8 hs 2 6 0 [] (Or.inl (by omega)) (by omega) (by simp)
    have hacc := quad_prefix ws h8 l hl
    generalize (List.range' 0 6).flatMap (part ws (some (0, l))) = acc at ht hf hacc
    have hq := (dotted_quad a b c d).2
    refine ⟨acc ++ [58] ++ dotted a b c d, _, ?_, rfl, ?_, ?_⟩
    · rw [hf]
      simp only [Nat.zero_add, List.nil_append]
      rw [format, if_neg (by simp; rcases hl with h | h <;> omega), if_pos (by omega), app_ok (by simp; omega), Option.bind_some, if_pos rfl, htrue, Option.bind_some, if_pos rfl, hd,
        quadText_eq, Option.bind_some, if_neg (by simp; omega)]
    · have : last (some (0, l)) = [] := by
        unfold last; rw [if_neg (by simp; rcases hl with h | h <;> omega)]
      rw [this, List.append_nil, ht]
      exact .short 0 l hbest
    · have : (last (some (0, l))).length ≤ 1 := by unfold last; split <;> simp
      simp only [List.length_append, List.length_cons, List.length_nil]; omega

theorem ntop6_spec (src : Bytes) (h16 : src.length = 16) :
    ∃ t, Canon (InetSpec.words src) t ∧ t.length ≤ 45 ∧ ∀ (dst : List (Option UInt8)) (size : Nat), size ≤ dst.length →
      ntop6 src dst size = some (if t.length < size then some ((t ++ [0]).map some ++ dst.drop (t.length + 1)) else none) := by
  obtain ⟨acc, t, h1, h2, h3, h4⟩ := format_text src h16
  refine ⟨t, h3, h4, fun dst size hd => ?_⟩
  unfold ntop6
  rw [List.take_of_length_le (by omega), words_eq 8 src h16, Option.bind_some, h1, Option.bind_some]
  unfold ntop6End
  have hl : t.length = acc.length + (last (bestRun (InetSpec.words src))).length := by rw [h2, List.length_append]
  have e : (if (bestRun (InetSpec.words src)).any fun b => b.1 + b.2 == 8 then app acc [58] 0 else some acc) = some t := by
    rw [h2, last]
    unfold last at hl
    split
    · next h => rw [if_pos h] at hl; rw [app_ok (by simp at hl ⊢; omega)]
    · rw [List.append_nil]
  simp only
  rw [e, Option.bind_some, app_ok (by simp; omega), Option.bind_some]
  by_cases hs : t.length < size
  · rw [if_neg (by simp; omega), if_pos hs]
    have := copy_out t dst (by omega)
    rw [show (t ++ [(0 : UInt8)]).length = t.length + 1 by simp, this]; rfl
  · rw [if_pos (by simp; omega), if_neg hs]

/-! ## The text denotes the address -/

theorem hexChar_digit (c : UInt8) : hexChar c = true → hexDigit c = some (hexValue c) := by
  intro h
  simp only [hexChar, Bool.or_eq_true, Bool.and_eq_true, decide_eq_true_eq] at h
  unfold hexDigit hexValue
  by_cases hd : digit c = true
  · rw [if_pos hd, if_pos hd]
  · rw [if_neg hd, if_neg hd, if_pos (by rcases h with h | h; exact absurd h hd; exact h)]

theorem hex_group {w : Nat} (h : w ≤ 65535) : InetSpec.Group (hexTextSpec w) w := by
  obtain ⟨h1, h2, h3, h4⟩ := hexTextSpec_group w h
  refine group_iff.mpr ⟨h1, ?_, ?_, h4⟩
  · rw [List.all_eq_true] at h2 ⊢
    intro c hc
    rw [isHex, hexChar_digit c (h2 c hc)]; rfl
  · have : ∀ (g : Bytes) (o : Nat), g.all hexChar = true → hval o g = g.foldl (fun n c => 16 * n + hexValue c) o := by
      intro g
      induction g with
      | nil => intros; rfl
      | cons c g ih =>
        intro o hg
        simp only [List.all_cons, Bool.and_eq_true] at hg
        rw [List.foldl_cons, ← ih _ hg.2]
        simp [hval, hexChar_digit c hg.1]
    rw [this _ _ h2, h3]

theorem join_groups : ∀ ws : List Nat, ws ≠ [] → (∀ w ∈ ws, w ≤ 65535) → InetSpec.Groups (join ws) ws
  | [], h, _ => absurd rfl h
  | [w], _, h => .one _ _ (hex_group (h w (by simp)))
  | w :: v :: ws, _, h => .cons _ _ _ _ (hex_group (h w (by simp))) (join_groups (v :: ws) (by simp) fun x hx => h x (by simp [hx]))

theorem groups_words {s : Bytes} {ws : List Nat} (h : InetSpec.Groups s ws) : Words s ws := by
  induction h with
  | one g v hg => exact .one g v hg
  | cons g v s vs hg _ ih => exact .cons g v s vs hg ih

theorem quad_words {w v : Nat} (hw : w ≤ 65535) (hv : v ≤ 65535) : Words (InetSpec.quad w v) [w, v] := by
  have h : ∀ x, x ≤ 255 → Dec 255 (decimal x) x := fun x hx => ⟨(decimal_digits _).2, (decimal_digits _).1, value_decimal _, hx⟩
  have := Words.quad (InetSpec.quad w v) (w / 256) (w % 256) (v / 256) (v % 256) ⟨_, _, _, _, rfl, h _ (by omega), h _ (by omega), h _ (by omega), h _ (by omega)⟩
  rwa [show 256 * (w / 256) + w % 256 = w by omega, show 256 * (v / 256) + v % 256 = v by omega] at this

theorem embed_words {b : Nat} {ws : List Nat} (hs : ∀ w ∈ ws, w ≤ 65535) : (embed b ws = [] ∧ ws = []) ∨ Words (embed b ws) ws := by
  unfold embed
  split
  · exact Or.inr (quad_words (hs _ (by simp)) (hs _ (by simp)))
  · refine Or.inr (.cons _ _ _ _ (hex_group (by omega)) (quad_words (hs _ (by simp)) (hs _ (by simp))))
  · by_cases h : ws = []
    · subst h; exact Or.inl ⟨rfl, rfl⟩
    · exact Or.inr (groups_words (join_groups ws h hs))

theorem canon_text {ws : List Nat} {t : Bytes} (h8 : ws.length = 8) (hs : ∀ w ∈ ws, w ≤ 65535) (h : Canon ws t) : Text t ws := by
  induction h with
  | full _ => exact .full _ _ (groups_words (join_groups ws (by intro e; rw [e] at h8; simp at h8) hs)) h8
  | short b l hb =>
    obtain ⟨h2, ⟨hr1, hr2⟩, _⟩ := hb
    have hz : (ws.drop b).take l = List.replicate l 0 := by
      rw [List.eq_replicate_iff]
      refine ⟨by simp; omega, ?_⟩
      intro x hx
      obtain ⟨i, hi, rfl⟩ := List.getElem_of_mem hx
      have hi' : i < l := by simp at hi; omega
      have := hr2 (b + i) (by omega) (by omega)
      rw [List.getElem?_eq_getElem (by omega)] at this
      simpa using this
    have hws : ws.take b ++ List.replicate l 0 ++ ws.drop (b + l) = ws := by
      rw [← hz, List.append_assoc, ← List.drop_drop, List.take_append_drop, List.take_append_drop]
    have := Text.short (join (ws.take b)) (embed b (ws.drop (b + l))) (ws.take b) (ws.drop (b + l))
      (by
        by_cases h : ws.take b = []
        · rw [h]; exact Or.inl ⟨rfl, rfl⟩
        · exact Or.inr (join_groups _ h fun w hw => hs w (List.mem_of_mem_take hw)))
      (embed_words fun w hw => hs w (List.mem_of_mem_drop hw)) (by simp; omega)
    rw [show 8 - (ws.take b).length - (ws.drop (b + l)).length = l by simp; omega, hws] at this
    exact this

end Inet
