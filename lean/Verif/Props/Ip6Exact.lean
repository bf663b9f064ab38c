import Verif.Props.Ip6
import Verif.Spec.Ip6
import Verif.Model.Bytes
/-! # C33: exactly which texts are accepted -/
open IpSpec NumSpec TrimSpec Ip6Spec

namespace Ip

/-! ## Fields -/

theorem over_step (s : S6) (c : UInt8) (hst : s.state ≤ 7) (hc : hexChar c = true)
    (hu : s.upper = false) (hv : 65535 < 16 * s.sixteen + hexValue c) : step6 s c = .reject := by
  obtain ⟨h1, h2, h3, h4, h5, _⟩ := hexChar_facts c hc
  have hup : (if isxdigit c = true ∧ isalpha c = true then Str.isupper c else s.upper) = false := by
    by_cases ha : isalpha c = true
    · rw [if_pos ⟨h1, ha⟩, h5 ha]
    · rw [if_neg (by simp [ha]), hu]
  have key : ∀ t : S6, t = { s with upper := false } → switch6 t c = .ok { t with sixteen := 16 * t.sixteen + hexValue c } := by
    rintro t rfl
    have hx : S6.hexDigit { s with upper := false } c = { s with upper := false, sixteen := 16 * s.sixteen + hexValue c } := by
      simp [S6.hexDigit, char2Hex_eq _ _ hc]
    rw [switch6]
    by_cases a0 : s.state = 0
    · rw [if_pos a0, case0, if_neg h2, if_pos h1, hx]
    · rw [if_neg a0]
      by_cases a1 : s.state = 1
      · rw [if_pos a1, case1, if_pos h1, hx]
      · rw [if_neg a1]
        by_cases a6 : s.state ≤ 6
        · rw [if_pos a6, case26, if_pos h1, hx]
        · rw [if_neg a6, if_pos (by simp; omega), case7, if_pos h1, hx]
  rw [step6, hup]
  rw [key _ rfl]
  simp only [R.bind, check6]
  rw [if_pos (by left; exact hv)]

theorem P6_over (cs : List UInt8) : ∀ (g : List UInt8) (s : S6), s.state ≤ 7 → s.upper = false → s.change = false → s.port = 0 → s.sixteen ≤ 65535 →
    g.all hexChar = true → 65535 < val16 s.sixteen g → P6 s (g ++ cs) = .reject := by
  intro g
  induction g with
  | nil => intro s _ _ _ _ h _ h'; simp [val16] at h'; omega
  | cons c g ih =>
    intro s h1 h2 h3 h4 h0 h5 h6
    simp only [List.all_cons, Bool.and_eq_true] at h5
    have hval : val16 s.sixteen (c :: g) = val16 (16 * s.sixteen + hexValue c) g := rfl
    rw [hval] at h6
    rw [List.cons_append, P6_cons]
    by_cases ho : 16 * s.sixteen + hexValue c ≤ 65535
    · rw [step_hex s c h1 h2 h3 h4 h5.1 ho]
      exact ih { s with sixteen := 16 * s.sixteen + hexValue c, chars := s.chars + 1 } h1 h2 h3 h4 ho h5.2 h6
    · rw [over_step s c h1 h5.1 h2 (by omega)]; rfl

/-- A field is read, or the text refused. -/
theorem P6_field (cs : List UInt8) (g : List UInt8) (st n : Nat) (br z : Bool) (us : List Nat) (up : Nat) (a : V6) (hst : st ≤ 7) (hg : Field g) :
    P6 (st6 st n br z us up a) (g ++ cs) = P6 { st6 st (n + g.length) br z us up a with sixteen := hexNumber g } cs := by
  rw [P6_hex cs g (st6 st n br z us up a) hst rfl rfl rfl hg.1 hg.2]; rfl

/-- Every text begins with a field's digits, and what follows does not begin with a digit. -/
theorem digits (t : List UInt8) : ∃ g r, t = g ++ r ∧ g.all hexChar = true ∧ ∀ c, r.head? = some c → hexChar c = false := by
  refine ⟨t.takeWhile hexChar, t.dropWhile hexChar, List.takeWhile_append_dropWhile.symm, List.all_takeWhile, ?_⟩
  intro c hc
  have := List.head?_dropWhile_not hexChar t
  rw [hc] at this
  simpa using this

theorem field_of_ok {cs g : List UInt8} {st n : Nat} {br z : Bool} {us : List Nat} {up : Nat} {a v : V6} (hst : st ≤ 7)
    (hg : g.all hexChar = true) (h : P6 (st6 st n br z us up a) (g ++ cs) = .ok v) : Field g := by
  refine ⟨hg, ?_⟩
  refine Decidable.byContradiction fun hn => ?_
  rw [P6_over cs g (st6 st n br z us up a) hst rfl rfl rfl (by simp) hg (by simpa [val16, hexNumber] using hn)] at h
  cases h

/-! ## Colons and brackets -/

theorem P6_err {s : S6} {c : UInt8} {cs : List UInt8} (hx : isxdigit c = false)
    (h : Refusing (switch6 s c)) : P6 s (c :: cs) = .reject := by
  rw [P6_cons]
  refine Refusing.rest ?_ cs
  rw [step6]
  refine Refusing.step ?_
  simpa [hx] using h

theorem P6_double' (cs : List UInt8) (st : Nat) (br : Bool) (us : List Nat) (up : Nat) (a : V6) (h1 : 1 ≤ st) (h6 : st ≤ 6) :
    P6 (st6 st 0 br false us up a) (58 :: cs) = P6 (st6 (max st 2) (if st = 1 then 0 else 1) br true us up a) cs := by
  rw [P6_cons]
  have : step6 (st6 st 0 br false us up a) 58 = .ok (st6 (max st 2) (if st = 1 then 0 else 1) br true us up a) := by
    rw [step6]
    simp only [show isxdigit 58 = false by decide, Bool.false_eq_true, false_and, if_false]
    by_cases a1 : st = 1
    · subst a1; simp [switch6, case1, show isxdigit 58 = false by decide, S6.next, R.bind, check6]
    · rw [show max st 2 = st by omega]
      simp [switch6, case26, show isxdigit 58 = false by decide, R.bind, check6, a1, show st ≠ 0 by omega, h6]
  rw [this]; rfl

theorem P6_colon_z' (cs : List UInt8) (v st n : Nat) (br : Bool) (us : List Nat) (up : Nat) (a : V6) (h2 : 2 ≤ st) (h6 : st ≤ 6) (hn : 0 < n) (hv : v ≤ 65535)
    (hu : up < us.length) :
    P6 { st6 st n br true us up a with sixteen := v } (58 :: cs) = P6 (st6 (st + 1) 0 br true (us.set up v) (up + 1) a) cs := by
  rw [P6_cons]
  have : step6 { st6 st n br true us up a with sixteen := v } 58 = .ok (st6 (st + 1) 0 br true (us.set up v) (up + 1) a) := by
    rw [step6]
    simp only [show isxdigit 58 = false by decide, Bool.false_eq_true, false_and, if_false]
    simp [switch6, case26, show isxdigit 58 = false by decide, R.bind, check6, show st ≠ 0 by omega, show st ≠ 1 by omega, h6, show n ≠ 0 by omega, S6.push, hu, S6.next]
    omega
  rw [this]; rfl

theorem colon7 (cs : List UInt8) (v n : Nat) (br z : Bool) (us : List Nat) (up : Nat) (a : V6) :
    P6 { st6 7 n br z us up a with sixteen := v } (58 :: cs) = .reject :=
  P6_err (by decide) (.inr ⟨_, rfl, rfl⟩)

theorem second_gap (cs : List UInt8) (st : Nat) (br : Bool) (us : List Nat) (up : Nat) (a : V6) (h2 : 2 ≤ st) (h6 : st ≤ 6) :
    P6 (st6 st 0 br true us up a) (58 :: cs) = .reject := by
  refine P6_err (by decide) (.inr ⟨(st6 st 0 br true us up a).err, ?_, rfl⟩)
  simp [switch6, case26, show isxdigit 58 = false by decide, show st ≠ 0 by omega, show st ≠ 1 by omega, h6]

theorem P6_close7 (cs : List UInt8) (v n : Nat) (z : Bool) (us : List Nat) (up : Nat) (a : V6) (hv : v ≤ 65535) (ha : a.sixteen.length = 8) :
    P6 { st6 7 n true z us up a with sixteen := v } (93 :: cs) = P6 (st6 8 0 false z us up { a with sixteen := a.sixteen.set 7 v }) cs := by
  have hv2 : v % 65536 = v := Nat.mod_eq_of_lt (by omega)
  rw [P6_cons]
  have : step6 { st6 7 n true z us up a with sixteen := v } 93 = .ok (st6 8 0 false z us up { a with sixteen := a.sixteen.set 7 v }) := by
    rw [step6]
    simp only [show isxdigit 93 = false by decide, Bool.false_eq_true, false_and, if_false]
    simp [switch6, case7, show isxdigit 93 = false by decide, S6.assign, ha, R.bind, check6, S6.next, hv2]
    omega
  rw [this]; rfl

theorem P6_close26 (cs : List UInt8) (v st n : Nat) (us : List Nat) (up : Nat) (a : V6) (h2 : 2 ≤ st) (h6 : st ≤ 6) (hv : v ≤ 65535)
    (hu : up < us.length) :
    P6 { st6 st n true true us up a with sixteen := v } (93 :: cs) = P6 (st6 8 0 false true (us.set up v) (up + 1) a) cs := by
  rw [P6_cons]
  have : step6 { st6 st n true true us up a with sixteen := v } 93 = .ok (st6 8 0 false true (us.set up v) (up + 1) a) := by
    rw [step6]
    simp only [show isxdigit 93 = false by decide, Bool.false_eq_true, false_and, if_false]
    simp [switch6, case26, show isxdigit 93 = false by decide, R.bind, check6, show st ≠ 0 by omega, show st ≠ 1 by omega, h6, S6.push, hu]
    omega
  rw [this]; rfl

/-! ## The fields behind `::` -/

/-- The scratch array after pushing `ps`. -/
def pad (ps : List Nat) : List Nat := ps ++ List.replicate (6 - ps.length) 0

theorem pad_set (ps : List Nat) (v : Nat) (h : ps.length < 6) : (pad ps).set ps.length v = pad (ps ++ [v]) := by
  rw [pad, pad, show 6 - ps.length = (6 - (ps ++ [v]).length) + 1 by simp; omega, List.replicate_succ]
  simp

theorem pad_length (ps : List Nat) (h : ps.length ≤ 6) : (pad ps).length = 6 := by simp [pad]; omega

/-- Fields in state `st` with `n` characters counted, of which no one but the last is empty, unless characters were counted before it. -/
def OkB : Nat → List (List UInt8) → Prop
  | _, [] => False
  | _, [_] => True
  | n, f :: g :: r => (0 < n ∨ f ≠ []) ∧ OkB 0 (g :: r)

theorem back_fwd (br : Bool) (A : V6) (tail : List UInt8) : ∀ (fs : List (List UInt8)) (l : List UInt8) (st n : Nat) (ps : List Nat), 2 ≤ st → st + fs.length ≤ 7 → ps.length + 2 ≤ st →
    (∀ f ∈ fs ++ [l], Field f) → OkB n (fs ++ [l]) →
    P6 (st6 st n br true (pad ps) ps.length A) (colons (fs ++ [l]) ++ tail) =
      P6 { st6 (st + fs.length) ((if fs = [] then n else 0) + l.length) br true (pad (ps ++ fs.map hexNumber)) (ps.length + fs.length) A with sixteen := hexNumber l } tail := by
  intro fs
  induction fs with
  | nil =>
    intro l st n ps h2 h7 hp hf _
    simp only [List.nil_append, colons]
    rw [P6_field _ l _ _ _ _ _ _ _ (by simpa using h7) (hf l (by simp))]
    simp
  | cons f fs ih =>
    intro l st n ps h2 h7 hp hf hok
    simp only [List.length_cons] at h7
    obtain ⟨g, r, hgr⟩ : ∃ g r, fs ++ [l] = g :: r := by
      cases fs with
      | nil => exact ⟨_, _, rfl⟩
      | cons a b => exact ⟨_, _, rfl⟩
    have hff := hf f (by simp)
    rw [List.cons_append, hgr] at hok ⊢
    simp only [colons, List.append_assoc, List.cons_append]
    rw [P6_field _ f _ _ _ _ _ _ _ (by omega) hff]
    have hn : 0 < n + f.length := by
      rcases hok.1 with h | h
      · omega
      · have := List.length_pos_iff.2 h; omega
    rw [P6_colon_z' _ _ _ _ _ _ _ _ h2 (by omega) hn hff.2 (by rw [pad_length _ (by omega)]; omega), pad_set _ _ (by omega)]
    have h' := ih l (st + 1) 0 (ps ++ [hexNumber f]) (by omega) (by omega) (by simp; omega)
      (fun x hx => hf x (by simp only [List.cons_append, List.mem_cons]; exact .inr hx)) (by rw [hgr]; exact hok.2)
    rw [hgr] at h'
    simp only [List.length_append, List.length_cons, List.length_nil, List.append_assoc] at h'
    rw [show ps.length + 1 = ps.length + (0 + 1) from rfl]
    refine Eq.trans h' ?_
    simp only [List.map_cons, List.cons_append, List.nil_append, List.length_cons, ite_self, reduceCtorEq, if_false, Nat.zero_add]
    rw [show st + 1 + fs.length = st + (fs.length + 1) by omega, show ps.length + 1 + fs.length = ps.length + (fs.length + 1) by omega]

/-- What stops the fields: the end of the text, or something that is neither a digit nor a colon. -/
def Stop (tail : List UInt8) : Prop := ∀ c, tail.head? = some c → hexChar c = false ∧ c ≠ 58

theorem back_split (br : Bool) (A v : V6) : ∀ (m : Nat) (t : List UInt8) (st n : Nat) (ps : List Nat), t.length ≤ m → 2 ≤ st → st ≤ 7 → ps.length + 2 ≤ st →
    P6 (st6 st n br true (pad ps) ps.length A) t = .ok v →
    ∃ fs l tail, t = colons (fs ++ [l]) ++ tail ∧ st + fs.length ≤ 7 ∧ (∀ f ∈ fs ++ [l], Field f) ∧ OkB n (fs ++ [l]) ∧ Stop tail := by
  intro m
  induction m with
  | zero =>
    intro t st n ps hm h2 h7 hp h
    have : t = [] := List.length_eq_zero_iff.1 (by omega)
    subst this
    exact ⟨[], [], [], rfl, by simpa using h7, by simp [Field, hexNumber], trivial, by intro c hc; cases hc⟩
  | succ m ih =>
    intro t st n ps hm h2 h7 hp h
    obtain ⟨g, r, rfl, hg, hr⟩ := digits t
    have hgf := field_of_ok h7 hg h
    by_cases hc : r.head? = some 58
    · obtain ⟨r', rfl⟩ : ∃ r', r = 58 :: r' := by
        cases r with
        | nil => cases hc
        | cons a b => simp at hc; exact ⟨b, by rw [hc]⟩
      rw [P6_field _ g _ _ _ _ _ _ _ h7 hgf] at h
      by_cases h6 : st ≤ 6
      · by_cases hn : n + g.length = 0
        · have hn0 : n = 0 := by omega
          have hg0 : g = [] := List.length_eq_zero_iff.1 (by omega)
          subst hn0 hg0
          have := second_gap r' st br (pad ps) ps.length A h2 h6
          exact absurd (h.symm.trans this) (by simp)
        · rw [P6_colon_z' _ _ _ _ _ _ _ _ h2 h6 (by omega) hgf.2 (by rw [pad_length _ (by omega)]; omega), pad_set _ _ (by omega)] at h
          obtain ⟨fs, l, tail, e, h1, h3, h4, h5⟩ := ih r' (st + 1) 0 (ps ++ [hexNumber g]) (by simp at hm; omega) (by omega) (by omega) (by simp; omega)
            (by simpa using h)
          refine ⟨g :: fs, l, tail, ?_, by simp; omega, ?_, ?_, h5⟩
          · obtain ⟨x, y, hxy⟩ : ∃ x y, fs ++ [l] = x :: y := by
              cases fs with
              | nil => exact ⟨_, _, rfl⟩
              | cons a b => exact ⟨_, _, rfl⟩
            rw [List.cons_append, hxy, colons, ← hxy, e]; simp
          · intro f hf
            rcases List.mem_cons.1 hf with rfl | hf
            · exact hgf
            · exact h3 f hf
          · obtain ⟨x, y, hxy⟩ : ∃ x y, fs ++ [l] = x :: y := by
              cases fs with
              | nil => exact ⟨_, _, rfl⟩
              | cons a b => exact ⟨_, _, rfl⟩
            rw [List.cons_append, hxy]
            refine ⟨?_, hxy ▸ h4⟩
            by_cases hg0 : g = []
            · left; subst hg0; simp at hn; omega
            · exact .inr hg0
      · have : st = 7 := by omega
        subst this
        rw [colon7] at h; cases h
    · refine ⟨[], g, r, rfl, by simpa using h7, by simpa using hgf, trivial, fun c hc' => ⟨hr c hc', ?_⟩⟩
      rintro rfl; exact hc hc'

/-! ## The fields before `::` or without it -/

/-- The address after storing `pre`. -/
def stored (pre : List Nat) : V6 := ⟨pre ++ List.replicate (8 - pre.length) 0, 0⟩

theorem stored_set (pre : List Nat) (v : Nat) (h : pre.length < 8) : { stored pre with sixteen := (stored pre).sixteen.set pre.length v } = stored (pre ++ [v]) := by
  simp only [stored]
  rw [show 8 - pre.length = (8 - (pre ++ [v]).length) + 1 by simp; omega, List.replicate_succ]
  simp

/-- Fields each followed by a colon. -/
def colonEach : List (List UInt8) → List UInt8
  | [] => []
  | f :: r => f ++ 58 :: colonEach r

theorem colonEach_append (fs : List (List UInt8)) (l : List UInt8) : colonEach fs ++ l = colons (fs ++ [l]) := by
  induction fs with
  | nil => rfl
  | cons f fs ih =>
    obtain ⟨x, y, hxy⟩ : ∃ x y, fs ++ [l] = x :: y := by
      cases fs with
      | nil => exact ⟨_, _, rfl⟩
      | cons a b => exact ⟨_, _, rfl⟩
    rw [colonEach, List.cons_append, hxy, colons, ← hxy, ← ih]; simp

/-- The state with `pre` stored and nothing else read. -/
abbrev stF (n : Nat) (br : Bool) (pre : List Nat) : S6 := st6 pre.length n br false [0, 0, 0, 0, 0, 0] 0 (stored pre)

theorem front_fwd (br : Bool) (t : List UInt8) : ∀ (fs : List (List UInt8)) (n : Nat) (pre : List Nat), pre.length + fs.length ≤ 7 →
    (∀ f ∈ fs, Field f) → (∀ f ∈ fs.drop (if pre.length = 0 then 1 else 0), f ≠ []) →
    P6 (stF n br pre) (colonEach fs ++ t) = P6 (stF (if fs = [] then n else 0) br (pre ++ fs.map hexNumber)) t := by
  intro fs
  induction fs with
  | nil => intro n pre _ _ _; simp [colonEach]
  | cons f fs ih =>
    intro n pre h7 hf hne
    simp only [List.length_cons] at h7
    have hff := hf f (by simp)
    simp only [colonEach, List.append_assoc, List.cons_append]
    rw [P6_field _ f _ _ _ _ _ _ _ (by omega) hff]
    rw [P6_colon _ _ _ _ _ _ _ _ (by omega) ?_ hff.2 (by simp [stored]; omega), stored_set _ _ (by omega)]
    · have h' := ih 0 (pre ++ [hexNumber f]) (by simp; omega) (fun x hx => hf x (by simp [hx])) (by
        intro x hx
        simp only [List.length_append, List.length_cons, List.length_nil] at hx
        rw [if_neg (by omega)] at hx
        refine hne x ?_
        split
        · simpa using hx
        · simp at hx; simp [hx])
      simp only [stF, List.length_append, List.length_cons, List.length_nil] at h'
      refine Eq.trans h' ?_
      simp [stF, Nat.add_assoc, Nat.add_comm 1]
    · intro h0
      have := List.length_pos_iff.2 (hne f (by rw [if_neg h0]; simp))
      omega

theorem front_split (br : Bool) (v : V6) : ∀ (m : Nat) (t : List UInt8) (n : Nat) (pre : List Nat), t.length ≤ m → pre.length ≤ 7 → (pre.length ≠ 0 → n = 0) →
    P6 (stF n br pre) t = .ok v →
    ∃ fs r, t = colonEach fs ++ r ∧ pre.length + fs.length ≤ 7 ∧ (∀ f ∈ fs, Field f) ∧ (∀ f ∈ fs.drop (if pre.length = 0 then 1 else 0), f ≠ []) ∧
      ((∃ l tail, r = l ++ tail ∧ Field l ∧ Stop tail) ∨ (pre.length + fs.length ≠ 0 ∧ ∃ r', r = 58 :: r')) := by
  intro m
  induction m with
  | zero =>
    intro t n pre hm h7 hn h
    have : t = [] := List.length_eq_zero_iff.1 (by omega)
    subst this
    exact ⟨[], [], rfl, by simpa using h7, by simp, by simp, .inl ⟨[], [], rfl, by simp [Field, hexNumber], by intro c hc; cases hc⟩⟩
  | succ m ih =>
    intro t n pre hm h7 hn h
    obtain ⟨g, r, rfl, hg, hr⟩ := digits t
    have hgf := field_of_ok h7 hg h
    by_cases hc : r.head? = some 58
    · obtain ⟨r', rfl⟩ : ∃ r', r = 58 :: r' := by
        cases r with
        | nil => cases hc
        | cons a b => simp at hc; exact ⟨b, by rw [hc]⟩
      by_cases hgap : pre.length ≠ 0 ∧ g = []
      · obtain ⟨h0, rfl⟩ := hgap
        exact ⟨[], 58 :: r', rfl, by simpa using h7, by simp, by simp, .inr ⟨by simpa using h0, r', rfl⟩⟩
      · rw [P6_field _ g _ _ _ _ _ _ _ h7 hgf] at h
        by_cases h6 : pre.length ≤ 6
        · rw [P6_colon _ _ _ _ _ _ _ _ h6 ?_ hgf.2 (by simp [stored]; omega), stored_set _ _ (by omega)] at h
          · obtain ⟨fs, r, e, h1, h2, h3, h4⟩ := ih r' 0 (pre ++ [hexNumber g]) (by simp at hm; omega) (by simp; omega) (fun _ => rfl) (by simpa [stF] using h)
            simp only [List.length_append, List.length_cons, List.length_nil] at h1 h3 h4
            refine ⟨g :: fs, r, by rw [colonEach, e]; simp, by simp; omega, ?_, ?_, ?_⟩
            · intro f hf
              rcases List.mem_cons.1 hf with rfl | hf
              · exact hgf
              · exact h2 f hf
            · intro f hf
              rw [if_neg (by omega), List.drop_zero] at h3
              split at hf
              · exact h3 f (by simpa using hf)
              · rcases List.mem_cons.1 hf with rfl | hf
                · intro h0; exact hgap ⟨by assumption, h0⟩
                · exact h3 f hf
            · rcases h4 with h4 | h4
              · exact .inl h4
              · exact .inr ⟨by simp, h4.2⟩
          · intro h0
            have : g ≠ [] := fun h' => hgap ⟨h0, h'⟩
            have := List.length_pos_iff.2 this
            omega
        · have e7 : pre.length = 7 := by omega
          simp only [e7] at h
          rw [colon7] at h; cases h
    · refine ⟨[], g ++ r, rfl, by simpa using h7, by simp, by simp, .inl ⟨g, r, rfl, hgf, fun c hc' => ⟨hr c hc', ?_⟩⟩⟩
      rintro rfl; exact hc hc'

/-! ## The end -/

theorem port_ok (z : Bool) (us : List Nat) (up : Nat) (a v : V6) : ∀ (ds : List UInt8) (p n : Nat), p ≤ 65535 → P6 (port6 p n z us up a) ds = .ok v →
    ds.all digit = true ∧ val p ds ≤ 65535 := by
  intro ds
  induction ds with
  | nil => intro p n hp _; exact ⟨rfl, hp⟩
  | cons c ds ih =>
    intro p n hp h
    have hval : val p (c :: ds) = val (10 * p + (c.toNat - 48)) ds := rfl
    by_cases hd : digit c = true
    · have hi : Str.isdigit c = true := by rw [Str.isdigit_eq, hd]
      have hal : isalpha c = false := by
        have := Str.byte_all (P := fun c => digit c = true → isalpha c = false) (by decide +kernel) c
        exact this hd
      by_cases ho : 10 * p + (c.toNat - 48) ≤ 65535
      · have : step6 (port6 p n z us up a) c = .ok (port6 (10 * p + (c.toNat - 48)) (n + 1) z us up a) := by
          rw [step6]
          simp [hal, switch6, hi, R.bind, check6, char2Dec]
          rw [if_neg (by omega), show p * 10 + (c.toNat - 48) = 10 * p + (c.toNat - 48) by omega]
        rw [P6_cons, this] at h
        have := ih _ _ ho h
        exact ⟨by simp [hd, this.1], by rw [hval]; exact this.2⟩
      · have : step6 (port6 p n z us up a) c = .reject := by
          rw [step6]
          simp [hal, switch6, hi, R.bind, check6, char2Dec]
          omega
        rw [P6_cons, this] at h; cases h
    · have hi : Str.isdigit c = false := by rw [Str.isdigit_eq]; simpa using hd
      have : Refusing (step6 (port6 p n z us up a) c) := by
        rw [step6]
        have key : ∀ s : S6, s.state = 9 → switch6 s c = .ok s.err := by
          intro s hs; simp [switch6, hs, hi]
        exact Refusing.step (.inr ⟨_, key _ rfl, rfl⟩)
      rw [P6_cons, this.rest] at h; cases h

theorem port_iff (z : Bool) (us : List Nat) (up : Nat) (a v : V6) (P : List UInt8) :
    P6 (port6 0 0 z us up a) P = .ok v ↔ ∃ p, Dec 65535 P p ∧ v = { a with port := p } := by
  have hfin : ∀ (hd : P.all digit = true) (hv : val 0 P ≤ 65535), P6 (port6 0 0 z us up a) P = if P = [] then .reject else .ok { a with port := val 0 P } := by
    intro hd hv
    rw [P6_port_digits z us up a P 0 0 hd hv]
    simp only [finish6]
    by_cases hP : P = []
    · simp [hP]
    · simp [hP]; omega
  constructor
  · intro h
    obtain ⟨hd, hv⟩ := port_ok z us up a v P 0 0 (by omega) h
    rw [hfin hd hv] at h
    by_cases hP : P = []
    · simp [hP] at h
    · rw [if_neg hP] at h
      injection h with h
      exact ⟨val 0 P, ⟨hP, hd, rfl, hv⟩, h.symm⟩
  · rintro ⟨p, ⟨h1, h2, h3, h4⟩, rfl⟩
    have h3' : val 0 P = p := h3
    rw [hfin h2 (by rw [h3']; exact h4), if_neg h1, h3']

theorem after8 (z : Bool) (us : List Nat) (up : Nat) (a v : V6) (r : List UInt8) :
    P6 (st6 8 0 false z us up a) r = .ok v ↔
      (r = [] ∧ finish6 (st6 8 0 false z us up a) = .ok v) ∨ ∃ P p, r = 58 :: P ∧ Dec 65535 P p ∧ v = { a with port := p } := by
  cases r with
  | nil => simp [P6_nil]
  | cons c r =>
    by_cases hc : c = 58
    · subst hc
      have : step6 (st6 8 0 false z us up a) 58 = .ok (port6 0 0 z us up a) := rfl
      rw [P6_cons, this]
      show P6 _ r = _ ↔ _
      rw [port_iff]
      simp
    · have : Refusing (step6 (st6 8 0 false z us up a) c) := by
        rw [step6]
        have key : ∀ s : S6, s.state = 8 → switch6 s c = .ok s.err := by
          intro s hs; simp [switch6, hs, hc]
        exact Refusing.step (.inr ⟨_, key _ rfl, rfl⟩)
      rw [P6_cons, this.rest]
      simp [hc]

theorem list_of_length : ∀ (A : List Nat), A.length = 8 → ∃ a b c d e f g h, A = [a, b, c, d, e, f, g, h]
  | [a, b, c, d, e, f, g, h], _ => ⟨a, b, c, d, e, f, g, h, rfl⟩

theorem finish8 (ps A : List Nat) (hA : A.length = 8) (hp : ps.length ≤ 6) (hle : ∀ v ∈ ps, v ≤ 65535) :
    finish6 (st6 8 0 false true (pad ps) ps.length ⟨A, 0⟩) = .ok ⟨A.take (8 - ps.length) ++ ps.reverse, 0⟩ := by
  obtain ⟨a, b, c, d, e, f, g, h, rfl⟩ := list_of_length A hA
  have hm : ∀ v ∈ ps, v % 65536 = v := fun v hv => Nat.mod_eq_of_lt (by have := hle v hv; omega)
  match ps, hp with
  | [], _ => rfl
  | [x], _ => simp [finish6, copyLoop, pad, R.bind, hm]
  | [x, y], _ => simp [finish6, copyLoop, pad, R.bind, hm]
  | [x, y, z], _ => simp [finish6, copyLoop, pad, R.bind, hm]
  | [x, y, z, w], _ => simp [finish6, copyLoop, pad, R.bind, hm]
  | [x, y, z, w, u], _ => simp [finish6, copyLoop, pad, R.bind, hm]
  | [x, y, z, w, u, t], _ => simp [finish6, copyLoop, pad, R.bind, hm]

theorem not_hex_facts (c : UInt8) : hexChar c = false → c ≠ 93 → c ≠ 58 → c ≠ 91 → ok6 c = false := by
  intro h1 h2 h3 h4; simp [ok6, h1, h2, h3, h4]

theorem end_front (br : Bool) (pre : List Nat) (n x : Nat) (v : V6) (tail : List UInt8) (h7 : pre.length ≤ 7) (hx : x ≤ 65535) (hs : Stop tail)
    (hb : pre.length = 0 → n = 0 → tail.head? ≠ some 91) :
    P6 { stF n br pre with sixteen := x } tail = .ok v ↔
      pre.length = 7 ∧ ((tail = [] ∧ br = false ∧ n ≠ 0 ∧ v = stored (pre ++ [x])) ∨
        (br = true ∧ ∃ r, tail = 93 :: r ∧ P6 (st6 8 0 false false [0, 0, 0, 0, 0, 0] 0 (stored (pre ++ [x]))) r = .ok v)) := by
  cases tail with
  | nil =>
    rw [P6_nil]
    by_cases h : pre.length = 7
    · have hst := stored_set pre x (by omega)
      rw [h] at hst
      have hl : (stored pre).sixteen.length = 8 := by simp [stored]; omega
      simp only [finish6, h]
      by_cases hn : n = 0
      · simp [hn]
      · cases br
        · simp [hn, S6.assign, hl, R.bind, Nat.mod_eq_of_lt (show x < 65536 by omega), hst]; exact eq_comm
        · simp [hn]
    · have hr : finish6 { stF n br pre with sixteen := x } = .reject := by
        rw [finish6]
        by_cases h1 : pre.length = 0 ∨ pre.length = 1
        · rw [if_pos h1]
        · rw [if_neg h1, if_pos (by simp; omega)]
          cases br
          · simp [S6.push, R.bind]
          · rfl
      rw [hr]; simp [h]
  | cons c r =>
    obtain ⟨hc1, hc2⟩ := hs c rfl
    by_cases hc3 : c = 93
    · subst hc3
      by_cases h : pre.length = 7
      · have hst := stored_set pre x (by omega)
        rw [h] at hst
        simp only [h]
        cases br
        · rw [P6_err (by decide) (.inr ⟨_, rfl, rfl⟩)]; simp
        · rw [P6_close7 _ _ _ _ _ _ _ hx (by simp [stored]; omega), hst]; simp
      · have hr : Refusing (switch6 { stF n br pre with sixteen := x } 93) := by
          refine .inr ⟨S6.err { stF n br pre with sixteen := x }, ?_, rfl⟩
          rw [switch6]
          by_cases h0 : pre.length = 0
          · rw [if_pos h0]; rfl
          by_cases h1 : pre.length = 1
          · rw [if_neg h0, if_pos h1]; rfl
          rw [if_neg h0, if_neg h1, if_pos (by simp; omega)]
          simp [case26, show isxdigit 93 = false by decide]
        rw [P6_err (by decide) hr]; simp [h]
    by_cases hc4 : c = 91
    · subst hc4
      have hr : Refusing (switch6 { stF n br pre with sixteen := x } 91) := by
        refine .inr ⟨S6.err { stF n br pre with sixteen := x }, ?_, rfl⟩
        rw [switch6]
        by_cases h0 : pre.length = 0
        · rw [if_pos h0, case0, if_pos rfl, if_neg]
          intro hn; exact hb h0 hn rfl
        by_cases h1 : pre.length = 1
        · rw [if_neg h0, if_pos h1]; rfl
        by_cases h6 : pre.length ≤ 6
        · rw [if_neg h0, if_neg h1, if_pos h6]; simp [case26, show isxdigit 91 = false by decide]
        · rw [if_neg h0, if_neg h1, if_neg h6, if_pos (by simp; omega)]; simp [case7, show isxdigit 91 = false by decide]
      rw [P6_err (by decide) hr]; simp
    · rw [P6_cons, (bad_step (.inl (by simp; omega)) (not_hex_facts c hc1 hc3 hc2 hc4)).rest]
      simp [hc3]

theorem end_back (br : Bool) (ps A : List Nat) (st n x : Nat) (v : V6) (tail : List UInt8) (h2 : 2 ≤ st) (h7 : st ≤ 7) (hp : ps.length + 2 ≤ st)
    (hA : A.length = 8) (hx : x ≤ 65535) (hle : ∀ y ∈ ps, y ≤ 65535) (hs : Stop tail) :
    P6 { st6 st n br true (pad ps) ps.length ⟨A, 0⟩ with sixteen := x } tail = .ok v ↔
      (tail = [] ∧ br = false ∧ ((st ≤ 6 ∧ v = ⟨A.take (8 - (ps.length + 1)) ++ (ps ++ [x]), 0⟩) ∨ (st = 7 ∧ n ≠ 0 ∧ v = ⟨A.set 7 x, 0⟩))) ∨
      (br = true ∧ ∃ r, tail = 93 :: r ∧ ((st ≤ 6 ∧ P6 (st6 8 0 false true (pad (ps ++ [x])) (ps ++ [x]).length ⟨A, 0⟩) r = .ok v) ∨
        (st = 7 ∧ P6 (st6 8 0 false true (pad ps) ps.length ⟨A.set 7 x, 0⟩) r = .ok v))) := by
  cases tail with
  | nil =>
    rw [P6_nil]
    by_cases h6 : st ≤ 6
    · cases br
      · have := finish_z st n x ps (List.replicate (6 - ps.length) 0) A h2 h6 hA hx hle (by simp; omega) (by omega)
        have hpad : pad ps = ps ++ List.replicate (6 - ps.length) 0 := rfl
        rw [hpad, this]
        simp [h6, show st ≠ 7 by omega]; exact eq_comm
      · rw [finish6, if_neg (by simp; omega), if_pos h6]; simp
    · have : st = 7 := by omega
      subst this
      simp only [finish6]
      by_cases hn : n = 0
      · simp [hn]
      · cases br
        · simp [hn, S6.assign, hA, R.bind, Nat.mod_eq_of_lt (show x < 65536 by omega)]; exact eq_comm
        · simp [hn]
  | cons c r =>
    obtain ⟨hc1, hc2⟩ := hs c rfl
    by_cases hc3 : c = 93
    · subst hc3
      by_cases h6 : st ≤ 6
      · cases br
        · have hr : Refusing (switch6 { st6 st n false true (pad ps) ps.length ⟨A, 0⟩ with sixteen := x } 93) := by
            refine .inr ⟨S6.err { st6 st n false true (pad ps) ps.length ⟨A, 0⟩ with sixteen := x }, ?_, rfl⟩
            simp [switch6, case26, show isxdigit 93 = false by decide, h6, show st ≠ 0 by omega, show st ≠ 1 by omega]
          rw [P6_err (by decide) hr]; simp
        · rw [P6_close26 _ _ _ _ _ _ _ h2 h6 hx (by rw [pad_length _ (by omega)]; omega), pad_set _ _ (by omega)]
          simp [h6, show st ≠ 7 by omega]
      · have : st = 7 := by omega
        subst this
        cases br
        · rw [P6_err (by decide) (.inr ⟨_, rfl, rfl⟩)]; simp
        · rw [P6_close7 _ _ _ _ _ _ _ hx hA]; simp
    by_cases hc4 : c = 91
    · subst hc4
      have hr : Refusing (switch6 { st6 st n br true (pad ps) ps.length ⟨A, 0⟩ with sixteen := x } 91) := by
        refine .inr ⟨S6.err { st6 st n br true (pad ps) ps.length ⟨A, 0⟩ with sixteen := x }, ?_, rfl⟩
        rw [switch6, if_neg (by simp; omega), if_neg (by simp; omega)]
        by_cases h6 : st ≤ 6
        · rw [if_pos h6]; simp [case26, show isxdigit 91 = false by decide]
        · rw [if_neg h6, if_pos (by simp; omega)]; simp [case7, show isxdigit 91 = false by decide]
      rw [P6_err (by decide) hr]; simp
    · rw [P6_cons, (bad_step (.inl (by simp; omega)) (not_hex_facts c hc1 hc3 hc2 hc4)).rest]
      simp [hc3]

/-! ## Whole texts -/

theorem okB_iff (l : List UInt8) : ∀ (fs : List (List UInt8)) (n : Nat), OkB n (fs ++ [l]) ↔ ∀ f ∈ fs.drop (if n = 0 then 0 else 1), f ≠ [] := by
  intro fs
  induction fs with
  | nil => intro n; simp [OkB]
  | cons f fs ih =>
    intro n
    obtain ⟨g, r, hgr⟩ : ∃ g r, fs ++ [l] = g :: r := by
      cases fs with
      | nil => exact ⟨_, _, rfl⟩
      | cons a b => exact ⟨_, _, rfl⟩
    have h0 := ih 0
    rw [List.cons_append, hgr, OkB, ← hgr, h0]
    by_cases hn : n = 0
    · simp [hn]
    · simp [hn, show 0 < n by omega]

theorem colonEach_last (fs : List (List UInt8)) (l t : List UInt8) : colonEach (fs ++ [l]) ++ t = colons (fs ++ [l]) ++ 58 :: t := by
  rw [← colonEach_append]
  induction fs with
  | nil => simp [colonEach]
  | cons f fs ih => simp only [List.cons_append, colonEach, List.append_assoc]; rw [ih]; simp

theorem eq_snoc {α : Type} (fs : List α) (h : 1 ≤ fs.length) : ∃ fs' l, fs = fs' ++ [l] :=
  ⟨fs.dropLast, fs.getLast (List.length_pos_iff.1 h), (List.dropLast_concat_getLast _).symm⟩

theorem full_fwd (br : Bool) (n : Nat) (fs : List (List UInt8)) (l tail : List UInt8) (h : Full (fs ++ [l])) :
    P6 (stF n br []) (colons (fs ++ [l]) ++ tail) = P6 { stF l.length br (fs.map hexNumber) with sixteen := hexNumber l } tail := by
  have h8 := h.eight
  simp at h8
  have hin := h.inner
  rw [List.drop_append, List.dropLast_append_of_ne_nil (by simp [h8])] at hin
  rw [← colonEach_append, List.append_assoc]
  rw [front_fwd br _ fs n [] (by simp; omega) (fun f hf => h.fields f (by simp [hf])) (by
    intro f hf
    exact hin f (by simp at hf; simp [hf]))]
  rw [if_neg (by intro h'; simp [h'] at h8)]
  rw [P6_field _ l _ _ _ _ _ _ _ (by simp; omega) (h.fields l (by simp))]
  simp

theorem gap_fwd (br : Bool) (n : Nat) (front back : List (List UInt8)) (l tail : List UInt8) (h : Gap front (back ++ [l])) :
    P6 (stF n br []) (gapText front (back ++ [l]) ++ tail) =
      P6 { st6 (max front.length 2 + back.length) ((if back = [] then (if front.length = 1 then 0 else 1) else 0) + l.length) br true
        (pad (back.map hexNumber)) (back.map hexNumber).length (stored (front.map hexNumber)) with sixteen := hexNumber l } tail := by
  obtain ⟨fs, f, rfl⟩ := eq_snoc front h.front1
  have h8 := h.eight
  have h6 := h.front6
  have hin := h.inFront
  have hib := h.inBack
  simp only [List.length_append, List.length_cons, List.length_nil] at h8 h6 hib
  have e : gapText (fs ++ [f]) (back ++ [l]) ++ tail = colonEach (fs ++ [f]) ++ (58 :: (colons (back ++ [l]) ++ tail)) := by
    rw [colonEach_last]; simp [gapText]
  rw [e, front_fwd br _ (fs ++ [f]) n [] (by simp; omega) (fun x hx => h.fields x (by simp only [List.mem_append]; simp at hx; simp [hx])) (by
    intro x hx; exact hin x (by simpa using hx))]
  rw [if_neg (by simp), List.nil_append]
  simp only [stF]
  rw [P6_double' _ _ _ _ _ _ (by simp) (by simp; omega)]
  have := back_fwd br (stored ((fs ++ [f]).map hexNumber)) tail back l (max (fs ++ [f]).length 2) (if (fs ++ [f]).length = 1 then 0 else 1) []
    (by omega) (by simp; omega) (by simp; omega) (fun x hx => h.fields x (by simp only [List.mem_append]; simp at hx; simp [hx])) (by
      rw [okB_iff]
      intro x hx
      refine hib x ?_
      rw [List.dropLast_concat]
      simp only [List.length_append, List.length_cons, List.length_nil] at hx
      by_cases hz : fs.length + 1 = 1
      · simp [hz] at hx; simp [hz, hx]
      · simp [hz] at hx; simp [hz, hx])
  simp only [List.nil_append, List.length_map, Nat.zero_add, List.length_nil] at this ⊢
  rw [← this]; rfl

theorem body_ok (br : Bool) (n : Nat) (t : List UInt8) (v : V6) (h0 : n = 0 → t.head? ≠ some 91) (h : P6 (stF n br []) t = .ok v) :
    (∃ fs l tail, Full (fs ++ [l]) ∧ t = colons (fs ++ [l]) ++ tail ∧ Stop tail) ∨
    (∃ front back l tail, Gap front (back ++ [l]) ∧ t = gapText front (back ++ [l]) ++ tail ∧ Stop tail) := by
  obtain ⟨fs, r, rfl, h7, hf, hne, hr⟩ := front_split br v t.length t n [] (Nat.le_refl _) (by simp) (by simp) h
  simp only [List.length_nil, Nat.zero_add, if_true] at h7 hne
  rcases hr with ⟨l, tail, rfl, hl, hs⟩ | ⟨hpos, r', rfl⟩
  · left
    rw [front_fwd br _ fs n [] (by simpa using h7) hf (by simpa using hne), P6_field _ l _ _ _ _ _ _ _ (by simpa using h7) hl] at h
    have := (end_front br ([] ++ fs.map hexNumber) ((if fs = [] then n else 0) + l.length) (hexNumber l) v tail (by simpa using h7) hl.2 hs (by
      intro hz hn
      simp at hz
      subst hz
      simp at hn
      have hl0 := hn.2
      have := h0 hn.1
      subst hl0
      simpa [colonEach] using this)).1 h
    have h8 := this.1
    simp at h8
    refine ⟨fs, l, tail, ⟨?_, by simp [h8], ?_⟩, by rw [← colonEach_append]; simp, hs⟩
    · intro f hf'
      rcases List.mem_append.1 hf' with h' | h'
      · exact hf f h'
      · simp at h'; subst h'; exact hl
    · intro f hf'
      rw [List.drop_append, List.dropLast_append_of_ne_nil (by simp [h8])] at hf'
      refine hne f ?_
      simpa [h8] using hf'
  · right
    simp at hpos
    rw [front_fwd br _ fs n [] (by simpa using h7) hf (by simpa using hne), if_neg hpos, List.nil_append] at h
    have hl := List.length_pos_iff.2 hpos
    by_cases h6 : fs.length ≤ 6
    · simp only [stF] at h
      rw [P6_double' _ _ _ _ _ _ (by simp; omega) (by simpa using h6)] at h
      obtain ⟨bs, l, tail, rfl, hb7, hbf, hok, hs⟩ := back_split br _ v r'.length r' _ _ [] (Nat.le_refl _) (by omega) (by simp; omega) (by simp; omega) h
      simp only [List.length_map] at hb7 hok
      refine ⟨fs, bs, l, tail, ⟨?_, hl, h6, by simp, by simp; omega, hne, ?_⟩, ?_, hs⟩
      · intro f hf'
        rcases List.mem_append.1 hf' with h' | h'
        · exact hf f h'
        · exact hbf f h'
      · rw [okB_iff] at hok
        rw [List.dropLast_concat]
        intro f hf'
        refine hok f ?_
        by_cases hz : fs.length = 1
        · simpa [hz] using hf'
        · simpa [hz] using hf'
      · obtain ⟨fs', f, rfl⟩ := eq_snoc fs hl
        rw [colonEach_last]; simp [gapText]
    · have e7 : (fs.map hexNumber).length = 7 := by simp; omega
      simp only [stF, e7] at h
      have := colon7 r' 0 0 br false [0, 0, 0, 0, 0, 0] 0 (stored (fs.map hexNumber))
      exact absurd (h.symm.trans this) (by simp)

end Ip

namespace Ip

theorem fields_le {fs : List (List UInt8)} (h : ∀ f ∈ fs, Field f) : ∀ x ∈ fs.map hexNumber, x ≤ 65535 := by
  intro x hx
  obtain ⟨f, hf, rfl⟩ := List.mem_map.1 hx
  exact (h f hf).2

theorem stop_nil : Stop [] := by intro c hc; cases hc
theorem stop_close (r : List UInt8) : Stop (93 :: r) := by intro c hc; simp at hc; subst hc; decide

theorem take_fill (fs ys : List Nat) (h : fs.length + ys.length ≤ 8) : (stored fs).sixteen.take (8 - ys.length) ++ ys = fill fs ys := by
  simp only [stored, fill]
  rw [List.take_append, List.take_of_length_le (by omega), List.take_replicate]
  congr 3
  omega

theorem set_fill (fs : List Nat) (x : Nat) (h : fs.length ≤ 7) : (stored fs).sixteen.set 7 x = fill fs [x] := by
  simp only [stored, fill, List.length_cons, List.length_nil]
  rw [List.set_append_right _ _ h, show 8 - fs.length = (7 - fs.length) + 1 by omega, List.replicate_succ', List.append_assoc]
  congr 1
  rw [List.set_append_right _ _ (by simp)]
  simp

theorem stored_eight (vs : List Nat) (h : vs.length = 8) : stored vs = ⟨vs, 0⟩ := by simp [stored, h]

theorem stored_len (vs : List Nat) (h : vs.length ≤ 8) : (stored vs).sixteen.length = 8 := by simp [stored]; omega

theorem fill_len (xs ys : List Nat) (h : xs.length + ys.length ≤ 8) : (fill xs ys).length = 8 := by simp [fill]; omega

/-- What is read behind the closing bracket, with the numbers if there is no port and those if there is one. -/
def Behind (r : List UInt8) (xs ys : List Nat) (v : V6) : Prop := (r = [] ∧ v = ⟨xs, 0⟩) ∨ ∃ P p, r = 58 :: P ∧ Dec 65535 P p ∧ v = ⟨ys, p⟩

theorem full_iff (br : Bool) (n : Nat) (fs : List (List UInt8)) (l tail : List UInt8) (v : V6) (h : Full (fs ++ [l])) (hs : Stop tail) :
    P6 (stF n br []) (colons (fs ++ [l]) ++ tail) = .ok v ↔
      (tail = [] ∧ br = false ∧ l ≠ [] ∧ v = ⟨(fs ++ [l]).map hexNumber, 0⟩) ∨
      (br = true ∧ ∃ r, tail = 93 :: r ∧ Behind r ((fs ++ [l]).map hexNumber) ((fs ++ [l]).map hexNumber) v) := by
  have h8 := h.eight
  simp at h8
  rw [full_fwd _ _ _ _ _ h, end_front _ _ _ _ _ _ (by simp; omega) (h.fields l (by simp)).2 hs (by simp [h8])]
  have he : fs.map hexNumber ++ [hexNumber l] = (fs ++ [l]).map hexNumber := by simp
  rw [he, stored_eight _ (by simp [h8])]
  simp only [after8, Behind]
  have hf : ∀ a : V6, (finish6 (st6 8 0 false false [0, 0, 0, 0, 0, 0] 0 a) = .ok v) ↔ v = a := by
    intro a; simp [finish6]; exact eq_comm
  simp only [hf, List.length_map, h8, true_and]
  simp

theorem gap_iff (br : Bool) (n : Nat) (front back : List (List UInt8)) (l tail : List UInt8) (v : V6) (h : Gap front (back ++ [l])) (hs : Stop tail) :
    P6 (stF n br []) (gapText front (back ++ [l]) ++ tail) = .ok v ↔
      (tail = [] ∧ br = false ∧ ((max front.length 2 + (back ++ [l]).length ≤ 7 ∧ v = ⟨fill (front.map hexNumber) ((back ++ [l]).map hexNumber), 0⟩) ∨
        (max front.length 2 + (back ++ [l]).length = 8 ∧ l ≠ [] ∧ v = ⟨fill (front.map hexNumber) [hexNumber l], 0⟩))) ∨
      (br = true ∧ ∃ r, tail = 93 :: r ∧ ((max front.length 2 + (back ++ [l]).length ≤ 7 ∧
          Behind r (fill (front.map hexNumber) ((back ++ [l]).map hexNumber).reverse) (fill (front.map hexNumber) []) v) ∨
        (max front.length 2 + (back ++ [l]).length = 8 ∧
          Behind r (fill (front.map hexNumber) (back.map hexNumber).reverse) (fill (front.map hexNumber) [hexNumber l]) v))) := by
  have h8 := h.eight
  have h6 := h.front6
  simp at h8
  have hb := fields_le (fs := back) (fun f hf => h.fields f (by simp [hf]))
  have hbl := fields_le (fs := back ++ [l]) (fun f hf => h.fields f (by simp at hf; simp [hf]))
  have hl := (h.fields l (by simp)).2
  have hfl : (front.map hexNumber).length = front.length := by simp
  have key := end_back br (back.map hexNumber) (stored (front.map hexNumber)).sixteen (max front.length 2 + back.length)
    ((if back = [] then (if front.length = 1 then 0 else 1) else 0) + l.length) (hexNumber l) v tail (by omega) (by omega) (by simp; omega)
    (stored_len _ (by simp; omega)) hl hb hs
  have he : back.map hexNumber ++ [hexNumber l] = (back ++ [l]).map hexNumber := by simp
  have t1 := take_fill (front.map hexNumber) ((back ++ [l]).map hexNumber) (by simp; omega)
  have t2 := take_fill (front.map hexNumber) ((back ++ [l]).map hexNumber).reverse (by simp; omega)
  have t3 := take_fill (front.map hexNumber) [] (by simp; omega)
  have t5 : (stored (front.map hexNumber)).sixteen.set 7 (hexNumber l) = fill (front.map hexNumber) [hexNumber l] := set_fill _ _ (by simp; omega)
  have f1 := finish8 ((back ++ [l]).map hexNumber) (stored (front.map hexNumber)).sixteen (stored_len _ (by simp; omega)) (by simp; omega) hbl
  have f2 := finish8 (back.map hexNumber) (fill (front.map hexNumber) [hexNumber l]) (fill_len _ _ (by simp; omega)) (by simp; omega) hb
  simp only [List.length_nil, List.append_nil, List.length_reverse] at t2 t3
  rw [List.take_of_length_le (by rw [stored_len _ (by simp; omega)]; omega)] at t3
  rw [t2] at f1
  rw [gap_fwd _ _ _ _ _ _ h]
  refine Iff.trans key ?_
  rw [he, show (back.map hexNumber).length + 1 = ((back ++ [l]).map hexNumber).length by simp, t1, t5]
  simp only [after8, f1, f2, Behind]
  have l1 : (back ++ [l]).length = back.length + 1 := by simp
  have c1 : max front.length 2 + back.length ≤ 6 ↔ max front.length 2 + (back ++ [l]).length ≤ 7 := by omega
  have c2 : max front.length 2 + back.length = 7 ↔ max front.length 2 + (back ++ [l]).length = 8 := by omega
  rw [c1, c2]
  have c3 : ∀ Q : Prop, (max front.length 2 + (back ++ [l]).length = 8 ∧ ((if back = [] then (if front.length = 1 then 0 else 1) else 0) + l.length ≠ 0) ∧ Q) ↔
      (max front.length 2 + (back ++ [l]).length = 8 ∧ l ≠ [] ∧ Q) := by
    intro Q
    refine and_congr_right fun h' => and_congr_left fun _ => ?_
    have : back ≠ [] := by intro hbb; simp [hbb] at h'; omega
    rw [if_neg this]; simp
  rw [c3]
  have c4 : max front.length 2 + (back ++ [l]).length = 8 → List.take (8 - (back.map hexNumber).length) (fill (front.map hexNumber) [hexNumber l]) ++ (back.map hexNumber).reverse =
      fill (front.map hexNumber) (back.map hexNumber).reverse := by
    intro h'
    have t4 := take_fill (front.map hexNumber) (back.map hexNumber).reverse (by simp; omega)
    simp only [List.length_reverse] at t4
    rw [← t5, List.take_set_of_le (by simp; omega), t4]
  have inj : ∀ a : V6, (R.ok a = R.ok v) ↔ v = a := fun a => ⟨fun h => by injection h with h; exact h.symm, fun h => by rw [h]⟩
  simp only [inj]
  rw [show (stored (front.map hexNumber)) = ⟨fill (front.map hexNumber) [], 0⟩ by rw [← t3]; rfl]
  refine or_congr Iff.rfl (and_congr_right fun _ => exists_congr fun r => and_congr_right fun _ => or_congr Iff.rfl (and_congr_right fun h' => ?_))
  rw [c4 h']

end Ip

/-- C33. The texts that are accepted as IPv6 addresses are exactly those of `Reads`, and they are read as it says: eight fields; fields around a
`::`; the same between brackets, with or without a port. So everything the parser gets wrong is listed there. -/
theorem C33_accepted_exactly (s : List UInt8) (v : Ip.V6) : Ip.parse6 s = .ok v ↔ Reads s v.sixteen v.port := by
  have start : ∀ t, Ip.parse6 t = Ip.P6 (Ip.stF 0 false []) t := fun _ => rfl
  have startB : ∀ t, Ip.parse6 (91 :: t) = Ip.P6 (Ip.stF 1 true []) t := fun t => by rw [Ip.parse6_eq, Ip.P6_cons]; rfl
  constructor
  · intro h
    by_cases h91 : s.head? = some 91
    · obtain ⟨t, rfl⟩ : ∃ t, s = 91 :: t := by
        cases s with
        | nil => cases h91
        | cons a b => simp at h91; exact ⟨b, by rw [h91]⟩
      rw [startB] at h
      rcases Ip.body_ok true 1 t v (by simp) h with ⟨fs, l, tail, hF, rfl, hs⟩ | ⟨front, back, l, tail, hG, rfl, hs⟩
      · rw [Ip.full_iff _ _ _ _ _ _ hF hs] at h
        rcases h with ⟨_, h', _⟩ | ⟨_, r, rfl, ⟨rfl, rfl⟩ | ⟨P, p, rfl, hP, rfl⟩⟩
        · cases h'
        · exact (by simpa using Reads.bFull _ hF)
        · exact (by simpa using Reads.pFull _ P p hF hP)
      · rw [Ip.gap_iff _ _ _ _ _ _ _ hG hs] at h
        rcases h with ⟨_, h', _⟩ | ⟨_, r, rfl, ⟨h7, ⟨rfl, rfl⟩ | ⟨P, p, rfl, hP, rfl⟩⟩ | ⟨h7, ⟨rfl, rfl⟩ | ⟨P, p, rfl, hP, rfl⟩⟩⟩
        · cases h'
        · exact (by simpa using Reads.bGap front (back ++ [l]) hG h7)
        · exact (by simpa using Reads.pGap front (back ++ [l]) P p hG h7 hP)
        · exact (by simpa using Reads.bLong front back l hG h7)
        · exact (by simpa using Reads.pLong front back l P p hG h7 hP)
    · rw [start s] at h
      rcases Ip.body_ok false 0 s v (fun _ => h91) h with ⟨fs, l, tail, hF, rfl, hs⟩ | ⟨front, back, l, tail, hG, rfl, hs⟩
      · rw [Ip.full_iff _ _ _ _ _ _ hF hs] at h
        rcases h with ⟨rfl, _, hl, rfl⟩ | ⟨h', _⟩
        · rw [List.append_nil]; exact Reads.full _ hF (by simpa using hl)
        · cases h'
      · rw [Ip.gap_iff _ _ _ _ _ _ _ hG hs] at h
        rcases h with ⟨rfl, _, ⟨h7, rfl⟩ | ⟨h7, hl, rfl⟩⟩ | ⟨h', _⟩
        · rw [List.append_nil]; exact Reads.gap _ _ hG h7
        · rw [List.append_nil]; exact Reads.long _ _ _ hG h7 hl
        · cases h'
  · intro h
    have e : ∀ a b : List UInt8, [91] ++ a ++ [93] ++ b = 91 :: (a ++ 93 :: b) := by simp
    have e2 : ∀ a : List UInt8, [91] ++ a ++ [93] = 91 :: (a ++ 93 :: []) := by simp
    have e3 : ∀ a P : List UInt8, [91] ++ a ++ [93, 58] ++ P = 91 :: (a ++ 93 :: 58 :: P) := by simp
    obtain ⟨vs, vp⟩ := v
    simp only at h
    generalize hvp : vp = q at h
    cases h with
    | full fs hF hl =>
      obtain ⟨fs, l, rfl⟩ := Ip.eq_snoc fs (by rw [hF.eight]; omega)
      subst hvp
      have := (Ip.full_iff false 0 fs l [] ⟨(fs ++ [l]).map hexNumber, 0⟩ hF Ip.stop_nil).2 (.inl ⟨rfl, rfl, by simpa using hl, rfl⟩)
      rwa [List.append_nil] at this
    | gap front back hG h7 =>
      obtain ⟨back, l, rfl⟩ := Ip.eq_snoc back hG.back1
      subst hvp
      have := (Ip.gap_iff false 0 front back l [] _ hG Ip.stop_nil).2 (.inl ⟨rfl, rfl, .inl ⟨h7, rfl⟩⟩)
      rwa [List.append_nil] at this
    | long front back l hG h7 hl =>
      subst hvp
      have := (Ip.gap_iff false 0 front back l [] _ hG Ip.stop_nil).2 (.inl ⟨rfl, rfl, .inr ⟨h7, hl, rfl⟩⟩)
      rwa [List.append_nil] at this
    | bFull fs hF =>
      obtain ⟨fs, l, rfl⟩ := Ip.eq_snoc fs (by rw [hF.eight]; omega)
      subst hvp
      rw [e2, startB]
      exact (Ip.full_iff true 1 fs l _ _ hF (Ip.stop_close _)).2 (.inr ⟨rfl, [], rfl, .inl ⟨rfl, rfl⟩⟩)
    | bGap front back hG h7 =>
      obtain ⟨back, l, rfl⟩ := Ip.eq_snoc back hG.back1
      subst hvp
      rw [e2, startB]
      exact (Ip.gap_iff true 1 front back l _ _ hG (Ip.stop_close _)).2 (.inr ⟨rfl, [], rfl, .inl ⟨h7, .inl ⟨rfl, rfl⟩⟩⟩)
    | bLong front back l hG h7 =>
      subst hvp
      rw [e2, startB]
      exact (Ip.gap_iff true 1 front back l _ _ hG (Ip.stop_close _)).2 (.inr ⟨rfl, [], rfl, .inr ⟨h7, .inl ⟨rfl, rfl⟩⟩⟩)
    | pFull fs P p hF hP =>
      obtain ⟨fs, l, rfl⟩ := Ip.eq_snoc fs (by rw [hF.eight]; omega)
      subst hvp
      rw [e3, startB]
      exact (Ip.full_iff true 1 fs l _ _ hF (Ip.stop_close _)).2 (.inr ⟨rfl, _, rfl, .inr ⟨P, _, rfl, hP, rfl⟩⟩)
    | pGap front back P p hG h7 hP =>
      obtain ⟨back, l, rfl⟩ := Ip.eq_snoc back hG.back1
      subst hvp
      rw [e3, startB]
      exact (Ip.gap_iff true 1 front back l _ _ hG (Ip.stop_close _)).2 (.inr ⟨rfl, _, rfl, .inl ⟨h7, .inr ⟨P, _, rfl, hP, rfl⟩⟩⟩)
    | pLong front back l P p hG h7 hP =>
      subst hvp
      rw [e3, startB]
      exact (Ip.gap_iff true 1 front back l _ _ hG (Ip.stop_close _)).2 (.inr ⟨rfl, _, rfl, .inr ⟨h7, .inr ⟨P, _, rfl, hP, rfl⟩⟩⟩)

/-- 1:2::3 is such a text. -/
example : Reads (bytes! "1:2::3") [1, 2, 0, 0, 0, 0, 0, 3] 0 :=
  (C33_accepted_exactly (bytes! "1:2::3") ⟨[1, 2, 0, 0, 0, 0, 0, 3], 0⟩).1 (by decide)
/-- A trailing colon behind `::` is read as a zero; [::1]:80 loses its one. -/
example : Reads (bytes! "1::2:") [1, 0, 0, 0, 0, 0, 2, 0] 0 ∧ Reads (bytes! "[::1]:80") [0, 0, 0, 0, 0, 0, 0, 0] 80 :=
  ⟨(C33_accepted_exactly (bytes! "1::2:") ⟨[1, 0, 0, 0, 0, 0, 2, 0], 0⟩).1 (by decide),
    (C33_accepted_exactly (bytes! "[::1]:80") ⟨[0, 0, 0, 0, 0, 0, 0, 0], 80⟩).1 (by decide)⟩
/-- And no others: 1:2:3 is none. -/
example (vs : List Nat) (p : Nat) : ¬ Reads (bytes! "1:2:3") vs p := fun h =>
  absurd ((C33_accepted_exactly (bytes! "1:2:3") ⟨vs, p⟩).2 h) (by rw [show Ip.parse6 (bytes! "1:2:3") = .reject by decide]; simp)
