import Verif.Model.CompatMisc
import Verif.Spec.CompatMisc
import Verif.Lemmas.StrCopy
import Mathlib.Tactic.Linarith
import Mathlib.Tactic.Ring
import Mathlib.Tactic.FieldSimp
import Mathlib.Tactic.NormNum
import Mathlib.Tactic.Positivity
import Mathlib.Algebra.Order.Floor.Ring
import Mathlib.Data.Rat.Floor
/-! # C175 to C178: small replacement functions -/
namespace CompatMiscSpec
open CompatMisc

/-! ## C175: nanosleep -/

/-- C175. `nanosleep` of Windows: a request of at most about 49 days sleeps at least as long as asked, and less than a millisecond longer;
the remaining time, if asked for, is set to zero.  Missing from the full statement (every request): longer ones, see the negated theorem. -/
theorem C175_nanosleep_partial (s n : Int) (rm : Bool) (hs : 0 ≤ s) (hn : 0 ≤ n) (hn' : n < 10 ^ 9)
    (h : s * 10 ^ 9 + n ≤ (2 ^ 32 - 2) * 10 ^ 6) :
    ∃ ms : Nat, (nanosleep s n rm).1 = .ms ms ∧ s * 10 ^ 9 + n ≤ ms * 10 ^ 6 ∧ (ms : Int) * 10 ^ 6 < s * 10 ^ 9 + n + 10 ^ 6 ∧
      (nanosleep s n rm).2 = if rm then some (0, 0) else none := by
  have ht : (n + 999999).tdiv 1000000 = (n + 999999) / 1000000 := Int.tdiv_eq_ediv_of_nonneg (by omega)
  refine ⟨(s * 1000 + (n + 999999) / 1000000).toNat, ?_, by omega, by omega, rfl⟩
  simp only [nanosleep, sleep, ht]
  rw [Int.emod_eq_of_lt (by omega) (by omega), if_neg (by omega)]

/-- C175, the full statement is false: a request of 4294967 seconds and 295 milliseconds never returns, and one of a millisecond more
returns at once. -/
theorem C175_nanosleep_negated :
    ¬ (∀ s n : Int, 0 ≤ s → 0 ≤ n → n < 10 ^ 9 → ∃ ms : Nat, (nanosleep s n false).1 = .ms ms ∧ s * 10 ^ 9 + n ≤ ms * 10 ^ 6) ∧
    (nanosleep 4294967 295000000 false).1 = .forever ∧ (nanosleep 4294967 296000000 false).1 = .ms 0 := by
  refine ⟨fun h => ?_, by decide, by decide⟩
  obtain ⟨ms, h1, h2⟩ := h 4294967 296000000 (by decide) (by decide) (by decide)
  have : (nanosleep 4294967 296000000 false).1 = .ms 0 := by decide
  rw [this] at h1
  cases h1
  revert h2; decide

example : (nanosleep 1 1 true) = (.ms 1001, some (0, 0)) := by decide

/-! ## C176: unsetenv on Windows -/

theorem isVar_iff (name e : List UInt8) : (name ++ [61]).isPrefixOf e = true ↔ IsVar name e := by
  rw [List.isPrefixOf_iff_prefix]
  constructor
  · rintro ⟨r, rfl⟩; exact ⟨r, by simp⟩
  · rintro ⟨v, rfl⟩; exact ⟨v, by simp⟩

/-- C176. `unsetenv` of Windows: an absent, empty or malformed name is refused with EINVAL and a failed allocation with ENOMEM, both
leaving the environment alone; otherwise it succeeds without writing outside its buffer, no variable of that name is left, and every other
entry stays, in order. -/
theorem C176_unsetenv_windows (name : Option (List UInt8)) (alloc : Bool) (env : List (List UInt8)) (h0 : ∀ n, name = some n → 0 ∉ n) :
    ∃ r errno env', unsetenvWin name alloc env = some (r, errno, env') ∧
      ((name = none ∨ (∃ n, name = some n ∧ (n = [] ∨ 61 ∈ n))) → r = -1 ∧ errno = 22 ∧ env' = env) ∧
      (∀ n, name = some n → n ≠ [] → 61 ∉ n →
        (alloc = false → r = -1 ∧ errno = 12 ∧ env' = env) ∧
        (alloc = true → r = 0 ∧ (∀ e, e ∈ env' ↔ e ∈ env ∧ ¬ IsVar n e) ∧ env'.Sublist env)) := by
  cases name with
  | none => exact ⟨-1, 22, env, rfl, fun _ => ⟨rfl, rfl, rfl⟩, by simp⟩
  | some n =>
    have hE : Environ.hasEq n = true ↔ 61 ∈ n := by simp [Environ.hasEq]
    by_cases hbad : n = [] ∨ Environ.hasEq n = true
    · refine ⟨-1, 22, env, by simp only [unsetenvWin]; rw [if_pos hbad], fun _ => ⟨rfl, rfl, rfl⟩, fun m hm h1 h2 => ?_⟩
      cases hm
      rcases hbad with h | h
      · exact absurd h h1
      · exact absurd (hE.mp h) h2
    · have hno : ¬ (some n = none ∨ ∃ m, some n = some m ∧ (m = [] ∨ 61 ∈ m)) := by
        rintro (h | ⟨m, hm, h⟩)
        · cases h
        · cases hm; exact hbad (by rw [hE]; exact h)
      cases alloc with
      | false =>
        exact ⟨-1, 12, env, by simp only [unsetenvWin]; rw [if_neg hbad]; rfl, fun h => absurd h hno, fun m hm _ _ => ⟨fun _ => ⟨rfl, rfl, rfl⟩, by simp⟩⟩
      | true =>
        have hn0 := h0 n rfl
        have h61 : 61 ∉ n := fun h => hbad (.inr (hE.mpr h))
        have hstr : CMem.str ((n ++ [61, 0]).map some) = some (n ++ [61]) := by
          have : ∀ l : List UInt8, 0 ∉ l → CMem.str (l.map some ++ [some 0]) = some l := by
            intro l
            induction l with
            | nil => intro _; rfl
            | cons c l ih =>
              intro hc
              simp only [List.mem_cons, not_or] at hc
              simp [CMem.str, Ne.symm hc.1, ih hc.2]
          have h := this (n ++ [61]) (by simp [hn0])
          simp only [List.map_append, List.map_cons, List.map_nil, List.append_assoc, List.cons_append, List.nil_append] at h ⊢
          exact h
        have htw : (n ++ [61]).takeWhile (· != 61) = n := by
          rw [List.takeWhile_append_of_pos (by intro a ha; simp; rintro rfl; exact h61 ha)]; simp
        have hdw : (n ++ [61]).dropWhile (· != 61) = [61] := by
          rw [List.dropWhile_append_of_pos (by intro a ha; simp; rintro rfl; exact h61 ha)]; simp
        refine ⟨0, 0, env.filter fun e => !(n ++ [61]).isPrefixOf e, ?_, fun h => absurd h hno, fun m hm _ _ => ⟨by simp, fun _ => ⟨rfl, ?_, List.filter_sublist⟩⟩⟩
        · simp only [unsetenvWin]
          rw [if_neg hbad]
          simp only [Bool.true_eq_false, if_false]
          have hst : CMem.store (List.replicate (n.length + 2) none) 0 (n ++ [61] ++ [0]) = some ((n ++ [61, 0]).map some) := by
            simp [CMem.store]
          rw [hst]
          simp only [Option.bind_eq_bind, Option.bind_some, hstr, putenvWin, htw, hdw]
          rfl
        · cases hm
          intro e
          rw [List.mem_filter, ← isVar_iff]
          cases (n ++ [61]).isPrefixOf e <;> simp

example : unsetenvWin (some [65]) true [[65, 61, 49], [65, 66, 61, 50]] = some (0, 0, [[65, 66, 61, 50]]) := by decide

/-- C176. `dirfd` of Solaris, HP-UX and AIX gives the descriptor of the stream.  Missing from the full statement (an error is reported as -1
with `errno`): see the negated theorem. -/
theorem C176_dirfd_partial (enotsup fd : Int) (h : 0 ≤ fd) : dirfd enotsup fd = fd := by
  unfold dirfd; rw [if_pos (by omega)]

/-- C176, the full statement is false: for a stream without a descriptor the result is ENOTSUP, a positive number that callers take for
descriptor 48. -/
theorem C176_dirfd_negated : ¬ (∀ enotsup : Int, 0 < enotsup → ∀ fd : Int, -1 ≤ fd → dirfd enotsup fd = fd) ∧ dirfd 48 (-1) = 48 := by
  refine ⟨fun h => absurd (h 48 (by decide) (-1) (by decide)) (by decide), by decide⟩

/-! ## C177: drand48 -/

/-- C177. `drand48` lies in [0,1) for every value of `rand()` and every rounding mode, as long as RAND_MAX is below 2^53.  Missing from the
full statement: larger RAND_MAX, see the negated theorem. -/
theorem C177_drand48_partial (rnd : ℚ → ℚ) (hr : Rounding rnd) (R r : Nat) (hR : R < 2 ^ 53) (h : r ≤ R) :
    0 ≤ drand48 rnd R r ∧ drand48 rnd R r < 1 := by
  have e1 : rnd (r : ℚ) = r := by simpa using (hr.exact r 0 (by omega) (by omega)).1
  have e2 : rnd (R : ℚ) = R := by simpa using (hr.exact R 0 (by omega) (by omega)).1
  have e3 : rnd ((R : ℚ) + 1) = R + 1 := by simpa using (hr.exact (R + 1) 0 (by omega) (by omega)).1
  have hd : drand48 rnd R r = rnd ((r : ℚ) / (R + 1)) := by simp only [drand48, e1, e2, e3]
  have hRp : (0 : ℚ) < R + 1 := by positivity
  have hR' : (R : ℚ) + 1 ≤ 2 ^ 53 := by exact_mod_cast hR
  have hr' : (r : ℚ) ≤ R := by exact_mod_cast h
  rw [hd]
  constructor
  · have := hr.mono 0 ((r : ℚ) / (R + 1)) (by positivity)
    have e0 : rnd 0 = 0 := by simpa using (hr.exact 0 0 (by omega) (by omega)).1
    rwa [e0] at this
  · have hle : (r : ℚ) / (R + 1) ≤ ((2 ^ 53 - 1 : Nat) : ℚ) / 2 ^ 53 := by
      rw [div_le_div_iff₀ hRp (by positivity)]
      push_cast
      nlinarith
    have := hr.mono _ _ hle
    rw [(hr.exact (2 ^ 53 - 1) 53 (by omega) (by omega)).2] at this
    refine lt_of_le_of_lt this ?_
    norm_num

/-- Rounding down to a multiple of 2^-900 is a rounding in this sense. -/
example : Rounding (fun x => (⌊x * 2 ^ 900⌋ : ℚ) / 2 ^ 900) := by
  refine ⟨fun x y h => ?_, fun m e _ he => ⟨?_, ?_⟩⟩
  · have : ⌊x * 2 ^ 900⌋ ≤ ⌊y * 2 ^ 900⌋ := Int.floor_le_floor (by gcongr)
    have : (⌊x * 2 ^ 900⌋ : ℚ) ≤ ⌊y * 2 ^ 900⌋ := by exact_mod_cast this
    gcongr
  · have : (m : ℚ) * 2 ^ e * 2 ^ 900 = ((m * 2 ^ e * 2 ^ 900 : Int) : ℚ) := by push_cast; ring
    rw [this, Int.floor_intCast, ← this]; field_simp
  · obtain ⟨k, hk⟩ : ∃ k, 900 = e + k := ⟨900 - e, by omega⟩
    have : (m : ℚ) / 2 ^ e * 2 ^ 900 = ((m * 2 ^ k : Int) : ℚ) := by rw [hk, pow_add]; push_cast; field_simp
    rw [this, Int.floor_intCast, ← this]; field_simp
example : drand48 (fun x => x) (2 ^ 31 - 1) 1 = 1 / 2 ^ 31 := by norm_num [drand48]

/-- C177, where RAND_MAX is 2^63 - 1: with rounding to nearest, which takes both 2^63 - 1 and 2^63 + 1 to 2^63, the largest value of `rand()`
gives exactly 1. -/
theorem C177_drand48_large (rnd : ℚ → ℚ) (hr : Rounding rnd) (h1 : rnd (2 ^ 63 - 1) = 2 ^ 63) (h2 : rnd (2 ^ 63 + 1) = 2 ^ 63) :
    drand48 rnd (2 ^ 63 - 1) (2 ^ 63 - 1) = 1 := by
  have e : (((2 : Nat) ^ 63 - 1 : Nat) : ℚ) = 2 ^ 63 - 1 := by norm_num
  have e1 : rnd 1 = 1 := by simpa using (hr.exact 1 0 (by omega) (by omega)).1
  simp only [drand48, e, h1, h2]
  rw [div_self (by norm_num), e1]

/-- C177, the full statement is false. -/
theorem C177_drand48_negated : ¬ (∀ rnd, Rounding rnd → ∀ R r : Nat, r ≤ R → drand48 rnd R r < 1) := by
  intro h
  let rnd : ℚ → ℚ := fun x => if 2 ^ 63 - 1 ≤ x ∧ x ≤ 2 ^ 63 + 1 then 2 ^ 63 else x
  have hr : Rounding rnd := by
    refine ⟨fun x y hxy => ?_, fun m e hm he => ⟨?_, ?_⟩⟩
    · show (if _ then _ else _) ≤ (if _ then _ else _)
      split <;> split <;> rename_i ha hb
      · exact le_refl _
      · by_contra hc
        exact hb ⟨by linarith [ha.1], by push_neg at hc; linarith [ha.1]⟩
      · by_contra hc
        exact ha ⟨by push_neg at hc; linarith [hb.2], by linarith [hb.2]⟩
      · exact hxy
    · show (if _ then _ else _) = _
      split
      · rename_i hb
        obtain ⟨hb1, hb2⟩ := hb
        have e1 : 2 ^ 63 - 1 ≤ m * 2 ^ e := by
          have : ((2 ^ 63 - 1 : Nat) : ℚ) ≤ ((m * 2 ^ e : Nat) : ℚ) := by push_cast; norm_num; linarith
          exact_mod_cast this
        have e2 : m * 2 ^ e ≤ 2 ^ 63 + 1 := by
          have : ((m * 2 ^ e : Nat) : ℚ) ≤ ((2 ^ 63 + 1 : Nat) : ℚ) := by push_cast; linarith
          exact_mod_cast this
        have e3 : m * 2 ^ e = 2 ^ 63 := by
          cases e with
          | zero => simp at e1; omega
          | succ e => rw [pow_succ 2 e, ← mul_assoc] at e1 e2 ⊢; omega
        have : ((m * 2 ^ e : Nat) : ℚ) = ((2 ^ 63 : Nat) : ℚ) := by rw [e3]
        push_cast at this
        exact this.symm
      · rfl
    · show (if _ then _ else _) = _
      rw [if_neg]
      rintro ⟨hb1, _⟩
      have h1 : (m : ℚ) / 2 ^ e ≤ m := div_le_self (by positivity) (one_le_pow₀ (by norm_num))
      have h2 : (m : ℚ) ≤ 2 ^ 53 := by exact_mod_cast hm
      have h3 : (2 : ℚ) ^ 63 - 1 ≤ 2 ^ 53 := by linarith
      norm_num at h3
  have := h rnd hr (2 ^ 63 - 1) (2 ^ 63 - 1) (le_refl _)
  rw [C177_drand48_large rnd hr (by simp only [rnd]; norm_num) (by simp only [rnd]; norm_num)] at this
  exact lt_irrefl _ this

/-! ## C178: getloadavg -/

theorem get_buf (t : List UInt8) (k i : Nat) (c : UInt8) (h : t[i]? = some c) : CMem.get (t.map some ++ List.replicate k none) i = some c := by
  have hi : i < t.length := by by_contra hc; rw [List.getElem?_eq_none (by omega)] at h; cases h
  simp only [CMem.get]
  rw [List.getElem?_append_left (by simpa using hi), List.getElem?_map, h]
  rfl

/-- Skipping blanks in front of a number. -/
theorem skip_ok (t : List UInt8) (k : Nat) (ws : List UInt8) : ∀ (i fuel : Nat) (c : UInt8) (rest : List UInt8), t.drop i = ws ++ c :: rest →
    (∀ w ∈ ws, blank w = true) → blank c = false → ws.length < fuel →
    skipBlank (t.map some ++ List.replicate k none) i fuel = some (i + ws.length) := by
  induction ws with
  | nil =>
    intro i fuel c rest ht _ hc hf
    obtain ⟨f, rfl⟩ : ∃ f, fuel = f + 1 := ⟨fuel - 1, by simp at hf; omega⟩
    have := get_buf t k i c (by have := congrArg (·[0]?) ht; simpa using this)
    simp [skipBlank, this, hc]
  | cons w ws ih =>
    intro i fuel c rest ht hw hc hf
    obtain ⟨f, rfl⟩ : ∃ f, fuel = f + 1 := ⟨fuel - 1, by simp at hf; omega⟩
    have hg := get_buf t k i w (by have := congrArg (·[0]?) ht; simpa using this)
    have ht' : t.drop (i + 1) = ws ++ c :: rest := by rw [← List.drop_drop, ht]; simp
    have := ih (i + 1) f c rest ht' (fun x hx => hw x (by simp [hx])) hc (by simp at hf; omega)
    simp only [skipBlank, hg, Option.bind_eq_bind, Option.bind_some, hw w (by simp), if_true, this]
    simp; omega

theorem take_ok (t : List UInt8) (k : Nat) (num : List UInt8) : ∀ (i fuel : Nat) (c : UInt8) (rest : List UInt8), t.drop i = num ++ c :: rest →
    (∀ w ∈ num, numChar w = true) → numChar c = false → num.length < fuel →
    takeNum (t.map some ++ List.replicate k none) i fuel = some (num, i + num.length) := by
  induction num with
  | nil =>
    intro i fuel c rest ht _ hc hf
    obtain ⟨f, rfl⟩ : ∃ f, fuel = f + 1 := ⟨fuel - 1, by simp at hf; omega⟩
    have := get_buf t k i c (by have := congrArg (·[0]?) ht; simpa using this)
    simp [takeNum, this, hc]
  | cons w num ih =>
    intro i fuel c rest ht hw hc hf
    obtain ⟨f, rfl⟩ : ∃ f, fuel = f + 1 := ⟨fuel - 1, by simp at hf; omega⟩
    have hg := get_buf t k i w (by have := congrArg (·[0]?) ht; simpa using this)
    have ht' : t.drop (i + 1) = num ++ c :: rest := by rw [← List.drop_drop, ht]; simp
    have := ih (i + 1) f c rest ht' (fun x hx => hw x (by simp [hx])) hc (by simp at hf; omega)
    simp only [takeNum, hg, Option.bind_eq_bind, Option.bind_some, hw w (by simp), if_true, this]
    simp; omega

theorem number_chars (t : List UInt8) (h : Number t) : (∀ w ∈ t, numChar w = true) ∧ ∃ c r, t = c :: r ∧ blank c = false := by
  have hn : ∀ w ∈ t, numChar w = true := by
    intro w hw
    rcases h.2 w hw with ⟨h1, h2⟩ | rfl
    · simp only [numChar, Bool.or_eq_true, Bool.and_eq_true, decide_eq_true_eq]
      exact .inl ⟨UInt8.le_iff_toNat_le.mpr (by simpa using h1), UInt8.le_iff_toNat_le.mpr (by simpa using h2)⟩
    · rfl
  refine ⟨hn, ?_⟩
  obtain ⟨c, r, rfl⟩ := List.exists_cons_of_ne_nil h.1
  refine ⟨c, r, rfl, ?_⟩
  have hd := h.2 c (by simp)
  have : ∀ x : UInt8, blank x = true → x.toNat = 32 ∨ (9 ≤ x.toNat ∧ x.toNat ≤ 13) := by
    intro x hx
    simp only [blank, Bool.or_eq_true, beq_iff_eq, Bool.and_eq_true, decide_eq_true_eq, UInt8.le_iff_toNat_le] at hx
    rcases hx with rfl | hx
    · exact .inl rfl
    · exact .inr hx
  by_contra hb
  have h1 := this c (by simpa using hb)
  rcases hd with h2 | rfl
  · omega
  · revert h1; decide

/-- C178. `getloadavg` on Linux: from a text of three numbers, each followed by a blank, it stores the first `nelem` of them (at most three)
and returns how many; nothing outside the buffer or not written is read.  Missing from the full statement (any contents of the file):
numbers too long for the 40 bytes, see the negated theorem. -/
theorem C178_loadavg_linux_partial (a b c rest : List UInt8) (nelem : Nat) (ha : Number a) (hb : Number b) (hc : Number c)
    (h : a.length + b.length + c.length + 3 ≤ 40) :
    getloadavgLinux (some (a ++ 32 :: b ++ 32 :: c ++ 32 :: rest)) nelem =
      some (((min nelem 3 : Nat) : Int), ([a, b, c] : List (List UInt8)).take nelem) := by
  obtain ⟨ha1, xa, ra, ea, ba⟩ := number_chars a ha
  obtain ⟨hb1, xb, rb, eb, bb⟩ := number_chars b hb
  obtain ⟨hc1, xc, rc, ec, bc⟩ := number_chars c hc
  obtain ⟨rest', hdata⟩ : ∃ rest', (a ++ 32 :: b ++ 32 :: c ++ 32 :: rest).take 40 = a ++ 32 :: (b ++ 32 :: (c ++ 32 :: rest')) := by
    refine ⟨rest.take (40 - (a.length + b.length + c.length + 3)), ?_⟩
    have e : a ++ 32 :: b ++ 32 :: c ++ 32 :: rest = (a ++ 32 :: (b ++ 32 :: (c ++ [32]))) ++ rest := by simp
    rw [e, List.take_append, List.take_of_length_le (by simp; omega)]
    simp
    congr 1; omega
  have hlen : ((a ++ 32 :: b ++ 32 :: c ++ 32 :: rest).take 40).length ≤ 40 := List.length_take_le _ _
  generalize hD : (a ++ 32 :: b ++ 32 :: c ++ 32 :: rest).take 40 = D at hdata hlen
  have hst : CMem.store (List.replicate 40 none) 0 D = some (D.map some ++ List.replicate (40 - D.length) none) := by
    unfold CMem.store
    rw [if_pos (by rw [List.length_replicate]; omega), List.drop_replicate]
    simp only [List.take_zero, List.nil_append, Nat.zero_add]
  have hml : (D.map some ++ List.replicate (40 - D.length) (none : Option UInt8)).length = 40 := by simp; omega
  have hal : a.length ≤ 37 := by omega
  have hbl : b.length ≤ 37 := by omega
  have hcl : c.length ≤ 37 := by omega
  have bl : numChar 32 = false := by decide
  have s1 : scanNums (D.map some ++ List.replicate (40 - D.length) none) 0 3 = some [a, b, c] := by
    have d0 : D.drop 0 = [] ++ xa :: (ra ++ 32 :: (b ++ 32 :: (c ++ 32 :: rest'))) := by rw [hdata, ea]; simp
    have d0' : D.drop 0 = a ++ 32 :: (b ++ 32 :: (c ++ 32 :: rest')) := by simpa using hdata
    have d1' : D.drop a.length = 32 :: (b ++ 32 :: (c ++ 32 :: rest')) := by rw [hdata, List.drop_left]
    have d1 : D.drop a.length = [32] ++ xb :: (rb ++ 32 :: (c ++ 32 :: rest')) := by rw [d1', eb]; simp
    have d2 : D.drop (a.length + 1) = b ++ 32 :: (c ++ 32 :: rest') := by rw [← List.drop_drop, d1']; simp
    have d3' : D.drop (a.length + 1 + b.length) = 32 :: (c ++ 32 :: rest') := by rw [← List.drop_drop, d2, List.drop_left]
    have d3 : D.drop (a.length + 1 + b.length) = [32] ++ xc :: (rc ++ 32 :: rest') := by rw [d3', ec]; simp
    have d4 : D.drop (a.length + 1 + b.length + 1) = c ++ 32 :: rest' := by rw [← List.drop_drop, d3']; simp
    have q0 := skip_ok D (40 - D.length) [] 0 41 xa _ d0 (by simp) ba (by simp)
    have q1 := take_ok D (40 - D.length) a 0 41 32 _ d0' ha1 bl (by omega)
    have q2 := skip_ok D (40 - D.length) [32] a.length 41 xb _ d1 (by simp; decide) bb (by simp)
    have q3 := take_ok D (40 - D.length) b (a.length + 1) 41 32 _ d2 hb1 bl (by omega)
    have q4 := skip_ok D (40 - D.length) [32] (a.length + 1 + b.length) 41 xc _ d3 (by simp; decide) bc (by simp)
    have q5 := take_ok D (40 - D.length) c (a.length + 1 + b.length + 1) 41 32 _ d4 hc1 bl (by omega)
    simp only [List.length_nil, Nat.add_zero, Nat.zero_add, List.length_cons] at q0 q1 q2 q3 q4 q5
    simp only [scanNums, hml, Option.bind_eq_bind, q0, q1, q2, q3, q4, q5, Option.bind_some, ha.1, hb.1, hc.1, if_false]
  have hD0 : D.length ≠ 0 := by rw [hdata]; simp
  simp only [getloadavgLinux, hD, hst, Option.bind_eq_bind, Option.bind_some, hD0, if_false, s1]
  simp only [List.length_cons, List.length_nil]
  rw [if_neg (by omega)]
  rcases nelem with _ | _ | _ | n <;> simp [copyOut]

/-- "0.50 1.25 10.00 2/345 6789\n" -/
example : getloadavgLinux (some [48, 46, 53, 48, 32, 49, 46, 50, 53, 32, 49, 48, 46, 48, 48, 32, 50, 47, 51, 52, 53, 32, 54, 55, 56, 57, 10]) 2 =
    some (2, [[48, 46, 53, 48], [49, 46, 50, 53]]) := by decide

/-- C178, the full statement is false: the buffer is not terminated, so a file that ends within the third number (or a number longer than
the buffer) makes `sscanf` read bytes that were never written (or lie outside the array). -/
theorem C178_loadavg_linux_negated :
    ¬ (∀ (file : Option (List UInt8)) (nelem : Nat), ∃ r, getloadavgLinux file nelem = some r) ∧
    getloadavgLinux (some [49, 32, 50, 32, 51]) 3 = none ∧ getloadavgLinux (some (List.replicate 40 49)) 1 = none := by
  refine ⟨fun h => ?_, by decide, by decide⟩
  obtain ⟨r, hr⟩ := h (some [49, 32, 50, 32, 51]) 3
  have : getloadavgLinux (some [49, 32, 50, 32, 51]) 3 = none := by decide
  rw [this] at hr
  cases hr

/-- C178. On NetBSD it stores `nelem` quotients, for `nelem` at most 3; a larger number reads past the three values. -/
theorem C178_loadavg_netbsd_partial (a b c scale nelem : Nat) :
    (nelem ≤ 3 → getloadavgNetBSD (some [a, b, c, scale]) nelem = some ((nelem : Int), ([a, b, c].map fun v => (v, scale)).take nelem)) ∧
    (3 < nelem → getloadavgNetBSD (some [a, b, c, scale]) nelem = none) := by
  constructor
  · intro h
    obtain rfl | rfl | rfl | rfl : nelem = 0 ∨ nelem = 1 ∨ nelem = 2 ∨ nelem = 3 := by omega
    all_goals rfl
  · intro h
    obtain ⟨k, rfl⟩ : ∃ k, nelem = k + 4 := ⟨nelem - 4, by omega⟩
    simp [getloadavgNetBSD, copyNetBSD, CMem.read]

/-- C178, the full statement (as on Linux, at most three are stored) is false. -/
theorem C178_loadavg_netbsd_negated : ¬ (∀ a b c scale nelem : Nat, ∃ r, getloadavgNetBSD (some [a, b, c, scale]) nelem = some r) := by
  intro h
  obtain ⟨r, hr⟩ := h 1 2 3 4 4
  cases hr

/-! ## C179: clocks, times and identities -/

/-- C179. `xclock_gettime` always stores a time: the clock's if there is one, otherwise whole seconds with a message; `clock_gettime` of
libcompat always succeeds with whole seconds, so that no message is logged; `gmtime_r` and `localtime_r` copy the broken-down time into
the caller's structure, or leave it alone and return NULL. -/
theorem C179_times {Tm : Type} (code sec nsec time : Int) (tm : Option Tm) (old : Tm) :
    (xclockGettime (code, (sec, nsec)) time).1 = (if code = 0 then (sec, nsec) else (time, 0)) ∧
    ((xclockGettime (code, (sec, nsec)) time).2 = true ↔ code ≠ 0) ∧
    xclockGettime (clockGettime time) time = ((time, 0), false) ∧
    ((timeR tm old).2 = true ↔ tm ≠ none) ∧ (timeR tm old).1 = tm.getD old := by
  refine ⟨?_, ?_, rfl, ?_, ?_⟩
  · by_cases h : code = 0 <;> simp [xclockGettime, h]
  · by_cases h : code = 0 <;> simp [xclockGettime, h]
  · cases tm <;> simp [timeR]
  · cases tm <;> rfl

/-- C179. `seteuid` returns 0 exactly when the effective user is the one asked for because the call was allowed, never touches the real
user, and on failure changes nothing. -/
theorem C179_seteuid (have' allowed : Bool) (uid : Nat) (p : Nat × Nat) :
    (seteuid have' allowed uid p).2.1 = p.1 ∧
    ((seteuid have' allowed uid p).1 = 0 → (seteuid have' allowed uid p).2.2 = uid) ∧
    ((seteuid have' allowed uid p).1 ≠ 0 → (seteuid have' allowed uid p) = (-1, p)) ∧
    ((seteuid have' allowed uid p).1 = 0 ↔ have' = true ∧ allowed = true) := by
  cases have' <;> cases allowed <;> simp [seteuid]

/-- C179. `srand48`: seeds that agree in their low 32 bits give the same sequence, other seeds give different ones. -/
theorem C179_srand48 (a b : Int) : srand48 a = srand48 b ↔ a % 2 ^ 32 = b % 2 ^ 32 := by
  unfold srand48
  have h1 : 0 ≤ a % 2 ^ 32 := Int.emod_nonneg _ (by decide)
  have h2 : 0 ≤ b % 2 ^ 32 := Int.emod_nonneg _ (by decide)
  omega

example : xclockGettime (-1, (3, 4)) 7 = ((7, 0), true) ∧ seteuid true true 5 (0, 0) = (0, (0, 5)) ∧ srand48 (-1) = 2 ^ 32 - 1 := by decide

end CompatMiscSpec
