import Verif.Model.Writer
import Verif.Spec.Buffer
import Verif.Props.Misc
namespace Buffer
open BufferSpec (B Op okOp okRun step run size totalSize piece cstr)

def tr : BufferSpec.Mode → Mode
  | .cstring => .cstring
  | .bytearray => .bytearray

/-- `mem` holds `xs` followed by at least one more cell. -/
structure Holds (mem : List (Option UInt8)) (xs : List UInt8) : Prop where
  ex : ∃ rest, mem = xs.map some ++ rest ∧ rest ≠ []

theorem Holds.lt {mem : List (Option UInt8)} {xs : List UInt8} (h : Holds mem xs) : xs.length < mem.length := by
  obtain ⟨rest, rfl, hne⟩ := h.ex
  have : 0 < rest.length := by cases rest with | nil => exact absurd rfl hne | cons => simp
  simp; omega

theorem memcpy_at {mem rest : List (Option UInt8)} {xs ys : List UInt8} (h : mem = xs.map some ++ rest) {n : Nat} (hn : n ≤ ys.length)
    (hr : n ≤ rest.length) :
    CMem.memcpy mem xs.length (ys.map some) 0 n = some (xs.map some ++ (ys.take n).map some ++ rest.drop n) := by
  subst h
  have h1 : (xs.map some ++ rest).take xs.length = xs.map some := by
    rw [List.take_append_of_le_length (by simp), List.take_of_length_le (by simp)]
  have h2 : (xs.map some ++ rest).drop (xs.length + n) = rest.drop n := by
    rw [List.drop_append]; simp
  simp only [CMem.memcpy, List.length_append, List.length_map, h1, h2]
  rw [if_pos (by omega)]
  simp

theorem write_at {rest : List (Option UInt8)} {xs : List UInt8} (hne : rest ≠ []) (c : UInt8) :
    CMem.write (xs.map some ++ rest) xs.length (some c) = some (xs.map some ++ some c :: rest.drop 1) := by
  cases rest with
  | nil => exact absurd rfl hne
  | cons r rest => simp [CMem.write, List.set_append_right]

theorem get_at (xs : List UInt8) (rest : List (Option UInt8)) (i : Nat) (hi : i < xs.length) :
    CMem.get (xs.map some ++ rest) i = some xs[i] := by
  simp [CMem.get, List.getElem?_append_left, hi]

theorem getRange_at : ∀ (n start : Nat) (xs : List UInt8) (rest : List (Option UInt8)), start + n ≤ xs.length →
    CMem.getRange (xs.map some ++ rest) start n = some ((xs.drop start).take n) := by
  intro n
  induction n with
  | zero => intros; simp [CMem.getRange]
  | succ n ih =>
    intro start xs rest h
    have hlt : start < xs.length := by omega
    rw [CMem.getRange, get_at _ _ _ hlt, ih (start+1) xs rest (by omega)]
    simp only [Option.bind_eq_bind, Option.bind_some]
    rw [List.drop_eq_getElem_cons hlt, List.take_succ_cons]

/-- Refinement relation. -/
structure Rep (b : Buf) (s : B) : Prop where
  mode : b.mode = tr s.mode
  cap : b.capacity = b.mem.length
  used : b.used = s.content.length
  holds : Holds b.mem s.content

def Term (b : Buf) : Prop := CMem.get b.mem b.used = some 0

theorem upper_gt (n : Nat) (hn : n + 1 ≤ 2 ^ 32) :
    n < (Misc.upperPowerOfTwo (BitVec.ofNat 64 (n + 1))).toNat := by
  have h : (BitVec.ofNat 64 (n + 1)).toNat = n + 1 := by simp; omega
  obtain ⟨k, h1, h2, _⟩ := C36_upperPowerOfTwo_partial (BitVec.ofNat 64 (n+1)) (by omega) (by omega)
  omega

/-- After `ExpandIfNeeded(needed)` the contents are the same and there is room for `needed` bytes and one more. -/
theorem expand_ok {b : Buf} {xs : List UInt8} (hc : b.capacity = b.mem.length) (hu : b.used = xs.length) (hh : Holds b.mem xs)
    (needed : Nat) (hn : needed + 1 ≤ 2 ^ 32) (hge : xs.length ≤ needed) :
    ∃ rest, (expandIfNeeded b needed).mem = xs.map some ++ rest ∧ needed < xs.length + rest.length ∧
      (expandIfNeeded b needed).capacity = (expandIfNeeded b needed).mem.length ∧ (expandIfNeeded b needed).used = b.used ∧
      (expandIfNeeded b needed).mode = b.mode := by
  obtain ⟨rest, hm, hne⟩ := hh.ex
  unfold expandIfNeeded
  by_cases h : needed ≥ b.capacity
  · rw [if_pos h]
    have hgt := upper_gt needed hn
    generalize (Misc.upperPowerOfTwo (BitVec.ofNat 64 (needed + 1))).toNat = cap at hgt ⊢
    have hlen : b.mem.length ≤ cap := by omega
    refine ⟨rest ++ List.replicate (cap - b.mem.length) none, ?_, ?_, ?_, rfl, rfl⟩
    · simp only [CMem.realloc, List.take_of_length_le hlen]
      rw [hm, List.append_assoc]
    · have : b.mem.length = xs.length + rest.length := by rw [hm]; simp
      simp; omega
    · simp [CMem.realloc]; omega
  · rw [if_neg h]
    refine ⟨rest, hm, ?_, hc, rfl, rfl⟩
    have : b.mem.length = xs.length + rest.length := by rw [hm]; simp
    omega

theorem strnlen_ok : ∀ (n : Nat) (bytes : List UInt8), (n ≤ bytes.length ∨ 0 ∈ bytes) →
    strnlen bytes n = some (cstr (bytes.take n)).length ∧ (cstr (bytes.take n)).length ≤ bytes.length ∧
      bytes.take (cstr (bytes.take n)).length = cstr (bytes.take n) := by
  intro n
  induction n with
  | zero => intro bytes _; simp [strnlen, cstr]
  | succ n ih =>
    intro bytes h
    cases bytes with
    | nil => simp at h
    | cons c rest =>
      by_cases hc : c = 0
      · subst hc; simp [strnlen, cstr]
      · have := ih rest (by
          rcases h with h | h
          · left; simpa using h
          · right
            rcases List.mem_cons.mp h with h | h
            · exact absurd h.symm hc
            · exact h)
        obtain ⟨h1, h2, h3⟩ := this
        simp only [strnlen, hc, if_false, h1, Option.map_some, List.take_succ_cons, cstr]
        simp only [List.takeWhile_cons, hc, ne_eq, not_false_eq_true, decide_true, if_true, List.length_cons, List.take_succ_cons]
        refine ⟨trivial, by simp only [cstr, ne_eq] at h2; omega, ?_⟩
        simp only [cstr, ne_eq] at h3
        rw [h3]

theorem store_ok {b : Buf} {xs ys : List UInt8} {rest : List (Option UInt8)} (hm : b.mem = xs.map some ++ rest) (hu : b.used = xs.length)
    {n : Nat} (hn : n ≤ ys.length) (hr : n < rest.length) :
    ∃ m1 m2, CMem.memcpy b.mem b.used (ys.map some) 0 n = some m1 ∧ CMem.write m1 (b.used + n) (some 0) = some m2 ∧
      m2 = (xs ++ ys.take n).map some ++ some 0 :: rest.drop (n + 1) ∧ m2.length = b.mem.length := by
  have h1 : CMem.memcpy b.mem b.used (ys.map some) 0 n = some ((xs ++ ys.take n).map some ++ rest.drop n) := by
    rw [hu, memcpy_at hm hn (by omega), List.map_append]
  have hne : rest.drop n ≠ [] := by
    intro hh; have := congrArg List.length hh; simp at this; omega
  have h2 : CMem.write ((xs ++ ys.take n).map some ++ rest.drop n) (b.used + n) (some 0) =
      some ((xs ++ ys.take n).map some ++ some 0 :: (rest.drop n).drop 1) := by
    have := write_at (xs := xs ++ ys.take n) hne 0
    rw [show (xs ++ ys.take n).length = b.used + n by simp [hu, Nat.min_eq_left hn]] at this
    exact this
  refine ⟨_, _, h1, h2, by rw [List.drop_drop], ?_⟩
  rw [hm]; simp [Nat.min_eq_left hn]; omega

theorem get_term (xs : List UInt8) (rest : List (Option UInt8)) (c : UInt8) : CMem.get (xs.map some ++ some c :: rest) xs.length = some c := by
  simp [CMem.get]

theorem append_ok {b : Buf} {s : B} (h : Rep b s) (bytes : List UInt8) (len : Nat)
    (hok : len ≤ bytes.length ∨ (s.mode = .cstring ∧ 0 ∈ bytes)) (hs : s.content.length + bytes.length + 2 ≤ 2 ^ 32) :
    ∃ b', append b bytes len = some b' ∧ Rep b' { s with content := s.content ++ piece s.mode bytes len } ∧
      ((s.mode = .cstring → Term b) → s.mode = .cstring → Term b') := by
  by_cases hl : len = 0
  · subst hl
    refine ⟨b, by simp [append], ?_, fun h => h⟩
    have : piece s.mode bytes 0 = [] := by cases s.mode <;> simp [piece, cstr]
    rw [this, List.append_nil]
    exact h
  · simp only [append, if_neg hl]
    cases hm : s.mode with
    | cstring =>
      have hbm : b.mode = .cstring := by rw [h.mode, hm]; rfl
      simp only [hbm]
      obtain ⟨s1, s2, s3⟩ := strnlen_ok len bytes (by
        rcases hok with h | h
        · exact Or.inl h
        · exact Or.inr h.2)
      simp only [s1, Option.bind_eq_bind, Option.bind_some, piece]
      generalize cstr (bytes.take len) = p at *
      obtain ⟨rest, e1, e2, e3, e4, e5⟩ := expand_ok h.cap h.used h.holds (b.used + p.length + 1) (by rw [h.used]; omega) (by rw [h.used]; omega)
      obtain ⟨m1, m2, w1, w2, w3, w4⟩ := store_ok (ys := bytes) e1 (by rw [e4, h.used]) (n := p.length) s2 (by rw [h.used] at e2; omega)
      rw [w1]
      simp only [Option.bind_some]
      rw [w2]
      refine ⟨_, rfl, ⟨?_, ?_, ?_, ⟨some 0 :: rest.drop (p.length + 1), ?_, ?_⟩⟩, ?_⟩
      · simp only [e5, hbm, tr]
      · simp only [e3, w4]
      · simp only [List.length_append]; rw [e4, h.used]
      · simp only [w3, s3]
      · simp
      · intro _ _
        simp only [Term, w3, s3]
        rw [e4, h.used, show s.content.length + p.length = (s.content ++ p).length by simp]
        exact get_term _ _ _
    | bytearray =>
      have hbm : b.mode = .bytearray := by rw [h.mode, hm]; rfl
      have hle : len ≤ bytes.length := by
        rcases hok with h | h
        · exact h
        · rw [hm] at h; cases h.1
      simp only [hbm, piece]
      obtain ⟨rest, e1, e2, e3, e4, e5⟩ := expand_ok h.cap h.used h.holds (b.used + len) (by rw [h.used]; omega) (by rw [h.used]; omega)
      have w1 := memcpy_at (ys := bytes) e1 hle (by rw [h.used] at e2; omega)
      rw [show s.content.length = (expandIfNeeded b (b.used + len)).used by rw [e4, h.used]] at w1
      simp only [w1, Option.bind_eq_bind, Option.bind_some]
      refine ⟨_, rfl, ⟨?_, ?_, ?_, ⟨rest.drop len, ?_, ?_⟩⟩, ?_⟩
      · simp [e5, hbm, tr]
      · have hlen : (expandIfNeeded b (b.used + len)).mem.length = s.content.length + rest.length := by rw [e1]; simp
        simp [e3, hlen, Nat.min_eq_left hle]
        rw [h.used] at e2
        omega
      · simp only [List.length_append, List.length_take, Nat.min_eq_left hle]; rw [e4, h.used]
      · simp
      · intro hh; have := congrArg List.length hh; simp at this; rw [h.used] at e2; omega
      · intro _ hh; cases hh

theorem clear_ok {b : Buf} {s : B} (h : Rep b s) :
    ∃ b', clear b = some b' ∧ Rep b' { s with content := [] } ∧ Term b' := by
  have hlt := h.holds.lt
  obtain ⟨m, ms, hm⟩ : ∃ m ms, b.mem = m :: ms := by
    cases hh : b.mem with
    | nil => rw [hh] at hlt; simp at hlt
    | cons m ms => exact ⟨m, ms, rfl⟩
  refine ⟨{ b with mem := some 0 :: ms, used := 0 }, by simp [clear, hm, CMem.write], ⟨h.mode, ?_, rfl, ⟨some 0 :: ms, by simp, by simp⟩⟩, by simp [Term, CMem.get]⟩
  simp [h.cap, hm]

theorem appendString_ok {b : Buf} {s : B} (h : Rep b s) (t : List UInt8) (hs : s.content.length + t.length + 2 ≤ 2 ^ 32) :
    ∃ b', appendString b t = some b' ∧ Rep b' { s with content := s.content ++ t } ∧ Term b' := by
  simp only [appendString]
  obtain ⟨rest, e1, e2, e3, e4, e5⟩ := expand_ok h.cap h.used h.holds (b.used + t.length + 1) (by rw [h.used]; omega) (by rw [h.used]; omega)
  obtain ⟨m1, m2, w1, w2, w3, w4⟩ := store_ok (ys := t) e1 (by rw [e4, h.used]) (n := t.length) (Nat.le_refl _) (by rw [h.used] at e2; omega)
  rw [w1]
  simp only [Option.bind_eq_bind, Option.bind_some]
  rw [w2]
  rw [List.take_length] at w3
  refine ⟨_, rfl, ⟨?_, ?_, ?_, ⟨some 0 :: rest.drop (t.length + 1), ?_, ?_⟩⟩, ?_⟩
  · simp only [e5, h.mode]
  · simp only [e3, w4]
  · simp only [List.length_append]; rw [e4, h.used]
  · simp only [w3]
  · simp
  · simp only [Term, w3]
    rw [e4, h.used, show s.content.length + t.length = (s.content ++ t).length by simp]
    exact get_term _ _ _

theorem trim_ok {b : Buf} {s : B} (h : Rep b s) (max : Nat) :
    ∃ b', trimToMaxLength b max = some b' ∧ Rep b' { s with content := s.content.take max } ∧
      ((s.mode = .cstring → Term b) → s.mode = .cstring → Term b') := by
  obtain ⟨rest, hm, hne⟩ := h.holds.ex
  by_cases hx : b.used > max
  · have hlt : max < s.content.length := by rw [← h.used]; exact hx
    have hw : CMem.write b.mem max (some 0) = some ((s.content.take max).map some ++ some 0 :: ((s.content.drop max).map some ++ rest).drop 1) := by
      have h1 : b.mem = (s.content.take max).map some ++ ((s.content.drop max).map some ++ rest) := by
        rw [hm, ← List.append_assoc, ← List.map_append, List.take_append_drop]
      have := write_at (xs := s.content.take max) (rest := (s.content.drop max).map some ++ rest) (by simp [hne]) 0
      rw [List.length_take, Nat.min_eq_left (by omega), ← h1] at this
      exact this
    refine ⟨{ b with mem := (s.content.take max).map some ++ some 0 :: ((s.content.drop max).map some ++ rest).drop 1, used := max },
      by simp [trimToMaxLength, hx, hw], ⟨h.mode, ?_, by simp; omega, ⟨_, rfl, by simp⟩⟩, ?_⟩
    · simp only [h.cap, hm]
      have : 0 < rest.length := by cases rest with | nil => exact absurd rfl hne | cons => simp
      simp; omega
    · intro _ _
      simp only [Term]
      have := get_term (s.content.take max) (((s.content.drop max).map some ++ rest).drop 1) 0
      rw [List.length_take, Nat.min_eq_left (by omega)] at this
      exact this
  · refine ⟨b, by simp [trimToMaxLength, hx], ?_, fun h => h⟩
    rw [List.take_of_length_le (by rw [← h.used]; omega)]
    exact h

theorem appendChar_ok {b : Buf} {s : B} (h : Rep b s) (c : UInt8) (hok : s.mode = .bytearray ∨ c ≠ 0)
    (hs : s.content.length + 3 ≤ 2 ^ 32) :
    ∃ b', appendChar b c = some b' ∧ Rep b' { s with content := s.content ++ [c] } ∧
      ((s.mode = .cstring → Term b) → s.mode = .cstring → Term b') := by
  obtain ⟨rest, hm, hne⟩ := h.holds.ex
  by_cases hx : b.used < b.capacity - 1
  · have hlen : b.mem.length = s.content.length + rest.length := by rw [hm]; simp
    have hr2 : 2 ≤ rest.length := by have := h.cap; have := h.used; omega
    obtain ⟨r0, r1, rs, hrs⟩ : ∃ r0 r1 rs, rest = r0 :: r1 :: rs := by
      match rest, hr2 with
      | r0 :: r1 :: rs, _ => exact ⟨r0, r1, rs, rfl⟩
    have w1 : CMem.write b.mem b.used (some c) = some ((s.content ++ [c]).map some ++ r1 :: rs) := by
      rw [hm, h.used, write_at hne, hrs]; simp
    have w2 : CMem.write ((s.content ++ [c]).map some ++ r1 :: rs) (b.used + 1) (some 0) = some ((s.content ++ [c]).map some ++ some 0 :: rs) := by
      have := write_at (xs := s.content ++ [c]) (rest := r1 :: rs) (by simp) 0
      rw [show (s.content ++ [c]).length = b.used + 1 by simp [h.used]] at this
      simpa using this
    simp only [appendChar, if_pos hx, w1, Option.bind_eq_bind, Option.bind_some]
    cases hmode : s.mode with
    | cstring =>
      have hbm : b.mode = .cstring := by rw [h.mode, hmode]; rfl
      simp only [hbm, if_true, w2, Option.bind_some]
      refine ⟨_, rfl, ⟨by simp [tr], ?_, by simp [h.used], ⟨_, rfl, by simp⟩⟩, ?_⟩
      · simp [h.cap, hlen, hrs]
      · intro _ _
        simp only [Term]
        rw [show b.used + 1 = (s.content ++ [c]).length by simp [h.used]]
        exact get_term _ _ _
    | bytearray =>
      have hbm : b.mode = .bytearray := by rw [h.mode, hmode]; rfl
      simp only [hbm, reduceCtorEq, if_false, Option.bind_some]
      refine ⟨_, rfl, ⟨by simp [tr], ?_, by simp [h.used], ⟨_, rfl, by simp⟩⟩, fun _ hh => by cases hh⟩
      · simp [h.cap, hlen, hrs]
  · simp only [appendChar, if_neg hx]
    obtain ⟨b', e1, e2, e3⟩ := append_ok h [c] 1 (Or.inl (by simp)) (by simp; omega)
    refine ⟨b', e1, ?_, e3⟩
    have : piece s.mode [c] 1 = [c] := by
      cases hmode : s.mode with
      | cstring =>
        have : c ≠ 0 := by
          rcases hok with h | h
          · rw [hmode] at h; cases h
          · exact h
        simp [piece, cstr, this]
      | bytearray => simp [piece]
    rw [this] at e2
    exact e2

theorem vsnprintf_ok {xs : List UInt8} {rest : List (Option UInt8)} (text : List UInt8) (hr : 0 < rest.length) :
    ∃ m, vsnprintf (xs.map some ++ rest) xs.length rest.length text = some m ∧
      m = (xs ++ text.take (min (rest.length - 1) text.length)).map some ++ some 0 :: rest.drop (min (rest.length - 1) text.length + 1) := by
  simp only [vsnprintf, if_neg (show rest.length ≠ 0 by omega)]
  obtain ⟨m1, m2, w1, w2, w3, _⟩ := store_ok (b := ⟨xs.map some ++ rest, .cstring, 0, xs.length⟩) (ys := text) rfl rfl
    (n := min (rest.length - 1) text.length) (by omega) (by omega)
  simp only at w1 w2
  rw [w1]
  simp only [Option.bind_eq_bind, Option.bind_some]
  exact ⟨m2, w2, w3⟩

theorem appendF_ok {b : Buf} {s : B} (h : Rep b s) (t : List UInt8) (hs : s.content.length + t.length + 2 ≤ 2 ^ 32) :
    ∃ b', appendF b t = some b' ∧ Rep b' { s with content := s.content ++ t } ∧ Term b' := by
  obtain ⟨rest, hm, hne⟩ := h.holds.ex
  have hlen : b.mem.length = s.content.length + rest.length := by rw [hm]; simp
  have hr0 : 0 < rest.length := by cases rest with | nil => exact absurd rfl hne | cons => simp
  obtain ⟨m, v1, v2⟩ := vsnprintf_ok (xs := s.content) t hr0
  have hcu : b.capacity - b.used = rest.length := by rw [h.cap, h.used, hlen]; omega
  have hml : m.length = b.mem.length := by rw [v2, hlen]; simp; omega
  simp only [appendF, hcu]
  rw [h.used, hm, v1]
  simp only [Option.bind_eq_bind, Option.bind_some]
  by_cases hx : t.length ≥ rest.length
  · rw [if_pos hx]
    have hh : Holds m s.content := ⟨⟨(t.take (min (rest.length - 1) t.length)).map some ++ some 0 :: rest.drop (min (rest.length - 1) t.length + 1), by
      rw [v2, List.map_append, List.append_assoc], by simp⟩⟩
    obtain ⟨rest2, e1, e2, e3, e4, e5⟩ := expand_ok (b := { b with mem := m, used := s.content.length }) (xs := s.content)
      (by simp [h.cap, hml]) rfl hh (s.content.length + t.length) (by omega) (by omega)
    simp only [h.used] at e1 e2 e3 e4 e5 ⊢
    generalize expandIfNeeded _ _ = b2 at *
    have hl2 : b2.mem.length = s.content.length + rest2.length := by rw [e1]; simp
    obtain ⟨m2, v3, v4⟩ := vsnprintf_ok (xs := s.content) (rest := rest2) t (by omega)
    rw [e4, e3, hl2, show s.content.length + rest2.length - s.content.length = rest2.length by omega, e1, v3]
    simp only [Option.bind_some]
    have hmin : min (rest2.length - 1) t.length = t.length := by omega
    rw [hmin, List.take_length] at v4
    refine ⟨_, rfl, ⟨?_, ?_, ?_, ⟨some 0 :: rest2.drop (t.length + 1), ?_, ?_⟩⟩, ?_⟩
    · simp only [e5, h.mode]
    · simp only [v4, e3, hl2]; simp; omega
    · simp
    · simp only [v4]
    · simp
    · simp only [Term, v4]
      rw [show s.content.length + t.length = (s.content ++ t).length by simp]
      exact get_term _ _ _
  · rw [if_neg hx]
    have hmin : min (rest.length - 1) t.length = t.length := by omega
    rw [hmin, List.take_length] at v2
    refine ⟨_, rfl, ⟨?_, ?_, ?_, ⟨some 0 :: rest.drop (t.length + 1), ?_, ?_⟩⟩, ?_⟩
    · simp only [h.mode]
    · simp only [h.cap, hml]
    · simp [h.used]
    · simp only [v2]
    · simp
    · simp only [Term, v2]
      rw [show s.content.length + t.length = (s.content ++ t).length by simp]
      exact get_term _ _ _

theorem printf_ok {b : Buf} {s : B} (h : Rep b s) (t : List UInt8) (hs : t.length + 2 ≤ 2 ^ 32) :
    ∃ b', printf b t = some b' ∧ Rep b' { s with content := t } ∧ Term b' := by
  have hlt := h.holds.lt
  obtain ⟨m, v1, v2⟩ := vsnprintf_ok (xs := []) (rest := b.mem) t (by omega)
  simp only [List.map_nil, List.nil_append, List.length_nil] at v1 v2
  have hml : m.length = b.mem.length := by rw [v2]; simp; omega
  simp only [printf]
  rw [h.cap, v1]
  simp only [Option.bind_eq_bind, Option.bind_some]
  by_cases hx : t.length ≥ b.mem.length
  · rw [if_pos hx]
    have hh : Holds m [] := ⟨⟨m, by simp, by rw [v2]; simp⟩⟩
    obtain ⟨rest2, e1, e2, e3, e4, e5⟩ := expand_ok (b := { b with mem := m, capacity := b.mem.length, used := 0 }) (xs := [])
      (by simp [hml]) rfl hh (t.length) (by omega) (by simp)
    have hsame : expandIfNeeded { b with mem := m, capacity := b.mem.length } t.length =
        { expandIfNeeded { b with mem := m, capacity := b.mem.length, used := 0 } t.length with used := b.used } := by
      unfold expandIfNeeded; split <;> rfl
    simp only [h.cap] at hsame ⊢
    rw [hsame]
    simp only [h.cap] at e1 e2 e3 e4 e5 ⊢
    generalize hB : expandIfNeeded _ _ = b2 at *
    simp only [List.map_nil, List.nil_append, List.length_nil, Nat.zero_add] at e1 e2
    obtain ⟨m2, v3, v4⟩ := vsnprintf_ok (xs := []) (rest := rest2) t (by omega)
    simp only [List.map_nil, List.nil_append, List.length_nil] at v3 v4
    rw [e3, e1, v3]
    simp only [Option.bind_some]
    have hmin : min (rest2.length - 1) t.length = t.length := by omega
    rw [hmin, List.take_length] at v4
    refine ⟨_, rfl, ⟨?_, ?_, rfl, ⟨some 0 :: rest2.drop (t.length + 1), ?_, ?_⟩⟩, ?_⟩
    · simp only [e5, h.mode]
    · simp only [v4]; simp; omega
    · simp only [v4]
    · simp
    · simp only [Term, v4]
      exact get_term _ _ _
  · rw [if_neg hx]
    have hmin : min (b.mem.length - 1) t.length = t.length := by omega
    rw [hmin, List.take_length] at v2
    refine ⟨_, rfl, ⟨?_, ?_, rfl, ⟨some 0 :: b.mem.drop (t.length + 1), ?_, ?_⟩⟩, ?_⟩
    · simp only [h.mode]
    · simp only [h.cap, hml]
    · simp only [v2]
    · simp
    · simp only [Term, v2]
      exact get_term _ _ _

theorem cstr_take_of_get (xs : List UInt8) (i : Nat) (hi : i < xs.length) (h0 : xs[i] = 0) (hb : ∀ j (hj : j < i), xs[j]'(by omega) ≠ 0) :
    cstr xs = xs.take i := by
  induction xs generalizing i with
  | nil => simp at hi
  | cons x xs ih =>
    cases i with
    | zero => simp at h0; simp [cstr, h0]
    | succ i =>
      have hx : x ≠ 0 := by have := hb 0 (by omega); simpa using this
      simp at h0 hi
      have := ih i hi h0 (fun j hj => by have := hb (j+1) (by omega); simpa using this)
      simp only [cstr, ne_eq] at this ⊢
      rw [List.takeWhile_cons, this]
      simp [hx]

theorem cstr_of_no_nul (xs : List UInt8) (h : 0 ∉ xs) : cstr xs = xs := by
  induction xs with
  | nil => rfl
  | cons x xs ih =>
    simp at h
    have := ih h.2
    simp only [cstr, ne_eq] at this ⊢
    rw [List.takeWhile_cons, this]
    simp [Ne.symm h.1]

theorem cstr_no_nul (xs : List UInt8) : 0 ∉ cstr xs := by
  induction xs with
  | nil => simp [cstr]
  | cons x xs ih =>
    simp only [cstr, ne_eq] at ih ⊢
    rw [List.takeWhile_cons]
    by_cases hx : x = 0
    · simp [hx]
    · simp only [hx, not_false_eq_true, decide_true, if_true, List.mem_cons, not_or]
      exact ⟨Ne.symm hx, ih⟩

theorem firstNul_ok {mem : List (Option UInt8)} {xs : List UInt8} {rest : List (Option UInt8)} (hm : mem = xs.map some ++ rest) :
    ∀ fuel i, i ≤ xs.length → xs.length < i + fuel → (∀ j (hj : j < xs.length), j < i → xs[j] ≠ 0) →
      firstNul mem xs.length fuel i = some (cstr xs).length ∧ ((cstr xs).length < xs.length → xs[(cstr xs).length]? = some 0) := by
  intro fuel
  induction fuel with
  | zero => intro i h1 h2; omega
  | succ fuel ih =>
    intro i hi hf hno
    by_cases hlt : i < xs.length
    · by_cases h0 : xs[i] = 0
      · have := cstr_take_of_get xs i hlt h0 (fun j hj => hno j (by omega) hj)
        have hl : (cstr xs).length = i := by rw [this]; simp; omega
        rw [hl]
        simp only [firstNul, if_pos hlt]
        rw [hm, get_at _ _ _ hlt]
        simp [h0, hlt]
      · obtain ⟨e1, e2⟩ := ih (i+1) (by omega) (by omega) (fun j hj hji => by
          by_cases hj2 : j = i
          · subst hj2; exact h0
          · exact hno j hj (by omega))
        simp only [firstNul, if_pos hlt]
        rw [hm, get_at _ _ _ hlt]
        simp only [Option.bind_eq_bind, Option.bind_some, if_neg h0]
        rw [← hm]
        exact ⟨e1, e2⟩
    · have hnn : 0 ∉ xs := by
        intro hmem
        obtain ⟨j, hj, hje⟩ := List.mem_iff_getElem.mp hmem
        exact hno j hj (by omega) hje
      rw [cstr_of_no_nul xs hnn]
      simp only [firstNul, if_neg hlt]
      exact ⟨trivial, by omega⟩

theorem cstr_prefix (xs : List UInt8) : xs = cstr xs ++ xs.drop (cstr xs).length := by
  induction xs with
  | nil => rfl
  | cons x xs ih =>
    by_cases hx : x = 0
    · simp [cstr, hx]
    · simp only [cstr, ne_eq] at ih ⊢
      rw [List.takeWhile_cons]
      simp only [hx, not_false_eq_true, decide_true, if_true, List.cons_append, List.length_cons, List.drop_succ_cons]
      rw [← ih]

theorem setMode_c_ok {b : Buf} {s : B} (h : Rep b s) :
    ∃ b', setMode b .cstring = some b' ∧ Rep b' { mode := .cstring, content := cstr s.content } ∧
      ((s.mode = .cstring ∧ Term b) ∨ 0 ∈ s.content → Term b') := by
  obtain ⟨rest, hm, hne⟩ := h.holds.ex
  obtain ⟨f1, f2⟩ := firstNul_ok hm (s.content.length + 1) 0 (by omega) (by omega) (by intro j hj h; omega)
  refine ⟨{ b with used := (cstr s.content).length, mode := .cstring }, by simp [setMode, h.used, f1], ⟨rfl, h.cap, rfl, ⟨(s.content.drop (cstr s.content).length).map some ++ rest, ?_, by simp [hne]⟩⟩, ?_⟩
  · simp only
    rw [hm, ← List.append_assoc, ← List.map_append, ← cstr_prefix]
  · intro hor
    simp only [Term]
    by_cases hl : (cstr s.content).length < s.content.length
    · have h3 := f2 hl
      rw [List.getElem?_eq_getElem hl] at h3
      rw [hm, get_at _ _ _ hl]
      exact h3
    · have heq : cstr s.content = s.content := by
        have h1 := cstr_prefix s.content
        rw [List.drop_of_length_le (by omega), List.append_nil] at h1
        exact h1.symm
      rcases hor with ⟨_, ht⟩ | h0
      · rw [heq]; simp only [Term, h.used] at ht; exact ht
      · exfalso
        rw [← heq] at h0
        exact cstr_no_nul _ h0

theorem filterLoop_ok {src : Buf} {s : B} (h : Rep src s) (p : UInt8 → Bool) (inv : Bool) (hnn : 0 ∉ s.content)
    (hsz : s.content.length + 3 ≤ 2 ^ 32) :
    ∀ fuel i out so, i ≤ s.content.length → s.content.length < i + fuel → Rep out so → so.mode = .cstring → Term out →
      so.content = (s.content.take i).filter (fun c => p c != inv) →
      ∃ out', filterLoop src p inv fuel i out = some out' ∧ Rep out' ⟨.cstring, s.content.filter (fun c => p c != inv)⟩ ∧ Term out' := by
  obtain ⟨rest, hm, hne⟩ := h.holds.ex
  intro fuel
  induction fuel with
  | zero => intro i out so h1 h2; omega
  | succ fuel ih =>
    intro i out so hi hf hrep hmode hterm hcont
    by_cases hlt : i < s.content.length
    · have hc0 : s.content[i] ≠ 0 := fun hh => hnn (hh ▸ List.getElem_mem hlt)
      have htest : (if inv = true then !p s.content[i] else p s.content[i]) = (p s.content[i] != inv) := by
        cases inv <;> simp
      have hlen : so.content.length ≤ i := by
        rw [hcont]
        have := List.length_filter_le (fun c => p c != inv) (s.content.take i)
        simp at this; omega
      simp only [filterLoop, h.used, if_pos hlt]
      rw [hm, get_at _ _ _ hlt]
      simp only [Option.bind_eq_bind, Option.bind_some, htest]
      have hnext : (s.content.take (i+1)).filter (fun c => p c != inv) = so.content ++ (if p s.content[i] != inv then [s.content[i]] else []) := by
        rw [List.take_succ_eq_append_getElem hlt, List.filter_append, hcont]
        congr 1
        simp only [List.filter_cons, List.filter_nil]
      cases ht : (p s.content[i] != inv)
      · simp only [Bool.false_eq_true, if_false, Option.bind_some]
        exact ih (i+1) out so (by omega) (by omega) hrep hmode hterm (by rw [hnext, ht]; simp)
      · obtain ⟨b', e1, e2, e3⟩ := appendChar_ok hrep s.content[i] (Or.inr hc0) (by omega)
        simp only [if_true, e1, Option.bind_some]
        exact ih (i+1) b' _ (by omega) (by omega) e2 hmode (e3 (fun _ => hterm) hmode) (by rw [hnext, ht]; simp)
    · have : i = s.content.length := by omega
      subst this
      simp only [filterLoop, h.used, Nat.lt_irrefl, if_false]
      refine ⟨out, rfl, ?_, hterm⟩
      rw [List.take_length] at hcont
      cases so
      simp only at hmode hcont
      subst hmode; subst hcont
      exact hrep

theorem new_ok (n : Nat) (hn : 0 < n) : ∃ b, newWithCapacity n = some b ∧ Rep b ⟨.cstring, []⟩ ∧ Term b := by
  refine ⟨⟨(List.replicate n none).set 0 (some 0), .cstring, n, 0⟩, by simp [newWithCapacity, CMem.write, hn], ⟨rfl, by simp, rfl, ⟨_, rfl, ?_⟩⟩, ?_⟩
  · intro hh; have := congrArg List.length hh; simp at this; omega
  · simp [Term, CMem.get, hn]

theorem data_ok {b : Buf} {s : B} (h : Rep b s) : data b = some s.content := by
  obtain ⟨rest, hm, _⟩ := h.holds.ex
  simp only [data, h.used]
  rw [hm, getRange_at _ _ _ _ (by omega)]
  simp

theorem rewrite_ok {b : Buf} {s : B} (h : Rep b s) (p : UInt8 → Bool) (inv : Bool) (hnn : 0 ∉ s.content)
    (hsz : s.content.length + 3 ≤ 2 ^ 32) :
    ∃ b', rewrite b p inv = some b' ∧ Rep b' { s with content := s.content.filter (fun c => p c != inv) } ∧ (s.mode = .cstring → Term b') := by
  obtain ⟨nb, n1, n2, n3⟩ := new_ok 4096 (by omega)
  obtain ⟨r, r1, r2, r3⟩ := filterLoop_ok h p inv hnn hsz (s.content.length + 1) 0 nb _ (by omega) (by omega) n2 rfl n3 (by simp)
  obtain ⟨c, c1, c2, c3⟩ := clear_ok h
  have hd := data_ok r2
  have hle := List.length_filter_le (fun c => p c != inv) s.content
  have hru := r2.used
  simp only at hd hru
  obtain ⟨b', e1, e2, e3⟩ := append_ok c2 (s.content.filter (fun c => p c != inv)) r.used (Or.inl (by rw [hru]; exact Nat.le_refl _)) (by simp; omega)
  refine ⟨b', ?_, ?_, e3 (fun _ => c3)⟩
  · simp [rewrite, filter, n1, h.used, r1, hd, set, c1, e1]
  · have : piece s.mode (s.content.filter (fun c => p c != inv)) r.used = s.content.filter (fun c => p c != inv) := by
      rw [hru]
      cases s.mode with
      | cstring =>
        simp only [piece, List.take_length]
        exact cstr_of_no_nul _ (fun hh => hnn (List.mem_filter.mp hh).1)
      | bytearray => simp [piece]
    simp only [List.nil_append] at e2
    rw [this] at e2
    exact e2

/-- The API call. -/
def exec (b : Buf) : Op → Option Buf
  | .append bytes len => append b bytes len
  | .set bytes len => set b bytes len
  | .appendString s => appendString b s
  | .appendChar c => appendChar b c
  | .clear => clear b
  | .trim max => trimToMaxLength b max
  | .appendF t => appendF b t
  | .printf t => printf b t
  | .rewrite keep inv => rewrite b keep inv
  | .toByteArray => setMode b .bytearray
  | .toCString => setMode b .cstring

def execs (b : Buf) : List Op → Option Buf
  | [] => some b
  | op :: ops => do
    let b ← exec b op
    execs b ops

/-- Switching to C-string mode leaves a terminator in place only if the buffer already was in that mode or holds a NUL. -/
def keepsTerm (s : B) : Op → Prop
  | .toCString => s.mode = .cstring ∨ 0 ∈ s.content
  | _ => True

theorem exec_ok {b : Buf} {s : B} (h : Rep b s) (op : Op) (hok : okOp s op) (hs : s.content.length + size op + 4 ≤ 2 ^ 32) :
    ∃ b', exec b op = some b' ∧ Rep b' (step s op) ∧ (step s op).content.length ≤ s.content.length + size op ∧
      ((s.mode = .cstring → Term b) → keepsTerm s op → (step s op).mode = .cstring → Term b') := by
  have hpl : ∀ bytes len, (piece s.mode bytes len).length ≤ bytes.length := by
    intro bytes len
    cases s.mode
    · simp only [piece, cstr]
      have := (List.takeWhile_sublist (fun x : UInt8 => decide (x ≠ 0)) (l := bytes.take len)).length_le
      simp at this ⊢; omega
    · simp [piece]; omega
  cases op with
  | append bytes len =>
    simp only [size] at hs
    obtain ⟨b', e1, e2, e3⟩ := append_ok h bytes len hok (by omega)
    exact ⟨b', e1, e2, by simp [step, size, hpl], fun ht _ hm => e3 ht hm⟩
  | set bytes len =>
    simp only [size] at hs
    obtain ⟨c, c1, c2, c3⟩ := clear_ok h
    obtain ⟨b', e1, e2, e3⟩ := append_ok c2 bytes len hok (by simp; omega)
    refine ⟨b', by simp [exec, set, c1, e1], e2, ?_, fun _ _ hm => e3 (fun _ => c3) hm⟩
    have := hpl bytes len
    simp [step, size]; omega
  | appendString t =>
    simp only [size] at hs
    obtain ⟨b', e1, e2, e3⟩ := appendString_ok h t (by omega)
    exact ⟨b', e1, e2, by simp [step, size], fun _ _ _ => e3⟩
  | appendChar c =>
    simp only [size] at hs
    obtain ⟨b', e1, e2, e3⟩ := appendChar_ok h c hok (by omega)
    exact ⟨b', e1, e2, by simp [step, size], fun ht _ hm => e3 ht hm⟩
  | clear =>
    obtain ⟨c, c1, c2, c3⟩ := clear_ok h
    exact ⟨c, c1, c2, by simp [step], fun _ _ _ => c3⟩
  | trim max =>
    obtain ⟨b', e1, e2, e3⟩ := trim_ok h max
    exact ⟨b', e1, e2, by simp [step]; omega, fun ht _ hm => e3 ht hm⟩
  | appendF t =>
    simp only [size] at hs
    obtain ⟨b', e1, e2, e3⟩ := appendF_ok h t (by omega)
    exact ⟨b', e1, e2, by simp [step, size], fun _ _ _ => e3⟩
  | printf t =>
    simp only [size] at hs
    obtain ⟨b', e1, e2, e3⟩ := printf_ok h t (by omega)
    exact ⟨b', e1, e2, by simp [step, size], fun _ _ _ => e3⟩
  | rewrite keep inv =>
    obtain ⟨b', e1, e2, e3⟩ := rewrite_ok h keep inv hok (by omega)
    exact ⟨b', e1, e2, by simp [step, size, List.length_filter_le], fun _ _ hm => e3 hm⟩
  | toByteArray =>
    exact ⟨{ b with mode := .bytearray }, by simp [exec, setMode], ⟨rfl, h.cap, h.used, h.holds⟩, by simp [step], fun _ _ hm => by cases hm⟩
  | toCString =>
    obtain ⟨b', e1, e2, e3⟩ := setMode_c_ok h
    refine ⟨b', e1, e2, ?_, ?_⟩
    · have := cstr_prefix s.content
      have := congrArg List.length this
      simp only [List.length_append] at this
      simp only [step]; omega
    · intro ht hk _
      rcases hk with hk | hk
      · exact e3 (Or.inl ⟨hk, ht hk⟩)
      · exact e3 (Or.inr hk)

def keepsTermRun (s : B) : List Op → Prop
  | [] => True
  | op :: ops => keepsTerm s op ∧ keepsTermRun (step s op) ops

theorem execs_ok : ∀ (ops : List Op) {b : Buf} {s : B}, Rep b s → okRun s ops → s.content.length + totalSize ops + 4 ≤ 2 ^ 32 →
    ∃ b', execs b ops = some b' ∧ Rep b' (run s ops) ∧
      ((s.mode = .cstring → Term b) → keepsTermRun s ops → (run s ops).mode = .cstring → Term b') := by
  intro ops
  induction ops with
  | nil => intro b s h _ _; exact ⟨b, rfl, h, fun ht _ hm => ht hm⟩
  | cons op ops ih =>
    intro b s h hok hs
    have hts : totalSize (op :: ops) = size op + totalSize ops := by simp [totalSize]
    obtain ⟨b1, e1, e2, e3, e4⟩ := exec_ok h op hok.1 (by omega)
    obtain ⟨b2, f1, f2, f3⟩ := ih e2 hok.2 (by omega)
    exact ⟨b2, by simp [execs, e1, f1], f2, fun ht hk hm => f3 (fun hm' => e4 ht hk.1 hm') hk.2 hm⟩

end Buffer
