import Verif.Props.Trim
import Verif.Model.Compat
import Verif.Spec.Compat
import Verif.Spec.Strings
/-! # C76-C80: the replacements for C library functions -/
namespace Compat
open CompatSpec

theorem isFirst_unique {P : Nat → Prop} {r s : Option Nat} (hr : IsFirst P r) (hs : IsFirst P s) : r = s := by
  cases r with
  | none => cases s with
    | none => rfl
    | some j => exact absurd hs.1 (hr j)
  | some i => cases s with
    | none => exact absurd hr.1 (hs i)
    | some j =>
      have h1 : ¬ i < j := fun h => hs.2 i h hr.1
      have h2 : ¬ j < i := fun h => hr.2 j h hs.1
      rw [show i = j by omega]

/-! ## memmem -/

theorem memmemInner_ok (h n : List UInt8) (start : Nat) : ∀ k len, len + k = n.length → n.take len <+: h.drop start →
    ∃ r, memmemInner h n start k len = some r ∧ (r = n.length ↔ n <+: h.drop start) := by
  intro k
  induction k with
  | zero =>
    intro len hl hp
    refine ⟨len, rfl, fun _ => ?_, fun _ => by omega⟩
    rwa [List.take_of_length_le (by omega)] at hp
  | succ k ih =>
    intro len hl hp
    rw [memmemInner.eq_def]
    simp only
    have hlen : len < n.length := by omega
    split
    · rename_i hlt
      simp only [CMem.read_eq hlt, CMem.read_eq hlen, Option.bind_eq_bind, Option.bind_some]
      obtain ⟨t, ht⟩ := hp
      have hget : h[start + len] = (h.drop start)[len]'(by simp; omega) := by simp
      have htl : (n.take len).length = len := by simp; omega
      split
      · rename_i heq
        refine ih (len + 1) (by omega) ?_
        have hd : h.drop (start + len) = h[start + len] :: h.drop (start + len + 1) := List.drop_eq_getElem_cons hlt
        have ht' : t = h.drop (start + len) := by
          have := congrArg (List.drop len) ht
          rw [List.drop_append_of_le_length (by omega), List.drop_of_length_le (by omega), List.nil_append, List.drop_drop] at this
          rw [this]
        refine ⟨h.drop (start + len + 1), ?_⟩
        rw [List.take_succ_eq_append_getElem hlen, List.append_assoc, ← ht, ht', hd, heq]
        rfl
      · rename_i hne
        refine ⟨len, rfl, fun h => by omega, fun hpre => ?_⟩
        exfalso
        apply hne
        obtain ⟨t', ht'⟩ := hpre
        rw [hget]
        simp only [← ht']
        rw [List.getElem_append_left hlen]
    · rename_i hge
      refine ⟨len, rfl, fun h => by omega, fun hpre => ?_⟩
      have := hpre.length_le
      simp at this
      omega

theorem memmemLoop_ok (h n : List UInt8) : ∀ k start, start + k = h.length →
    ∃ r, memmemLoop h n k start = some r ∧
      match r with
      | some i => start ≤ i ∧ i < h.length ∧ n <+: h.drop i ∧ ∀ j, start ≤ j → j < i → ¬ n <+: h.drop j
      | none => ∀ j, start ≤ j → j < h.length → ¬ n <+: h.drop j := by
  intro k
  induction k with
  | zero => intro start hs; exact ⟨none, rfl, fun j h1 h2 => by omega⟩
  | succ k ih =>
    intro start hs
    obtain ⟨r, e, hr⟩ := memmemInner_ok h n start n.length 0 (by omega) (by simp)
    rw [memmemLoop.eq_def]
    simp only [e, Option.bind_eq_bind, Option.bind_some]
    split
    · rename_i he
      exact ⟨some start, rfl, Nat.le_refl _, by omega, hr.mp he, fun j h1 h2 => by omega⟩
    · rename_i he
      obtain ⟨r', e', hr'⟩ := ih (start + 1) (by omega)
      refine ⟨r', e', ?_⟩
      have hns : ¬ n <+: h.drop start := fun hp => he (hr.mpr hp)
      cases r' with
      | some i =>
        obtain ⟨a, b, c, d⟩ := hr'
        refine ⟨by omega, b, c, fun j h1 h2 => ?_⟩
        by_cases hj : j = start
        · rw [hj]; exact hns
        · exact d j (by omega) h2
      | none =>
        intro j h1 h2
        by_cases hj : j = start
        · rw [hj]; exact hns
        · exact hr' j (by omega) h2

theorem occursAt_id (n h : List UInt8) (i : Nat) : OccursAt id n h i ↔ i ≤ h.length ∧ n <+: h.drop i := by simp [OccursAt]

/-- Nothing but the empty needle occurs at the very end. -/
theorem occursAt_end (f : UInt8 → UInt8) (n h : List UInt8) : OccursAt f n h h.length ↔ n = [] := by
  simp [OccursAt]

/-- C76. `memmem` returns the first occurrence, reading only inside its arguments. Missing: an empty needle in an empty haystack (see below). -/
theorem C76_memmem_partial (h n : List UInt8) (hne : h ≠ [] ∨ n ≠ []) : ∃ r, memmem h n = some r ∧ IsFirst (OccursAt id n h) r := by
  obtain ⟨r, e, hr⟩ := memmemLoop_ok h n h.length 0 (by omega)
  refine ⟨r, e, ?_⟩
  cases r with
  | some i =>
    obtain ⟨_, b, c, d⟩ := hr
    exact ⟨(occursAt_id _ _ _).mpr ⟨by omega, c⟩, fun j hj ho => d j (by omega) hj ((occursAt_id _ _ _).mp ho).2⟩
  | none =>
    intro j ho
    have h1 := (occursAt_id _ _ _).mp ho
    by_cases hj : j < h.length
    · exact hr j (by omega) hj h1.2
    · have hje : j = h.length := by omega
      rw [hje] at ho
      have hn := (occursAt_end _ _ _).mp ho
      have hh : h ≠ [] := hne.resolve_right fun x => x hn
      have hpos : 0 < h.length := List.length_pos_iff.mpr hh
      exact hr 0 (by omega) hpos (by rw [hn]; simp)

example : memmem [1, 2, 1, 2, 3] [1, 2, 3] = some (some 2) ∧ memmem [1, 2] [3] = some none ∧ memmem [1, 2] [2, 3] = some none := by decide

/-- The empty needle is not found in the empty haystack. -/
theorem C76_memmem_empty_negated : memmem [] [] = some none ∧ ¬ IsFirst (OccursAt id [] []) none := by
  refine ⟨rfl, fun h => h 0 ?_⟩
  simp [OccursAt]

/-! ## memrchr -/

theorem memrchrLoop_ok (s : List UInt8) (c : UInt8) : ∀ n, n ≤ s.length →
    ∃ r, memrchrLoop s c n = some r ∧
      match r with
      | some i => i < n ∧ s[i]? = some c ∧ ∀ j, i < j → j < n → s[j]? ≠ some c
      | none => ∀ j, j < n → s[j]? ≠ some c := by
  intro n
  induction n with
  | zero => intro _; exact ⟨none, rfl, fun j h => by omega⟩
  | succ n ih =>
    intro hn
    rw [memrchrLoop.eq_def]
    have hlt : n < s.length := by omega
    simp only [CMem.read_eq hlt, Option.bind_eq_bind, Option.bind_some]
    split
    · rename_i he
      exact ⟨_, rfl, by omega, by rw [List.getElem?_eq_getElem hlt, he], fun j h1 h2 => by omega⟩
    · rename_i he
      obtain ⟨r, e, hr⟩ := ih (by omega)
      have hx : s[n]? ≠ some c := by rw [List.getElem?_eq_getElem hlt]; simpa using he
      refine ⟨r, e, ?_⟩
      cases r with
      | some i =>
        refine ⟨by omega, hr.2.1, fun j h1 h2 => ?_⟩
        by_cases hj : j = n
        · rw [hj]; exact hx
        · exact hr.2.2 j h1 (by omega)
      | none =>
        intro j h1
        by_cases hj : j = n
        · rw [hj]; exact hx
        · exact hr j (by omega)

/-- C76. `memrchr` returns the last place of the byte, reading only inside its argument. -/
theorem C76_memrchr (s : List UInt8) (c : UInt8) : ∃ r, memrchr s c = some r ∧ IsLast (fun i => s[i]? = some c) r := by
  obtain ⟨r, e, hr⟩ := memrchrLoop_ok s c s.length (Nat.le_refl _)
  refine ⟨r, e, ?_⟩
  have hout : ∀ j, s[j]? = some c → j < s.length := fun j h => (List.getElem?_eq_some_iff.mp h).1
  cases r with
  | some i => exact ⟨hr.2.1, fun j hj h => hr.2.2 j hj (hout j h) h⟩
  | none => exact fun j h => hr j (hout j h) h

example : memrchr [5, 6, 5, 7] 5 = some (some 2) ∧ memrchr [] 5 = some none := by decide

/-! ## strstr, strcasestr -/

theorem cmpSignN_zero (f : UInt8 → UInt8) : ∀ (n s : List UInt8), Str.cmpSignN f n.length s n = 0 ↔ n.map f <+: s.map f := by
  intro n
  induction n with
  | nil => intro s; simp [Str.cmpSignN]
  | cons y ys ih =>
    intro s
    cases s with
    | nil => simp [Str.cmpSignN]
    | cons x xs =>
      simp only [List.length_cons, Str.cmpSignN, List.map_cons, List.cons_prefix_cons]
      split
      · rename_i he; rw [ih]; simp [he]
      · rename_i he
        split <;> simp [Ne.symm he]

theorem strstrLoop_ok (f : UInt8 → UInt8) (n : List UInt8) : ∀ (s : List UInt8) (i : Nat),
    match strstrLoop f n s i with
    | some r => ∃ d, r = i + d ∧ d < s.length ∧ n.map f <+: (s.drop d).map f ∧ ∀ j, j < d → ¬ n.map f <+: (s.drop j).map f
    | none => ∀ j, j < s.length → ¬ n.map f <+: (s.drop j).map f := by
  intro s
  induction s with
  | nil => intro i; simp [strstrLoop]
  | cons c s ih =>
    intro i
    rw [strstrLoop.eq_def]
    simp only
    by_cases hz : Str.cmpSignN f n.length (c :: s) n = 0
    · rw [if_pos hz]
      exact ⟨0, rfl, by simp, (cmpSignN_zero f n _).mp hz, fun j h => by omega⟩
    · rw [if_neg hz]
      have h0 : ¬ n.map f <+: (c :: s).map f := fun h => hz ((cmpSignN_zero f n _).mpr h)
      have := ih (i + 1)
      cases hs : strstrLoop f n s (i + 1) with
      | some r =>
        rw [hs] at this
        obtain ⟨d, hd, hl, hp, hj⟩ := this
        refine ⟨d + 1, by omega, by simp; omega, by simpa using hp, fun j hjd => ?_⟩
        cases j with
        | zero => exact h0
        | succ j => simpa using hj j (by omega)
      | none =>
        rw [hs] at this
        intro j hjl
        cases j with
        | zero => exact h0
        | succ j => simpa using this j (by simpa using hjl)

theorem strstrLoop_first (f : UInt8 → UInt8) (h n : List UInt8) (hne : h ≠ [] ∨ n ≠ []) : IsFirst (OccursAt f n h) (strstrLoop f n h 0) := by
  have := strstrLoop_ok f n h 0
  cases hr : strstrLoop f n h 0 with
  | some r =>
    rw [hr] at this
    obtain ⟨d, hd, hl, hp, hj⟩ := this
    rw [Nat.zero_add] at hd
    subst hd
    exact ⟨⟨by omega, hp⟩, fun j h1 h2 => hj j h1 h2.2⟩
  | none =>
    rw [hr] at this
    intro j ho
    by_cases hj : j < h.length
    · exact this j hj ho.2
    · have hje : j = h.length := by have := ho.1; omega
      rw [hje] at ho
      have hn := (occursAt_end _ _ _).mp ho
      have hh : h ≠ [] := hne.resolve_right fun x => x hn
      exact this 0 (List.length_pos_iff.mpr hh) (by rw [hn]; simp)

/-- C76. `strstr` returns the first occurrence. Missing: an empty needle in an empty haystack (see below). -/
theorem C76_strstr_partial (h n : List UInt8) (hne : h ≠ [] ∨ n ≠ []) : IsFirst (OccursAt id n h) (strstr h n) := strstrLoop_first id h n hne

/-- C76. `strcasestr` returns the first occurrence, ignoring the case of ASCII letters. Missing: an empty needle in an empty haystack (see below). -/
theorem C76_strcasestr_partial (h n : List UInt8) (hne : h ≠ [] ∨ n ≠ []) : IsFirst (OccursAt Str.toLower n h) (strcasestr h n) :=
  strstrLoop_first Str.toLower h n hne

example : strstr [97, 98, 97, 99] [97, 99] = some 2 ∧ strcasestr [120, 65, 98] [97, 66] = some 1 ∧ strstr [97] [98] = none := by decide

theorem C76_strstr_empty_negated : strstr [] [] = none ∧ strcasestr [] [] = none ∧ OccursAt id [] [] 0 ∧ OccursAt Str.toLower [] [] 0 := by
  simp [strstr, strcasestr, strstrLoop, OccursAt]

/-! ## strrstr -/

theorem strrstrLoop_ok (str pat : List UInt8) (hpat : pat ≠ []) : ∀ p, p + pat.length ≤ str.length →
    ∃ r, strrstrLoop str pat p = some r ∧
      match r with
      | some i => 0 < i ∧ i ≤ p ∧ pat <+: str.drop i ∧ ∀ j, i < j → j ≤ p → ¬ pat <+: str.drop j
      | none => ∀ j, 0 < j → j ≤ p → ¬ pat <+: str.drop j := by
  intro p
  induction p with
  | zero => intro _; exact ⟨none, rfl, fun j h1 h2 => by omega⟩
  | succ p ih =>
    intro hp
    rw [strrstrLoop.eq_def]
    have h1 : p + 1 < (cstr str).length := by simp [cstr]; omega
    have h2 : 0 < (cstr pat).length := by simp [cstr]
    simp only [CMem.read_eq h1, CMem.read_eq h2, Option.bind_eq_bind, Option.bind_some]
    have hz := cmpSignN_zero id pat (str.drop (p + 1))
    simp only [List.map_id_fun, id] at hz
    split
    · rename_i he
      exact ⟨_, rfl, by omega, by omega, hz.mp he.2, fun j _ _ => by omega⟩
    · rename_i he
      have hno : ¬ pat <+: str.drop (p + 1) := by
        intro hpre
        apply he
        refine ⟨?_, hz.mpr hpre⟩
        cases pat with
        | nil => exact absurd rfl hpat
        | cons a t =>
          obtain ⟨u, hu⟩ := hpre
          have hlt : p + 1 < str.length := by simp at hp; omega
          have : str.drop (p + 1) = str[p + 1] :: str.drop (p + 2) := List.drop_eq_getElem_cons hlt
          rw [this] at hu
          simp only [List.cons_append, List.cons.injEq] at hu
          simp only [cstr, List.cons_append, List.getElem_cons_zero]
          rw [List.getElem_append_left hlt, hu.1]
      obtain ⟨r, e, hr⟩ := ih (by omega)
      refine ⟨r, e, ?_⟩
      cases r with
      | some i =>
        refine ⟨hr.1, by omega, hr.2.2.1, fun j h1 h2 => ?_⟩
        by_cases hj : j = p + 1
        · rw [hj]; exact hno
        · exact hr.2.2.2 j h1 (by omega)
      | none =>
        intro j h1 h2
        by_cases hj : j = p + 1
        · rw [hj]; exact hno
        · exact hr j h1 (by omega)

/-- C76. `strrstr` returns the last occurrence that is not at the very beginning of the string, reading only inside its arguments. Missing: an occurrence at the
beginning (see below). -/
theorem C76_strrstr_partial (str pat : List UInt8) : ∃ r, strrstr str pat = some r ∧ IsLast (fun i => 0 < i ∧ OccursAt id pat str i) r := by
  unfold strrstr
  split
  · rename_i hl
    refine ⟨none, rfl, fun j h => ?_⟩
    have := ((occursAt_id _ _ _).mp h.2).2.length_le
    simp at this
    omega
  · rename_i hl
    by_cases hpat : pat = []
    · subst hpat
      cases hs : str with
      | nil => exact ⟨none, rfl, fun j h => by have := h.2.1; simp at this; omega⟩
      | cons c s =>
        refine ⟨some (s.length + 1), ?_, ⟨by omega, (occursAt_end id [] (c :: s)).mpr rfl⟩, fun j hj h => by have := h.2.1; simp at this; omega⟩
        have h1 : s.length + 1 < (cstr (c :: s)).length := by simp [cstr]
        have h2 : 0 < (cstr []).length := by simp [cstr]
        simp only [List.length_cons, List.length_nil, Nat.sub_zero, strrstrLoop, CMem.read_eq h1, CMem.read_eq h2, Option.bind_eq_bind, Option.bind_some]
        rw [if_pos]
        refine ⟨?_, by simp [Str.cmpSignN]⟩
        simp only [cstr, List.nil_append, List.getElem_cons_zero]
        rw [List.getElem_append_right (by simp)]
        simp
    · obtain ⟨r, e, hr⟩ := strrstrLoop_ok str pat hpat (str.length - pat.length) (by omega)
      refine ⟨r, e, ?_⟩
      have hout : ∀ j, OccursAt id pat str j → j ≤ str.length - pat.length ∧ pat <+: str.drop j := by
        intro j h
        have h1 := ((occursAt_id _ _ _).mp h)
        have h2 := h1.2.length_le
        simp at h2
        have : 0 < pat.length := List.length_pos_iff.mpr hpat
        exact ⟨by omega, h1.2⟩
      cases r with
      | some i =>
        refine ⟨⟨hr.1, (occursAt_id _ _ _).mpr ⟨by omega, hr.2.2.1⟩⟩, fun j hj h => hr.2.2.2 j hj (hout j h.2).1 (hout j h.2).2⟩
      | none => exact fun j h => hr j h.1 (hout j h.2).1 (hout j h.2).2

example : strrstr [120, 97, 98, 97, 98] [97, 98] = some (some 3) ∧ strrstr [120, 97] [98] = some none := by decide

/-- A string is not found in itself, although it occurs there. -/
theorem C76_strrstr_misses_the_beginning_negated (s : List UInt8) : strrstr s s = some none ∧ OccursAt id s s 0 := by
  refine ⟨by simp [strrstr, strrstrLoop], by simp [OccursAt]⟩

/-! ## strchrnul -/

/-- C76. `strchrnul` returns the first place of the character, or the terminator's. -/
theorem C76_strchrnul (s : List UInt8) (c : UInt8) :
    strchrnul s c ≤ s.length ∧ c ∉ s.take (strchrnul s c) ∧ (strchrnul s c < s.length → s[strchrnul s c]? = some c) := by
  unfold strchrnul
  cases hf : (cstr s).findIdx? (· == c) with
  | some i =>
    obtain ⟨h1, h2, h3⟩ := List.findIdx?_eq_some_iff_getElem.mp hf
    simp only [cstr, List.length_append, List.length_cons, List.length_nil] at h1
    refine ⟨by simp only; omega, ?_, ?_⟩
    · intro hm
      obtain ⟨j, hj, he⟩ := List.mem_iff_getElem.mp hm
      simp only [List.length_take] at hj
      have := h3 j (by omega)
      simp only [List.getElem_take] at he
      simp only [cstr] at this
      rw [List.getElem_append_left (by omega)] at this
      simp [he] at this
    · intro hlt
      simp only at hlt ⊢
      rw [List.getElem?_eq_getElem hlt]
      simp only [cstr] at h2
      rw [List.getElem_append_left hlt] at h2
      simpa using h2
  | none =>
    refine ⟨Nat.le_refl _, ?_, fun h => absurd h (Nat.lt_irrefl _)⟩
    rw [List.take_length]
    intro hm
    have := List.findIdx?_eq_none_iff.mp hf c (by simp [cstr, hm])
    simp at this

example : strchrnul [97, 98, 99] 98 = 1 ∧ strchrnul [97, 98, 99] 120 = 3 ∧ strchrnul [97] 0 = 1 := by decide

/-! ## Lengths and copies -/

theorem strnlenLoop_ok (m : List UInt8) : ∀ k cp, (∃ i, cp ≤ i ∧ i < cp + k ∧ m[i]? = some 0) ∨ cp + k ≤ m.length →
    strnlenLoop m k cp = some (cp + (((m.drop cp).takeWhile (· ≠ 0)).take k).length) := by
  intro k
  induction k with
  | zero => intro cp _; simp [strnlenLoop]
  | succ k ih =>
    intro cp h
    have hlt : cp < m.length := by
      rcases h with ⟨i, h1, _, h3⟩ | h
      · have := (List.getElem?_eq_some_iff.mp h3).1; omega
      · omega
    rw [strnlenLoop.eq_def]
    simp only [CMem.read_eq hlt, Option.bind_eq_bind, Option.bind_some]
    have hd : m.drop cp = m[cp] :: m.drop (cp + 1) := List.drop_eq_getElem_cons hlt
    rw [hd, List.takeWhile_cons]
    by_cases hz : m[cp] = 0
    · simp [hz]
    · have hz' : (decide (m[cp] ≠ 0)) = true := by simpa using hz
      rw [if_pos hz, hz', if_pos rfl, List.take_succ_cons, List.length_cons, ih (cp + 1) ?_]
      · congr 1; omega
      · rcases h with ⟨i, h1, h2, h3⟩ | h
        · left
          refine ⟨i, ?_, by omega, h3⟩
          have : i ≠ cp := by
            rintro rfl
            rw [List.getElem?_eq_getElem hlt] at h3
            exact hz (Option.some.inj h3)
          omega
        · right; omega

/-- C77. `strnlen(s, n)` on `n` bytes of memory, or on a terminated string, is the number of bytes before the terminator, at most `n`; it reads no further. -/
theorem C77_strnlen (m : List UInt8) (n : Nat) (h : n ≤ m.length ∨ ∃ i, i < n ∧ m[i]? = some 0) :
    strnlen m n = some ((m.takeWhile (· ≠ 0)).take n).length := by
  have := strnlenLoop_ok m n 0 (h.symm.imp (fun ⟨i, a, b⟩ => ⟨i, by omega, by omega, b⟩) (by omega))
  simpa [strnlen] using this

theorem takeWhile_prefix_eq {α : Type} (p : α → Bool) (l : List α) (n : Nat) : (l.takeWhile p).take n = l.take ((l.takeWhile p).take n).length := by
  have h : (l.takeWhile p).take n <+: l := (List.take_prefix n _).trans (List.takeWhile_prefix p)
  exact (List.prefix_iff_eq_take.mp h)

/-- C77. `strndup(s, n)` is a new block with exactly the (at most `n`) bytes of the string and a terminator. -/
theorem C77_strndup (m : List UInt8) (n : Nat) (h : n ≤ m.length ∨ ∃ i, i < n ∧ m[i]? = some 0) :
    strndup m n = some ((((m.takeWhile (· ≠ 0)).take n) ++ [0]).map some) := by
  have hl : ((m.takeWhile (· ≠ 0)).take n).length ≤ m.length := by
    have := ((List.take_prefix n (m.takeWhile (· ≠ 0))).trans (List.takeWhile_prefix _)).length_le
    exact this
  have htk := takeWhile_prefix_eq (fun x : UInt8 => decide (x ≠ 0)) m n
  generalize hL : ((m.takeWhile (· ≠ 0)).take n).length = L at *
  unfold strndup
  rw [C77_strnlen m n h, hL]
  simp only [Option.bind_eq_bind, Option.bind_some]
  have hm : CMem.memcpy (List.replicate (L + 1) none) 0 (m.map some) 0 L = some ((m.map some).take L ++ [none]) := by
    unfold CMem.memcpy
    rw [if_pos (by simp; omega)]
    simp
  rw [hm]
  simp only [Option.bind_some]
  have hlen : ((m.map some).take L).length = L := by simp; omega
  rw [CMem.write_eq (by simp; omega)]
  rw [htk]
  congr 1
  rw [List.set_append_right _ _ (by omega), hlen]
  simp

/-- C77. `strdup` copies the string with its terminator. -/
theorem C77_strdup (s : List UInt8) : strdup s = some ((s ++ [0]).map some) := by
  unfold strdup CMem.memcpy
  rw [if_pos (by simp [cstr])]
  simp [cstr]
  exact List.take_of_length_le (by simp)

/-- C77. `memdup` copies the block. -/
theorem C77_memdup (m : List UInt8) : memdup m = some (m.map some) := by
  unfold memdup CMem.memcpy
  rw [if_pos (by simp)]
  simp
  exact List.take_of_length_le (by simp)

example : strnlen [97, 98, 0, 99] 10 = some 2 ∧ strnlen [97, 98, 99] 2 = some 2 ∧ strnlen [97, 98] 3 = none ∧
    strndup [97, 98, 0, 99] 10 = some [some 97, some 98, some 0] ∧ strndup [97, 98, 99] 2 = some [some 97, some 98, some 0] := by decide

theorem zeroFill_ok : ∀ k j (d : List (Option UInt8)), j + k ≤ d.length → zeroFill k j d = some (d.take j ++ List.replicate k (some 0) ++ d.drop (j + k)) := by
  intro k
  induction k with
  | zero => intro j d _; simp [zeroFill]
  | succ k ih =>
    intro j d h
    rw [zeroFill.eq_def]
    simp only [CMem.write_eq (show j < d.length by omega), Option.bind_eq_bind, Option.bind_some]
    rw [ih (j + 1) _ (by simp; omega)]
    congr 1
    rw [List.take_succ_eq_append_getElem (by simp; omega), List.take_set_of_le (by omega), List.getElem_set_self, List.drop_set_of_lt (by omega)]
    simp only [List.append_assoc, List.cons_append, List.nil_append, List.replicate_succ]
    rw [show j + 1 + k = j + (k + 1) by omega]

theorem stpncpyLoop_ok (src : List UInt8) (h0 : 0 ∉ src) : ∀ k i (d : List (Option UInt8)), i ≤ src.length → i + k ≤ d.length →
    stpncpyLoop src k i d = some (min (i + k) src.length, d.take i ++ ((src.drop i).map some ++ List.replicate k (some 0)).take k ++ d.drop (i + k)) := by
  intro k
  induction k with
  | zero => intro i d hi h; simp [stpncpyLoop]; omega
  | succ k ih =>
    intro i d hi h
    rw [stpncpyLoop.eq_def]
    have hc : i < (cstr src).length := by simp [cstr]; omega
    simp only [CMem.read_eq hc, CMem.write_eq (show i < d.length by omega), Option.bind_eq_bind, Option.bind_some]
    by_cases he : i = src.length
    · have hz : (cstr src)[i] = 0 := by simp only [cstr]; rw [List.getElem_append_right (by omega)]; simp
      rw [if_pos hz, hz, zeroFill_ok k (i + 1) _ (by simp; omega)]
      simp only [Option.bind_some]
      congr 2
      · omega
      · rw [List.take_succ_eq_append_getElem (by simp; omega), List.take_set_of_le (by omega), List.getElem_set_self, List.drop_set_of_lt (by omega)]
        rw [List.drop_of_length_le (by omega : src.length ≤ i)]
        simp only [List.map_nil, List.nil_append, List.replicate_succ, List.take_succ_cons, List.take_replicate, Nat.min_self, List.append_assoc, List.cons_append]
        rw [show i + 1 + k = i + (k + 1) by omega]
    · have hlt : i < src.length := by omega
      have hz : (cstr src)[i] = src[i] := by simp only [cstr]; rw [List.getElem_append_left hlt]
      have hnz : src[i] ≠ 0 := fun h => h0 (h ▸ List.getElem_mem hlt)
      rw [hz, if_neg hnz, ih (i + 1) _ (by omega) (by simp; omega)]
      congr 2
      · omega
      · rw [List.take_succ_eq_append_getElem (by simp; omega), List.take_set_of_le (by omega), List.getElem_set_self, List.drop_set_of_lt (by omega)]
        rw [List.drop_eq_getElem_cons hlt]
        simp only [List.map_cons, List.cons_append, List.append_assoc, List.nil_append, List.take_succ_cons]
        rw [show i + 1 + k = i + (k + 1) by omega]
        congr 3
        rw [List.take_append, List.take_append]
        congr 1
        simp only [List.take_replicate, List.length_map]
        congr 1
        omega

/-- C77. `stpncpy(dst, src, len)` writes exactly `len` bytes: the string (cut at `len`), then zeros; it returns the place of the terminator, or `len` if there
was no room for one. For `len` below 2^31. -/
theorem C77_stpncpy (dst : List (Option UInt8)) (src : List UInt8) (len : Nat) (h0 : 0 ∉ src) (hl : len ≤ dst.length) (_ : len < 2147483648) :
    stpncpy dst src len = some (min len src.length, (src.map some ++ List.replicate len (some 0)).take len ++ dst.drop len) := by
  have := stpncpyLoop_ok src h0 len 0 dst (by omega) (by omega)
  simpa [stpncpy] using this

example : stpncpy [none, none, none, some 7] [97] 3 = some (1, [some 97, some 0, some 0, some 7]) ∧
    stpncpy [none, none, none, some 7] [97, 98, 99, 100] 3 = some (3, [some 97, some 98, some 99, some 7]) := by decide

/-! ## Case-insensitive comparison -/

theorem tolower_eq (x y : UInt8) : tolower x = tolower y ↔ Str.toLower x = Str.toLower y := by
  revert x y
  have h : ∀ x y : Fin 256, tolower (UInt8.ofNat x) = tolower (UInt8.ofNat y) ↔ Str.toLower (UInt8.ofNat x) = Str.toLower (UInt8.ofNat y) := by
    have hx : ∀ x : Fin 256, tolower (UInt8.ofNat x) = sc (Str.toLower (UInt8.ofNat x)) := by decide +kernel
    have hs : ∀ a b : UInt8, sc a = sc b → a = b := by
      intro a b hab
      unfold sc at hab
      have ha := a.toNat_lt; have hb := b.toNat_lt
      apply UInt8.toNat_inj.mp
      split at hab <;> split at hab <;> rename_i h1 h2 <;> simp only [UInt8.lt_iff_toNat_lt] at h1 h2 <;>
        simp at h1 h2 <;> omega
    intro x y
    rw [hx, hx]
    exact ⟨fun h => hs _ _ h, fun h => by rw [h]⟩
  intro x y
  have := h ⟨x.toNat, x.toNat_lt⟩ ⟨y.toNat, y.toNat_lt⟩
  simpa using this

/-- C78. `strcasecmp` is zero exactly for strings that agree up to the case of ASCII letters. -/
theorem C78_strcasecmp_zero (a b : List UInt8) : strcasecmp a b = 0 ↔ a.map Str.toLower = b.map Str.toLower := by
  induction a generalizing b with
  | nil => cases b <;> simp [strcasecmp]
  | cons x xs ih =>
    cases b with
    | nil => simp [strcasecmp]
    | cons y ys =>
      simp only [strcasecmp, List.map_cons, List.cons.injEq]
      rw [← tolower_eq x y]
      split
      · rename_i h; simp; intro h2; omega
      · split
        · rename_i h; simp; intro h2; omega
        · rw [ih]
          have : tolower x = tolower y := by omega
          simp [this]


theorem tolower_lt_ascii : ∀ x y : UInt8, x < 128 → y < 128 → (tolower x < tolower y ↔ Str.toLower x < Str.toLower y) := by
  intro x y hx hy
  have hs : ∀ x : UInt8, x < 128 → tolower x = ((Str.toLower x).toNat : Int) := by
    intro x
    exact Str.byte_all (P := fun x => x < 128 → tolower x = ((Str.toLower x).toNat : Int)) (by decide +kernel) x
  rw [hs x hx, hs y hy, UInt8.lt_iff_toNat_lt]
  omega

/-- C78 (part). For strings of ASCII characters, `strcasecmp` orders as the lexicographic order of the lower-cased strings. What is missing: bytes from 0x80 on, for
which it is false (see below). -/
theorem C78_strcasecmp_order_partial (a b : List UInt8) (ha : ∀ c ∈ a, c < 128) (hb : ∀ c ∈ b, c < 128) :
    strcasecmp a b = -1 ↔ a.map Str.toLower < b.map Str.toLower := by
  induction a generalizing b with
  | nil => cases b <;> simp [strcasecmp]
  | cons x xs ih =>
    cases b with
    | nil => simp [strcasecmp]
    | cons y ys =>
      have hx := ha x (by simp); have hy := hb y (by simp)
      have h1 := tolower_lt_ascii x y hx hy
      have h2 := tolower_lt_ascii y x hy hx
      have h3 := tolower_eq x y
      simp only [strcasecmp, List.map_cons, List.cons_lt_cons_iff]
      by_cases hl : tolower x < tolower y
      · simp [hl, h1.mp hl]
      · have hl' : ¬ Str.toLower x < Str.toLower y := fun h => hl (h1.mpr h)
        by_cases hg : tolower y < tolower x
        · have : Str.toLower x ≠ Str.toLower y := fun h => by have := h3.mpr h; omega
          simp [hl, hl', hg, this]
        · have he : tolower x = tolower y := by omega
          have := ih ys (fun c h => ha c (by simp [h])) (fun c h => hb c (by simp [h]))
          simp [hl, hl', hg, h3.mp he, this]

/-- C78, negative result. A byte from 0x80 on sorts before every ASCII character, because `char` is signed: POSIX orders them as `unsigned char`. -/
theorem C78_strcasecmp_high_bytes_first_not_unsigned : ∃ a b : List UInt8, 0 ∉ a ∧ 0 ∉ b ∧ strcasecmp a b = -1 ∧ b.map Str.toLower < a.map Str.toLower :=
  ⟨[200], [97], by decide, by decide, by decide, by decide⟩

/-- C78. Comparing at most `n` bytes is comparing the strings cut at `n` bytes. -/
theorem C78_strncasecmp (n : Nat) (a b : List UInt8) : strncasecmp n a b = strcasecmp (a.take n) (b.take n) := by
  induction n generalizing a b with
  | zero => simp [strncasecmp, strcasecmp]
  | succ n ih => cases a <;> cases b <;> simp [strncasecmp, strcasecmp, ih]

/-- C78. Exchanging the arguments exchanges the sign. -/
theorem C78_strcasecmp_antisymm (a b : List UInt8) : strcasecmp a b = - strcasecmp b a := by
  induction a generalizing b with
  | nil => cases b <;> simp [strcasecmp]
  | cons x xs ih =>
    cases b with
    | nil => simp [strcasecmp]
    | cons y ys =>
      simp only [strcasecmp]
      by_cases hl : tolower x < tolower y
      · have : ¬ tolower y < tolower x := by omega
        simp [hl, this]
      · by_cases hg : tolower y < tolower x
        · simp [hl, hg]
        · simp [hl, hg, ih]

example : strcasecmp [65, 98] [97, 66] = 0 ∧ strcasecmp [65] [97, 66] = -1 ∧ strcasecmp [90] [97, 66] = 1 ∧ strncasecmp 1 [65] [97, 66] = 0 := by decide

/-! ## strsep -/

theorem inSpan_eq (c : UInt8) (d : List UInt8) : inSpan c d = (decide (c ∈ d) || c == 0) := by
  induction d with
  | nil => simp [inSpan]
  | cons x xs ih =>
    rw [inSpan, ih]
    by_cases h : x = c
    · simp [h]
    · have h' : ¬ c = x := fun e => h e.symm
      simp [h, h']

theorem strsepLoop_last (delim tok : List UInt8) (h0 : ∀ c ∈ tok, c ≠ 0 ∧ c ∉ delim) : ∀ pre fuel, tok.length < fuel →
    strsepLoop delim (pre ++ tok ++ [0]) pre.length fuel = some (pre ++ tok ++ [0], none) := by
  induction tok with
  | nil =>
    intro pre fuel hf
    obtain ⟨f, rfl⟩ : ∃ f, fuel = f + 1 := ⟨fuel - 1, by simp at hf; omega⟩
    rw [strsepLoop.eq_def]
    simp only [CMem.read_eq (show pre.length < (pre ++ [] ++ [0]).length by simp), Option.bind_eq_bind, Option.bind_some]
    simp [inSpan_eq]
  | cons c tok ih =>
    intro pre fuel hf
    obtain ⟨f, rfl⟩ : ∃ f, fuel = f + 1 := ⟨fuel - 1, by simp at hf; omega⟩
    rw [strsepLoop.eq_def]
    have hc := h0 c (by simp)
    simp only [CMem.read_eq (show pre.length < (pre ++ c :: tok ++ [0]).length by simp), Option.bind_eq_bind, Option.bind_some]
    have := ih (fun x h => h0 x (by simp [h])) (pre ++ [c]) f (by simp at hf; omega)
    simp [inSpan_eq, hc.1, hc.2] at this ⊢
    exact this

theorem strsepLoop_sep (delim tok : List UInt8) (d : UInt8) (r : List UInt8) (hd : d ∈ delim) (hd0 : d ≠ 0) (h0 : ∀ c ∈ tok, c ≠ 0 ∧ c ∉ delim) : ∀ pre fuel, tok.length < fuel →
    strsepLoop delim (pre ++ tok ++ d :: r) pre.length fuel = some (pre ++ tok ++ 0 :: r, some (pre.length + tok.length + 1)) := by
  induction tok with
  | nil =>
    intro pre fuel hf
    obtain ⟨f, rfl⟩ : ∃ f, fuel = f + 1 := ⟨fuel - 1, by simp at hf; omega⟩
    rw [strsepLoop.eq_def]
    simp only [CMem.read_eq (show pre.length < (pre ++ [] ++ d :: r).length by simp), CMem.write_eq (show pre.length < (pre ++ [] ++ d :: r).length by simp), Option.bind_eq_bind, Option.bind_some]
    simp [inSpan_eq, hd, hd0]
  | cons c tok ih =>
    intro pre fuel hf
    obtain ⟨f, rfl⟩ : ∃ f, fuel = f + 1 := ⟨fuel - 1, by simp at hf; omega⟩
    rw [strsepLoop.eq_def]
    have hc := h0 c (by simp)
    simp only [CMem.read_eq (show pre.length < (pre ++ c :: tok ++ d :: r).length by simp), Option.bind_eq_bind, Option.bind_some]
    have := ih (fun x h => h0 x (by simp [h])) (pre ++ [c]) f (by simp at hf; omega)
    simp [inSpan_eq, hc.1, hc.2] at this ⊢
    rw [this, show pre.length + 1 + tok.length + 1 = pre.length + (tok.length + 1) + 1 by omega]

/-- A caller that takes tokens until `strsep` returns NULL, and reads each returned string: the tokens and the memory at the end (at most `fuel` calls). -/
def sepAll (delim : List UInt8) : (fuel : Nat) → List UInt8 → Option Nat → Option (List (List UInt8) × List UInt8)
  | 0, _, _ => none
  | fuel + 1, m, p => do
    let r ← strsep delim m p
    match r.1 with
    | none => some ([], r.2.1)
    | some t => do
      let rest ← sepAll delim fuel r.2.1 r.2.2
      some ((r.2.1.drop t).takeWhile (· ≠ 0) :: rest.1, rest.2)

theorem sepAll_ok (delim : List UInt8) (hd0 : 0 ∉ delim) : ∀ (n : Nat) (s pre : List UInt8) (fuel : Nat), s.length ≤ n → 0 ∉ s → s.length + 1 < fuel →
    sepAll delim fuel (pre ++ s ++ [0]) (some pre.length) =
      some (TokenSpec.pieces (fun c => decide (c ∈ delim)) s, pre ++ s.map (fun c => if c ∈ delim then 0 else c) ++ [0]) := by
  intro n
  induction n with
  | zero =>
    intro s pre fuel hn h0 hf
    have : s = [] := List.length_eq_zero_iff.mp (by omega)
    subst this
    obtain ⟨f, rfl⟩ : ∃ f, fuel = f + 2 := ⟨fuel - 2, by simp at hf; omega⟩
    have := strsepLoop_last delim [] (by simp) pre ((pre ++ [] ++ [(0 : UInt8)]).length + 1) (by simp)
    simp only [sepAll, strsep, this, Option.bind_eq_bind, Option.bind_some]
    simp [TokenSpec.pieces]
  | succ n ih =>
    intro s pre fuel hn h0 hf
    obtain ⟨f, rfl⟩ : ∃ f, fuel = f + 2 := ⟨fuel - 2, by omega⟩
    obtain ⟨tok, rest, hs, htok, hrest⟩ : ∃ tok rest, s = tok ++ rest ∧ (∀ c ∈ tok, c ∉ delim) ∧ (rest = [] ∨ ∃ d r, rest = d :: r ∧ d ∈ delim) := by
      clear ih hn hf h0
      induction s with
      | nil => exact ⟨[], [], rfl, by simp, Or.inl rfl⟩
      | cons c s ihs =>
        by_cases hc : c ∈ delim
        · exact ⟨[], c :: s, rfl, by simp, Or.inr ⟨c, s, rfl, hc⟩⟩
        · obtain ⟨tok, rest, h1, h2, h3⟩ := ihs
          exact ⟨c :: tok, rest, by simp [h1], by simpa [hc] using h2, h3⟩
    have hp : ∀ (tok rest : List UInt8), (∀ c ∈ tok, c ∉ delim) → (rest = [] ∨ ∃ d r, rest = d :: r ∧ d ∈ delim) →
        TokenSpec.pieces (fun c => decide (c ∈ delim)) (tok ++ rest) = tok :: (match rest with | [] => [] | _ :: r => TokenSpec.pieces (fun c => decide (c ∈ delim)) r) := by
      intro tok rest h1 h2
      induction tok with
      | nil =>
        rcases h2 with rfl | ⟨d, r, rfl, hd⟩
        · simp [TokenSpec.pieces]
        · simp [TokenSpec.pieces, hd]
      | cons c tok iht =>
        have := iht (fun x h => h1 x (by simp [h]))
        simp [TokenSpec.pieces, h1 c (by simp), this]
    have hm : tok.map (fun c => if c ∈ delim then 0 else c) = tok := by
      conv => rhs; rw [← List.map_id tok]
      apply List.map_congr_left
      intro c hc
      simp [htok c hc]
    have ht0 : ∀ c ∈ tok, c ≠ 0 ∧ c ∉ delim := fun c h => ⟨fun e => h0 (by rw [hs, ← e]; simp [h]), htok c h⟩
    have htw : ∀ q, (pre ++ tok ++ 0 :: q).drop pre.length = tok ++ 0 :: q := by intro q; simp
    have htw2 : ∀ q, (tok ++ (0 : UInt8) :: q).takeWhile (· ≠ 0) = tok := by
      intro q
      rw [List.takeWhile_append_of_pos (by intro c h; simpa using (ht0 c h).1)]
      simp
    rw [hs, hp tok rest htok hrest]
    rcases hrest with rfl | ⟨d, r, rfl, hd⟩
    · have h := strsepLoop_last delim tok ht0 pre ((pre ++ tok ++ [(0 : UInt8)]).length + 1) (by simp; omega)
      simp only [List.append_nil, sepAll, strsep, h, Option.bind_eq_bind, Option.bind_some, htw, htw2, hm]
    · have h := strsepLoop_sep delim tok d (r ++ [0]) hd (fun e => hd0 (e ▸ hd)) ht0 pre ((pre ++ tok ++ d :: (r ++ [(0 : UInt8)])).length + 1) (by simp; omega)
      rw [sepAll]
      have e : pre ++ (tok ++ d :: r) ++ [0] = pre ++ tok ++ d :: (r ++ [0]) := by simp
      rw [e]
      simp only [strsep, h, Option.bind_eq_bind, Option.bind_some, htw, htw2]
      have h2 := ih r (pre ++ tok ++ [0]) (f + 1) (by rw [hs] at hn; simp at hn; omega) (fun e => h0 (by rw [hs]; simp [e])) (by rw [hs] at hf; simp at hf; omega)
      have e2 : pre ++ tok ++ [0] ++ r ++ [0] = pre ++ tok ++ 0 :: (r ++ [0]) := by simp
      have e3 : (pre ++ tok ++ [(0 : UInt8)]).length = pre.length + tok.length + 1 := by simp; omega
      rw [e2, e3] at h2
      rw [h2]
      simp [hd, hm]

/-- C79. Taking tokens with `strsep` until NULL gives exactly the pieces between the separators, empty ones included, in order; the memory ends with every separator
overwritten by a terminator and nothing else changed, and no access is out of bounds. -/
theorem C79_strsep_all (delim s : List UInt8) (hd : 0 ∉ delim) (hs : 0 ∉ s) (fuel : Nat) (hf : s.length + 1 < fuel) :
    sepAll delim fuel (cstr s) (some 0) = some (TokenSpec.pieces (fun c => decide (c ∈ delim)) s, cstr (s.map fun c => if c ∈ delim then 0 else c)) := by
  have := sepAll_ok delim hd s.length s [] fuel (Nat.le_refl _) hs hf
  simpa [cstr] using this

/-- C79. A NULL string has no token. -/
theorem C79_strsep_null (delim m : List UInt8) : strsep delim m none = some (none, m, none) := rfl

example : sepAll [44, 59] 9 (cstr [97, 44, 59, 98]) (some 0) = some ([[97], [], [98]], [97, 0, 0, 98, 0]) := by decide

/-! ## getline -/

end Compat

namespace CompatSpec

def cutLine (d : UInt8) : List UInt8 → List UInt8 × List UInt8
  | [] => ([], [])
  | c :: s => if c = d then ([c], s) else (c :: (cutLine d s).1, (cutLine d s).2)

theorem cutLine_of_isLine {d : UInt8} {line rest stream : List UInt8} (h : IsLine d line rest stream) : cutLine d stream = (line, rest) ∧ line ≠ [] := by
  obtain ⟨rfl, hne, hm, he⟩ := h
  refine ⟨?_, hne⟩
  induction line with
  | nil => exact absurd rfl hne
  | cons c l ih =>
    cases l with
    | nil =>
      by_cases hc : c = d
      · simp [cutLine, hc]
      · have : rest = [] := by
          by_cases hr : rest = []
          · exact hr
          · have := he hr; simp at this; exact absurd this hc
        subst this
        simp [cutLine, hc]
    | cons x xs =>
      have hc : c ≠ d := by rintro rfl; simp at hm
      have := ih (by simp) (fun h => hm (by simp only [List.dropLast_cons_cons]; exact List.mem_cons_of_mem _ h)) (fun h => by simpa using he h)
      rw [List.cons_append, cutLine, if_neg hc, this]

theorem exists_line (d : UInt8) (s : List UInt8) (h : s ≠ []) : ∃ line rest, IsLine d line rest s := by
  induction s with
  | nil => exact absurd rfl h
  | cons c s ih =>
    by_cases hc : c = d
    · exact ⟨[c], s, by simp [IsLine, hc]⟩
    · by_cases hs : s = []
      · exact ⟨[c], [], by simp [IsLine, hs]⟩
      · obtain ⟨l, r, e, hne, hm, he⟩ := ih hs
        refine ⟨c :: l, r, by simp [e], by simp, ?_, ?_⟩
        · rw [List.dropLast_cons_of_ne_nil hne]
          simp [hm, Ne.symm hc]
        · intro hr
          rw [List.getLast?_cons, he hr]; rfl

end CompatSpec

namespace Compat

theorem regrow_eq (b : List (Option UInt8)) (n : Nat) (h : b.length ≤ n) : regrow (some b) n = b ++ List.replicate (n - b.length) none := by
  simp [regrow, CMem.realloc, List.take_of_length_le h]

theorem getdelimLoop_ok (d : UInt8) : ∀ (s : List UInt8) (buf : List (Option UInt8)) (n bytes : Nat), n ≤ buf.length → bytes + 2 ≤ n →
    ∃ buf' n', getdelimLoop d s buf n bytes = some (buf', n', bytes + (CompatSpec.cutLine d s).1.length, (CompatSpec.cutLine d s).2) ∧ n' ≤ buf'.length ∧
      bytes + (CompatSpec.cutLine d s).1.length + 2 ≤ n' ∧
      buf'.take (bytes + (CompatSpec.cutLine d s).1.length) = buf.take bytes ++ (CompatSpec.cutLine d s).1.map some := by
  intro s
  induction s with
  | nil => intro buf n bytes h1 h2; exact ⟨buf, n, by simp [getdelimLoop, CompatSpec.cutLine], h1, by simpa [CompatSpec.cutLine] using h2, by simp [CompatSpec.cutLine]⟩
  | cons c s ih =>
    intro buf n bytes h1 h2
    obtain ⟨b1, n1, hb, hn, ht, hlen1, hlen2⟩ : ∃ b1 n1, (if bytes + 1 ≥ n - 1 then regrow (some buf) (n + growBy) else buf) = b1 ∧
        (if bytes + 1 ≥ n - 1 then n + growBy else n) = n1 ∧ b1.take bytes = buf.take bytes ∧ n1 ≤ b1.length ∧ bytes + 3 ≤ n1 := by
      refine ⟨_, _, rfl, rfl, ?_⟩
      by_cases hg : bytes + 1 ≥ n - 1
      · rw [if_pos hg, if_pos hg]
        simp only [regrow, CMem.realloc, Option.getD_some, growBy]
        refine ⟨?_, by simp; omega, by omega⟩
        rw [List.take_append_of_le_length (by simp; omega), List.take_take]
        congr 1; omega
      · rw [if_neg hg, if_neg hg]
        exact ⟨rfl, h1, by omega⟩
    rw [getdelimLoop.eq_def]
    simp only [hb, hn, CMem.write_eq (show bytes < b1.length by omega), Option.bind_eq_bind, Option.bind_some]
    have htk : (b1.set bytes (some c)).take (bytes + 1) = buf.take bytes ++ [some c] := by
      rw [List.take_succ_eq_append_getElem (by simp; omega), List.take_set_of_le (by omega), List.getElem_set_self, ht]
    by_cases hc : c = d
    · refine ⟨b1.set bytes (some c), n1, ?_⟩
      simp only [CompatSpec.cutLine, hc, if_true]
      subst hc
      exact ⟨by simp, by simpa using hlen1, by simp; omega, by simpa using htk⟩
    · obtain ⟨b', n', e1, e2, e3, e4⟩ := ih (b1.set bytes (some c)) n1 (bytes + 1) (by simpa using hlen1) (by omega)
      refine ⟨b', n', ?_⟩
      simp only [CompatSpec.cutLine, hc, if_false, List.length_cons, List.map_cons]
      refine ⟨by rw [e1, show bytes + 1 + (CompatSpec.cutLine d s).1.length = bytes + ((CompatSpec.cutLine d s).1.length + 1) by omega], e2, by omega, ?_⟩
      rw [show bytes + ((CompatSpec.cutLine d s).1.length + 1) = bytes + 1 + (CompatSpec.cutLine d s).1.length by omega, e4, htk]
      simp

/-- C80. `getline`/`getdelim` on an error-free stream with characters left, given NULL or a block of at least `*n` bytes: returns the length of the next line, its delimiter
included; the buffer holds exactly that line and a terminator; `*n` is at most the size of the block; the stream stands after the line. No access is out of bounds. -/
theorem C80_getline_some (d : UInt8) (lineptr : Option (List (Option UInt8))) (n : Nat) (stream : List UInt8) (hp : ∀ b, lineptr = some b → n ≤ b.length)
    (line rest : List UInt8) (hl : CompatSpec.IsLine d line rest stream) :
    ∃ buf n', getdelim d lineptr n stream = some (buf, n', rest, some line.length) ∧ n' ≤ buf.length ∧
      buf.take (line.length + 1) = (line ++ [0]).map some := by
  obtain ⟨hcut, hne⟩ := CompatSpec.cutLine_of_isLine hl
  obtain ⟨b0, n0, hb, hn, hb0, hn0⟩ : ∃ b0 n0, (if lineptr.isNone ∨ n < minLen then regrow lineptr growBy else lineptr.getD []) = b0 ∧
      (if lineptr.isNone ∨ n < minLen then growBy else n) = n0 ∧ n0 ≤ b0.length ∧ 4 ≤ n0 := by
    refine ⟨_, _, rfl, rfl, ?_⟩
    by_cases h : lineptr.isNone ∨ n < minLen
    · rw [if_pos h, if_pos h]
      simp [regrow, CMem.realloc, growBy]
      omega
    · rw [if_neg h, if_neg h]
      cases lineptr with
      | none => simp at h
      | some b => simp [minLen] at h; exact ⟨hp b rfl, h⟩
  obtain ⟨b', n', e1, e2, e3, e4⟩ := getdelimLoop_ok d stream b0 n0 0 hb0 (by omega)
  simp only [hcut, Nat.zero_add, List.take_zero, List.nil_append] at e1 e2 e3 e4
  have hpos : line.length ≠ 0 := by simpa using hne
  refine ⟨b'.set line.length (some 0), n', ?_, by simpa using e2, ?_⟩
  · unfold getdelim
    simp only [hb, hn, e1, Option.bind_eq_bind, Option.bind_some, hpos, if_false]
    rw [CMem.write_eq (by omega)]
    rfl
  · rw [List.take_succ_eq_append_getElem (by simp; omega), List.take_set_of_le (by omega), List.getElem_set_self, e4]
    simp

/-- C80. At the end of the stream it returns -1. -/
theorem C80_getline_eof (d : UInt8) (lineptr : Option (List (Option UInt8))) (n : Nat) :
    ∃ buf n', getdelim d lineptr n [] = some (buf, n', [], none) := by
  exact ⟨_, _, by simp [getdelim, getdelimLoop]; exact ⟨rfl, rfl⟩⟩

/-- A caller that reads lines into one growing buffer until -1 (at most `fuel` calls): the lines, as the returned length delimits them. -/
def getAll (d : UInt8) : (fuel : Nat) → Option (List (Option UInt8)) → Nat → List UInt8 → Option (List (List (Option UInt8)))
  | 0, _, _, _ => none
  | fuel + 1, lineptr, n, stream => do
    let r ← getdelim d lineptr n stream
    match r.2.2.2 with
    | none => some []
    | some len => do
      let rest ← getAll d fuel (some r.1) r.2.1 r.2.2.1
      some (r.1.take len :: rest)

/-- C80. Reading until -1 gives lines that concatenate to the whole stream, every one non-empty and with a delimiter only at its end, every one but the last with one. -/
theorem C80_getline_all (d : UInt8) (stream : List UInt8) (lineptr : Option (List (Option UInt8))) (n : Nat) (hp : ∀ b, lineptr = some b → n ≤ b.length)
    (fuel : Nat) (hf : stream.length < fuel) :
    ∃ lines : List (List UInt8), getAll d fuel lineptr n stream = some (lines.map (·.map some)) ∧ lines.flatten = stream ∧
      (∀ l ∈ lines, l ≠ [] ∧ d ∉ l.dropLast) ∧ (∀ l ∈ lines.dropLast, l.getLast? = some d) := by
  induction fuel generalizing stream lineptr n with
  | zero => omega
  | succ fuel ih =>
    by_cases hs : stream = []
    · subst hs
      obtain ⟨b, n', e⟩ := C80_getline_eof d lineptr n
      exact ⟨[], by simp [getAll, e], by simp, by simp, by simp⟩
    · obtain ⟨line, rest, hl⟩ := CompatSpec.exists_line d stream hs
      obtain ⟨buf, n', e1, e2, e3⟩ := C80_getline_some d lineptr n stream hp line rest hl
      obtain ⟨he, hne, hmid, hend⟩ := hl
      have hpos : 0 < line.length := List.length_pos_iff.mpr hne
      obtain ⟨ls, f1, f2, f3, f4⟩ := ih rest (some buf) n' (fun b hb => by cases hb; exact e2) (by rw [he] at hf; simp at hf; omega)
      have htk : buf.take line.length = line.map some := by
        have := congrArg (List.take line.length) e3
        rw [List.take_take] at this
        simpa [Nat.min_eq_left (Nat.le_succ line.length)] using this
      refine ⟨line :: ls, ?_, by simp [f2, he], ?_, ?_⟩
      · simp [getAll, e1, f1, htk]
      · intro l hl
        rcases List.mem_cons.mp hl with rfl | hl
        · exact ⟨hne, hmid⟩
        · exact f3 l hl
      · intro l hl
        cases hls : ls with
        | nil => rw [hls] at hl; simp at hl
        | cons a as =>
          rw [hls] at hl
          rw [List.dropLast_cons_of_ne_nil (by simp)] at hl
          rcases List.mem_cons.mp hl with rfl | hl
          · apply hend
            intro hr
            rw [hr, hls] at f2
            have := (f3 a (by rw [hls]; simp)).1
            simp at f2
            exact this f2.1
          · exact f4 l (by rw [hls]; exact hl)

example : ((getdelim 10 (some (List.replicate 4 none)) 4 [97, 98, 99, 100, 10, 101]).map fun r => (r.2.2, r.1.take 6)) =
    some (([101], some 5), [some 97, some 98, some 99, some 100, some 10, some 0]) := by decide +kernel

end Compat
