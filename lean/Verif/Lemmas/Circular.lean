import Verif.Model.ThreadedQueue
import Verif.Lemmas.Stack
/-! # Circular arrays: a list represented from `head` on, wrapping at `cap` -/
namespace Circ

theorem mod_case {a c : Nat} (h : a < 2 * c) : a % c = if a < c then a else a - c := by
  split
  · exact Nat.mod_eq_of_lt (by assumption)
  · rw [Nat.mod_eq_sub_mod (by omega), Nat.mod_eq_of_lt (by omega)]

/-- `l` is stored in `data` from `head` on. -/
structure Rep {P : Type} (data : List (Option P)) (cap head : Nat) (l : List P) : Prop where
  len : data.length = cap
  head_lt : head < cap
  fits : l.length ≤ cap
  at_ : ∀ (i : Nat) (h : i < l.length), data[(head + i) % cap]? = some (some l[i])

theorem Rep.get {P : Type} {data : List (Option P)} {cap head : Nat} {l : List P} (r : Rep data cap head l) {i : Nat}
    (h : i < l.length) : CMem.get data ((head + i) % cap) = some l[i] := by
  simp [CMem.get, r.at_ i h]

theorem rep_new {P : Type} {data : List (Option P)} {cap head : Nat} (h : data.length = cap) (hh : head < cap) :
    Rep data cap head ([] : List P) := ⟨h, hh, by simp, by intro i h; simp at h⟩

/-- Taking the first element. -/
theorem Rep.popFirst {P : Type} {data : List (Option P)} {cap head : Nat} {x : P} {l : List P} (r : Rep data cap head (x :: l)) :
    CMem.get data head = some x ∧ CMem.write data head none = some (data.set head none) ∧
      Rep (data.set head none) cap ((head + 1) % cap) l := by
  have hl := r.fits
  have hh := r.head_lt
  simp only [List.length_cons] at hl
  refine ⟨?_, CMem.write_eq (by rw [r.len]; exact hh), by simp [r.len], Nat.mod_lt _ (by omega), by omega, ?_⟩
  · have := r.get (i := 0) (by simp)
    simpa [Nat.mod_eq_of_lt hh] using this
  · intro i hi
    have e := r.at_ (i + 1) (by simp; omega)
    have h1 : ((head + 1) % cap + i) % cap = (head + (i + 1)) % cap := by
      rw [Nat.add_mod, Nat.mod_mod, ← Nat.add_mod]; congr 1; omega
    rw [h1]
    have h2 : (head + (i + 1)) % cap ≠ head := by
      rw [mod_case (by omega)]; split <;> omega
    rw [List.getElem?_set_ne (Ne.symm h2), e]; simp

/-- Adding at the end. -/
theorem Rep.pushLast {P : Type} {data : List (Option P)} {cap head : Nat} {l : List P} (r : Rep data cap head l)
    (hlt : l.length < cap) (x : P) :
    CMem.write data ((head + l.length) % cap) (some x) = some (data.set ((head + l.length) % cap) (some x)) ∧
      Rep (data.set ((head + l.length) % cap) (some x)) cap head (l ++ [x]) := by
  have hh := r.head_lt
  have hm : (head + l.length) % cap < data.length := by rw [r.len]; exact Nat.mod_lt _ (by omega)
  refine ⟨CMem.write_eq hm, by simp [r.len], hh, by simp; omega, ?_⟩
  intro i hi
  simp only [List.length_append, List.length_singleton] at hi
  by_cases hc : i = l.length
  · subst hc; simp [hm]
  · have h2 : (head + l.length) % cap ≠ (head + i) % cap := by
      rw [mod_case (by omega), mod_case (by omega)]; split <;> split <;> omega
    rw [List.getElem?_set_ne h2, r.at_ i (by omega)]
    rw [List.getElem_append_left (by omega)]

/-- Adding in front. -/
theorem Rep.pushFirst {P : Type} {data : List (Option P)} {cap head : Nat} {l : List P} (r : Rep data cap head l)
    (hlt : l.length < cap) (x : P) :
    CMem.write data (TD.down cap head) (some x) = some (data.set (TD.down cap head) (some x)) ∧
      Rep (data.set (TD.down cap head) (some x)) cap (TD.down cap head) (x :: l) := by
  have hh := r.head_lt
  have hd : TD.down cap head < cap := by unfold TD.down; split <;> omega
  refine ⟨CMem.write_eq (by rw [r.len]; exact hd), by simp [r.len], hd, by simp; omega, ?_⟩
  intro i hi
  simp only [List.length_cons] at hi
  cases i with
  | zero => simp [Nat.mod_eq_of_lt hd, r.len, hd]
  | succ i =>
    have h1 : (TD.down cap head + (i + 1)) % cap = (head + i) % cap := by
      unfold TD.down
      split
      · rename_i h0; subst h0
        rw [show cap - 1 + (i + 1) = cap + i by omega, Nat.add_mod_left, Nat.zero_add]
      · congr 1; omega
    rw [h1]
    have h2 : TD.down cap head ≠ (head + i) % cap := by
      rw [mod_case (by omega)]; unfold TD.down; split <;> split <;> omega
    rw [List.getElem?_set_ne h2, r.at_ i (by omega)]; simp

/-- Taking the last element. -/
theorem Rep.popLast {P : Type} {data : List (Option P)} {cap head : Nat} {x : P} {l : List P} (r : Rep data cap head (l ++ [x])) :
    CMem.get data ((head + l.length) % cap) = some x ∧
      CMem.write data ((head + l.length) % cap) none = some (data.set ((head + l.length) % cap) none) ∧
      Rep (data.set ((head + l.length) % cap) none) cap head l := by
  have hl := r.fits
  have hh := r.head_lt
  simp only [List.length_append, List.length_singleton] at hl
  have hm : (head + l.length) % cap < data.length := by rw [r.len]; exact Nat.mod_lt _ (by omega)
  refine ⟨?_, CMem.write_eq hm, by simp [r.len], hh, by omega, ?_⟩
  · rw [r.get (i := l.length) (by simp)]; simp
  · intro i hi
    have h2 : (head + l.length) % cap ≠ (head + i) % cap := by
      rw [mod_case (by omega), mod_case (by omega)]; split <;> split <;> omega
    rw [List.getElem?_set_ne h2, r.at_ i (by simp; omega)]
    rw [List.getElem_append_left hi]

/-- Index of the last element, seen from one past the end. -/
theorem down_end {cap head n : Nat} (hh : head < cap) (hn : n < cap) :
    TD.down cap ((head + (n + 1)) % cap) = (head + n) % cap := by
  rw [mod_case (by omega), mod_case (by omega)]; unfold TD.down
  split <;> split <;> split <;> omega

theorem realloc_getElem? {P : Type} (data : List (Option P)) (n i : Nat) (hi : i < data.length) (hn : data.length ≤ n) :
    (CMem.realloc data n)[i]? = data[i]? := by
  unfold CMem.realloc
  rw [List.getElem?_append_left (by simp; omega), List.getElem?_take_of_lt (by omega)]

theorem realloc_length {P : Type} (data : List (Option P)) (n : Nat) (hn : data.length ≤ n) :
    (CMem.realloc data n).length = n := by
  simp [CMem.realloc]; omega

/-- Doubling a full array whose wrapped part `[0, head)` moves to `[cap, cap + head)`. -/
theorem Rep.growWrap {P : Type} {data : List (Option P)} {cap head : Nat} {l : List P} (r : Rep data cap head l)
    (hfull : l.length = cap) : ∃ data', CMem.memmove (CMem.realloc data (cap * 2)) cap 0 head = some data' ∧
      Rep data' (cap * 2) head l := by
  have hh := r.head_lt
  have hlen := r.len
  have hrl : (CMem.realloc data (cap * 2)).length = cap * 2 := realloc_length _ _ (by omega)
  refine ⟨_, by rw [CMem.memmove, if_pos (by omega)], ?_, by omega, by omega, ?_⟩
  · simp [hrl]; omega
  · intro i hi
    have e := r.at_ i hi
    rw [Nat.mod_eq_of_lt (show head + i < cap * 2 by omega)]
    rw [mod_case (by omega)] at e
    by_cases hc : head + i < cap
    · rw [if_pos hc] at e
      rw [List.append_assoc, List.getElem?_append_left (by simp [hrl]; omega), List.getElem?_take_of_lt (by omega),
        realloc_getElem? _ _ _ (by omega) (by omega), e]
    · rw [if_neg hc] at e
      rw [List.append_assoc, List.getElem?_append_right (by simp [hrl]; omega)]
      rw [List.getElem?_append_left (by simp [hrl]; omega), List.getElem?_take_of_lt (by simp [hrl]; omega)]
      simp only [List.length_take, hrl, List.drop_zero]
      rw [show head + i - min cap (cap * 2) = head + i - cap by omega,
        realloc_getElem? _ _ _ (by omega) (by omega), e]

/-- Doubling an array that does not wrap. -/
theorem Rep.growFlat {P : Type} {data : List (Option P)} {cap : Nat} {l : List P} (r : Rep data cap 0 l) :
    Rep (CMem.realloc data (cap * 2)) (cap * 2) 0 l := by
  have hh := r.head_lt
  have hlen := r.len
  have hf := r.fits
  refine ⟨realloc_length _ _ (by omega), by omega, by omega, ?_⟩
  intro i hi
  have e := r.at_ i hi
  rw [Nat.zero_add, Nat.mod_eq_of_lt (by omega)] at e ⊢
  rw [realloc_getElem? _ _ _ (by omega) (by omega), e]

/-- The pop loop shared by queue and deque. -/
theorem popLoop_spec {P : Type} (cap : Nat) (l1 : List P) : ∀ (data : List (Option P)) (head : Nat) (l2 : List P),
    Rep data cap head (l1 ++ l2) →
    ∃ data', TQ.popLoop cap l1.length data head = some (data', (head + l1.length) % cap, l1) ∧
      Rep data' cap ((head + l1.length) % cap) l2 := by
  induction l1 with
  | nil =>
    intro data head l2 r
    exact ⟨data, by simp [TQ.popLoop, Nat.mod_eq_of_lt r.head_lt], by simpa [Nat.mod_eq_of_lt r.head_lt] using r⟩
  | cons x l1 ih =>
    intro data head l2 r
    obtain ⟨h1, h2, h3⟩ := r.popFirst
    obtain ⟨data', e, r'⟩ := ih _ _ _ h3
    have hm : ((head + 1) % cap + l1.length) % cap = (head + (l1.length + 1)) % cap := by
      rw [Nat.add_mod, Nat.mod_mod, ← Nat.add_mod]; congr 1; omega
    rw [hm] at e r'
    refine ⟨data', ?_, by simpa using r'⟩
    simp only [List.length_cons, TQ.popLoop, h1, h2, e, Option.bind_eq_bind, Option.bind_some]

theorem popRightLoop_spec {P : Type} (cap head : Nat) (l2 : List P) : ∀ (data : List (Option P)) (l1 : List P),
    Rep data cap head (l1 ++ l2.reverse) →
    ∃ data', TD.popRightLoop cap l2.length data ((head + (l1.length + l2.length)) % cap) =
        some (data', (head + l1.length) % cap, l2) ∧ Rep data' cap head l1 := by
  induction l2 with
  | nil => intro data l1 r; exact ⟨data, rfl, by simpa using r⟩
  | cons x l2 ih =>
    intro data l1 r
    have hf := r.fits
    simp only [List.length_append, List.length_reverse, List.length_cons] at hf
    rw [List.reverse_cons, ← List.append_assoc] at r
    obtain ⟨h1, h2, h3⟩ := r.popLast
    simp only [List.length_append, List.length_reverse] at h1 h2 h3
    obtain ⟨data', e, r'⟩ := ih _ _ h3
    refine ⟨data', ?_, r'⟩
    simp only [List.length_cons, TD.popRightLoop]
    rw [show l1.length + (l2.length + 1) = (l1.length + l2.length) + 1 by omega, down_end r.head_lt (by omega), h1, h2]
    simp only [Option.bind_eq_bind, Option.bind_some, e]

end Circ
