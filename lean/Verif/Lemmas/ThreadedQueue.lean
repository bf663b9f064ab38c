import Verif.Lemmas.Circular
import Verif.Spec.ThreadedQueue
/-! # Lemmas on threaded_queue.c -/
namespace TQ
open Circ

/-- The queue `q` holds the list `l`. -/
structure Inv {P : Type} (q : Q P) (l : List P) : Prop where
  rep : Rep q.data q.cap q.head l
  size : q.size = l.length
  tail_le : q.tail ≤ q.cap
  tail_mod : q.tail % q.cap = (q.head + l.length) % q.cap
  tail_pos : q.tail = 0 → l = []

theorem inv_new {P : Type} (cap : Nat) : Inv (new cap : Q P) [] := by
  have : (if cap = 0 then 16 else cap) ≠ 0 := by split <;> omega
  exact ⟨rep_new (by simp [new]) (by simp only [new]; omega), rfl, by simp [new], by simp [new], by simp⟩

theorem expand_spec {P : Type} {q : Q P} {l : List P} (I : Inv q l) :
    ∃ q', expand q = some q' ∧ Rep q'.data q'.cap q'.head l ∧ q'.size = l.length ∧ l.length < q'.cap ∧
      q'.tail = (q'.head + l.length) % q'.cap := by
  have hh := I.rep.head_lt
  have hf := I.rep.fits
  have ht := I.tail_le
  have hm := I.tail_mod
  unfold expand
  rw [if_neg (by rw [I.size]; omega)]
  by_cases hfull : q.size = q.cap
  · rw [if_pos hfull]
    have hl : l.length = q.cap := by rw [← I.size, hfull]
    -- the tail is congruent to the head
    have hth : q.tail = q.head ∨ (q.head = 0 ∧ q.tail = q.cap) := by
      rw [hl, Nat.add_mod_right, Nat.mod_eq_of_lt hh] at hm
      by_cases hc : q.tail < q.cap
      · left; rwa [Nat.mod_eq_of_lt hc] at hm
      · right
        have : q.tail = q.cap := by omega
        rw [this, Nat.mod_self] at hm; omega
    by_cases hle : q.tail ≤ q.head
    · have heq : q.tail = q.head := by omega
      rw [if_pos hle]
      obtain ⟨data', e, r⟩ := I.rep.growWrap hl
      rw [heq, e]
      refine ⟨_, rfl, r, I.size, by simp only; omega, ?_⟩
      simp only [hl]
    · rw [if_neg hle]
      have h0 : q.head = 0 ∧ q.tail = q.cap := by omega
      have r := I.rep
      rw [h0.1] at r
      refine ⟨_, rfl, ?_, I.size, by simp only; omega, ?_⟩
      · simp only [h0.1]; exact r.growFlat
      · simp only [h0, hl, Nat.zero_add]
  · rw [if_neg hfull]
    refine ⟨_, rfl, I.rep, I.size, ?_, hm⟩
    simp only; rw [I.size] at hfull; omega

theorem pushOne_spec {P : Type} {q : Q P} {l : List P} (I : Inv q l) (x : P) :
    ∃ q', pushOne q x = some q' ∧ Inv q' (l ++ [x]) := by
  obtain ⟨q1, e, r, hs, hlt, ht⟩ := expand_spec I
  obtain ⟨hw, r'⟩ := r.pushLast hlt x
  rw [← ht] at hw r'
  have hh := r.head_lt
  have htl : q1.tail < q1.cap := by rw [ht]; exact Nat.mod_lt _ (by omega)
  refine ⟨{ q1 with data := q1.data.set q1.tail (some x), tail := q1.tail + 1, size := q1.size + 1 },
    by simp [pushOne, e, hw], r', by simp [hs], by simp only; omega, ?_, by simp⟩
  simp only [List.length_append, List.length_singleton]
  rw [ht, Nat.add_mod, Nat.mod_mod, ← Nat.add_mod]; rfl

theorem pushN_spec {P : Type} (xs : List P) : ∀ {q : Q P} {l : List P}, Inv q l →
    ∃ q', pushN q xs = some (q', l.length + xs.length) ∧ Inv q' (l ++ xs) := by
  induction xs with
  | nil => intro q l I; exact ⟨q, by simp [pushN, I.size], by simpa using I⟩
  | cons x xs ih =>
    intro q l I
    obtain ⟨q1, e1, I1⟩ := pushOne_spec I x
    obtain ⟨q2, e2, I2⟩ := ih I1
    refine ⟨q2, ?_, by simpa using I2⟩
    simp only [pushN, e1, Option.bind_eq_bind, Option.bind_some, e2]
    simp; omega

theorem push_spec {P : Type} {q : Q P} {l : List P} (I : Inv q l) (x : P) :
    ∃ q', push q x = some (q', l.length + 1) ∧ Inv q' (l ++ [x]) := by
  obtain ⟨q1, e1, I1⟩ := pushOne_spec I x
  exact ⟨q1, by simp [push, e1, I1.size], I1⟩

theorem pop_spec {P : Type} {q : Q P} {l : List P} (I : Inv q l) :
    ∃ q', pop q = some (q', l.head?) ∧ Inv q' l.tail := by
  unfold pop
  cases l with
  | nil => rw [if_neg (by simp [I.size])]; exact ⟨q, rfl, I⟩
  | cons x l =>
    rw [if_pos (by simp [I.size])]
    obtain ⟨h1, h2, h3⟩ := I.rep.popFirst
    refine ⟨{ q with data := q.data.set q.head none, head := (q.head + 1) % q.cap, size := q.size - 1 },
      by rw [h1, h2]; rfl, h3, by simp [I.size], I.tail_le, ?_, fun h => by have := I.tail_pos h; simp at this⟩
    simp only [List.tail_cons]
    rw [I.tail_mod, Nat.add_mod ((q.head + 1) % q.cap), Nat.mod_mod, ← Nat.add_mod]
    simp only [List.length_cons]; congr 1; omega

theorem popN_spec {P : Type} {q : Q P} {l : List P} (I : Inv q l) (n : Nat) :
    ∃ q', popN q n = some (q', l.take n) ∧ Inv q' (l.drop n) := by
  unfold popN
  have hs : (if n < q.size then n else q.size) = (l.take n).length := by rw [I.size]; simp; split <;> omega
  simp only [hs]
  by_cases hz : 0 < (l.take n).length
  · rw [if_pos hz]
    have r := I.rep
    rw [← List.take_append_drop n l] at r
    obtain ⟨data', e, r'⟩ := popLoop_spec q.cap (l.take n) q.data q.head (l.drop n) r
    refine ⟨{ q with data := data', head := (q.head + (l.take n).length) % q.cap, size := q.size - (l.take n).length },
      by simp only [e, Option.bind_eq_bind, Option.bind_some], r', ?_, I.tail_le, ?_, ?_⟩
    · simp [I.size]; omega
    · simp only
      rw [I.tail_mod, Nat.add_mod ((q.head + (l.take n).length) % q.cap), Nat.mod_mod, ← Nat.add_mod]
      congr 1
      have := congrArg List.length (List.take_append_drop n l)
      simp only [List.length_append] at this
      omega
    · intro h; have := I.tail_pos h; simp [this]
  · rw [if_neg hz]
    have h0 : l.take n = [] := List.length_eq_zero_iff.mp (by omega)
    refine ⟨q, by rw [h0], ?_⟩
    have := List.take_append_drop n l
    rw [h0] at this
    rw [List.nil_append] at this
    rw [this]; exact I

/-- The destroy loop walks the rest of the list. -/
theorem destroyLoop_spec {P : Type} {data : List (Option P)} {cap head stop : Nat} {l : List P} (r : Rep data cap head l)
    (hs0 : 0 < stop) (hs1 : stop ≤ cap) (hs2 : stop % cap = (head + l.length) % cap) : ∀ (n fuel k i : Nat), n < fuel →
    k + n = l.length → 1 ≤ k → i % cap = (head + k) % cap → 1 ≤ i → i ≤ cap →
    destroyLoop data cap stop fuel i n = some (l.drop k, 0) := by
  have hh := r.head_lt
  have hf := r.fits
  intro n
  induction n with
  | zero =>
    intro fuel k i hfu hk hk1 hi hi1 hi2
    obtain ⟨fuel, rfl⟩ : ∃ f, fuel = f + 1 := ⟨fuel - 1, by omega⟩
    have : i = stop := by
      have hkk : k = l.length := by omega
      rw [hkk, ← hs2] at hi
      rw [mod_case (by omega), mod_case (by omega)] at hi
      split at hi <;> split at hi <;> omega
    rw [destroyLoop, if_pos this, List.drop_eq_nil_of_le (by omega)]
  | succ n ih =>
    intro fuel k i hfu hk hk1 hi hi1 hi2
    obtain ⟨fuel, rfl⟩ : ∃ f, fuel = f + 1 := ⟨fuel - 1, by omega⟩
    have hlt : k < l.length := by omega
    have hne : i ≠ stop := by
      intro he
      rw [he, hs2] at hi
      rw [mod_case (by omega), mod_case (by omega)] at hi
      split at hi <;> split at hi <;> omega
    rw [destroyLoop, if_neg hne, hi, r.get hlt]
    simp only [Option.bind_eq_bind, Option.bind_some, Nat.add_sub_cancel]
    rw [if_neg (by omega), ih fuel (k + 1) ((head + k) % cap + 1) (by omega) (by omega) (by omega) ?_ (by omega) ?_]
    · simp only [Option.bind_some, List.drop_eq_getElem_cons hlt]
    · rw [Nat.add_mod, Nat.mod_mod, ← Nat.add_mod]; rfl
    · have := Nat.mod_lt (head + k) (show 0 < cap by omega); omega

theorem destroyRange_spec {P : Type} {q : Q P} {l : List P} (I : Inv q l) :
    destroyRange q q.head q.tail = some (l, 0) := by
  have hh := I.rep.head_lt
  have ht := I.tail_le
  have hf := I.rep.fits
  unfold destroyRange
  rw [if_neg (by omega)]
  cases hl : l with
  | nil => rw [if_neg (by simp [I.size, hl])]; simp [I.size, hl]
  | cons x l' =>
    have hne : q.tail ≠ 0 := fun h => by have := I.tail_pos h; rw [hl] at this; cases this
    have hsz : q.size = l'.length + 1 := by rw [I.size, hl]; rfl
    rw [if_pos (by omega)]
    have hg := I.rep.get (i := 0) (by rw [hl]; simp)
    rw [Nat.add_zero, Nat.mod_eq_of_lt hh] at hg
    have hlen : l.length = l'.length + 1 := by rw [hl]; rfl
    have e := destroyLoop_spec I.rep (by omega) ht I.tail_mod l'.length (q.cap + 1) 1 (q.head + 1) (by omega)
      (by omega) (by omega) rfl (by omega) (by omega)
    rw [hg, hsz, Nat.add_sub_cancel]
    simp only [Option.bind_eq_bind, Option.bind_some, e]
    simp [hl]

theorem inv_reset {P : Type} {q : Q P} {l : List P} (I : Inv q l) : Inv { q with size := 0, head := 0, tail := 0 } [] := by
  have hh := I.rep.head_lt
  exact ⟨rep_new I.rep.len (by simp only; omega), rfl, by simp, by simp, by simp⟩

theorem clear_spec {P : Type} {q : Q P} {l : List P} (I : Inv q l) :
    ∃ q', clear q = some (q', l) ∧ Inv q' [] := by
  refine ⟨{ q with size := 0, head := 0, tail := 0 }, ?_, inv_reset I⟩
  simp [clear, destroyRange_spec I]

theorem clearAndPush_spec {P : Type} {q : Q P} {l : List P} (I : Inv q l) (x : P) :
    ∃ q', clearAndPush q x = some (q', l, 1) ∧ Inv q' [x] := by
  obtain ⟨q', e, I'⟩ := pushOne_spec (inv_reset I) x
  refine ⟨q', ?_, I'⟩
  have : q'.size = 1 := by rw [I'.size]; rfl
  simp [clearAndPush, destroyRange_spec I, e, this]

theorem copy_eq {P : Type} {q : Q P} {l : List P} (I : Inv q l) : copy q = some q := by
  have hlen := I.rep.len
  simp only [copy, CMem.memcpy]
  rw [if_pos (by simp; omega)]
  simp [← hlen]
  rw [hlen]

end TQ

namespace TD
open Circ

structure Inv {P : Type} (q : D P) (l : List P) : Prop where
  rep : Rep q.data q.cap q.left l
  size : q.size = l.length
  right : q.right = (q.left + l.length) % q.cap

theorem inv_new {P : Type} (cap : Nat) : Inv (new cap : D P) [] := by
  have : (if cap = 0 then 16 else cap) ≠ 0 := by split <;> omega
  exact ⟨rep_new (by simp [new]) (by simp only [new]; omega), rfl, by simp [new]⟩

theorem expand_spec {P : Type} {q : D P} {l : List P} (I : Inv q l) :
    ∃ q', expand q = some q' ∧ Inv q' l ∧ l.length < q'.cap := by
  have hh := I.rep.head_lt
  have hf := I.rep.fits
  have hr := I.right
  unfold expand
  rw [if_neg (by rw [I.size]; omega)]
  by_cases hfull : q.size = q.cap
  · rw [if_pos hfull]
    have hl : l.length = q.cap := by rw [← I.size, hfull]
    have heq : q.right = q.left := by rw [hr, hl, Nat.add_mod_right, Nat.mod_eq_of_lt hh]
    rw [if_pos (by omega)]
    obtain ⟨data', e, r⟩ := I.rep.growWrap hl
    rw [heq, e]
    refine ⟨_, rfl, ⟨r, I.size, ?_⟩, by simp only; omega⟩
    simp only [hl]
    rw [Nat.mod_eq_of_lt (by omega)]
  · rw [if_neg hfull]
    refine ⟨_, rfl, I, ?_⟩
    rw [I.size] at hfull; omega

theorem pushRight_spec {P : Type} {q : D P} {l : List P} (I : Inv q l) (x : P) :
    ∃ q', pushRight q x = some (q', l.length + 1) ∧ Inv q' (l ++ [x]) := by
  obtain ⟨q1, e, I1, hlt⟩ := expand_spec I
  obtain ⟨hw, r'⟩ := I1.rep.pushLast hlt x
  rw [← I1.right] at hw r'
  refine ⟨{ q1 with data := q1.data.set q1.right (some x), right := (q1.right + 1) % q1.cap, size := q1.size + 1 },
    by simp [pushRight, e, hw, I1.size], r', by simp [I1.size], ?_⟩
  simp only [List.length_append, List.length_singleton]
  rw [I1.right, Nat.add_mod, Nat.mod_mod, ← Nat.add_mod]; rfl

theorem pushLeft_spec {P : Type} {q : D P} {l : List P} (I : Inv q l) (x : P) :
    ∃ q', pushLeft q x = some (q', l.length + 1) ∧ Inv q' (x :: l) := by
  obtain ⟨q1, e, I1, hlt⟩ := expand_spec I
  obtain ⟨hw, r'⟩ := I1.rep.pushFirst hlt x
  have hh := I1.rep.head_lt
  refine ⟨{ q1 with data := q1.data.set (down q1.cap q1.left) (some x), left := down q1.cap q1.left, size := q1.size + 1 },
    by simp [pushLeft, e, hw, I1.size], r', by simp [I1.size], ?_⟩
  simp only [List.length_cons]
  rw [I1.right]
  unfold down
  split
  · rename_i h0
    rw [h0, show q1.cap - 1 + (l.length + 1) = q1.cap + l.length by omega, Nat.add_mod_left, Nat.zero_add]
  · congr 1; omega

theorem popLeft_spec {P : Type} {q : D P} {l : List P} (I : Inv q l) :
    ∃ q', popLeft q = some (q', l.head?) ∧ Inv q' l.tail := by
  unfold popLeft
  cases l with
  | nil => rw [if_neg (by simp [I.size])]; exact ⟨q, rfl, I⟩
  | cons x l =>
    rw [if_pos (by simp [I.size])]
    obtain ⟨h1, h2, h3⟩ := I.rep.popFirst
    refine ⟨{ q with data := q.data.set q.left none, left := (q.left + 1) % q.cap, size := q.size - 1 },
      by rw [h1, h2]; rfl, h3, by simp [I.size], ?_⟩
    simp only [List.tail_cons]
    rw [I.right, Nat.add_mod ((q.left + 1) % q.cap), Nat.mod_mod, ← Nat.add_mod]
    simp only [List.length_cons]; congr 1; omega

theorem popRight_spec {P : Type} {q : D P} {l : List P} (I : Inv q l) :
    ∃ q', popRight q = some (q', l.getLast?) ∧ Inv q' l.dropLast := by
  unfold popRight
  rcases List.eq_nil_or_concat l with rfl | ⟨l', x, hlx⟩
  · rw [if_neg (by simp [I.size])]; exact ⟨q, rfl, I⟩
  · rw [List.concat_eq_append] at hlx; subst hlx
    have hf := I.rep.fits
    have hr := I.right
    simp only [List.length_append, List.length_singleton] at hf hr
    rw [if_pos (by simp [I.size])]
    obtain ⟨h1, h2, h3⟩ := I.rep.popLast
    have hd : down q.cap q.right = (q.left + l'.length) % q.cap := by
      rw [hr]; exact down_end I.rep.head_lt (by omega)
    refine ⟨{ q with data := q.data.set ((q.left + l'.length) % q.cap) none, right := (q.left + l'.length) % q.cap, size := q.size - 1 },
      by simp [hd, h1, h2], by simpa using h3, by simp [I.size], by simp⟩

theorem popLeftN_spec {P : Type} {q : D P} {l : List P} (I : Inv q l) (n : Nat) :
    ∃ q', popLeftN q n = some (q', l.take n) ∧ Inv q' (l.drop n) := by
  unfold popLeftN
  have hs : (if n < q.size then n else q.size) = (l.take n).length := by rw [I.size]; simp; split <;> omega
  simp only [hs]
  by_cases hz : 0 < (l.take n).length
  · rw [if_pos hz]
    have r := I.rep
    rw [← List.take_append_drop n l] at r
    obtain ⟨data', e, r'⟩ := popLoop_spec q.cap (l.take n) q.data q.left (l.drop n) r
    refine ⟨{ q with data := data', left := (q.left + (l.take n).length) % q.cap, size := q.size - (l.take n).length },
      by simp only [e, Option.bind_eq_bind, Option.bind_some], r', ?_, ?_⟩
    · simp [I.size]; omega
    · simp only
      rw [I.right, Nat.add_mod ((q.left + (l.take n).length) % q.cap), Nat.mod_mod, ← Nat.add_mod]
      congr 1
      have := congrArg List.length (List.take_append_drop n l)
      simp only [List.length_append] at this
      omega
  · rw [if_neg hz]
    have h0 : l.take n = [] := List.length_eq_zero_iff.mp (by omega)
    refine ⟨q, by rw [h0], ?_⟩
    have := List.take_append_drop n l
    rw [h0] at this
    rw [List.nil_append] at this
    rw [this]; exact I

theorem popRightN_spec {P : Type} {q : D P} {l : List P} (I : Inv q l) (n : Nat) :
    ∃ q', popRightN q n = some (q', l.reverse.take n) ∧ Inv q' (l.take (l.length - n)) := by
  unfold popRightN
  have hs : (if n < q.size then n else q.size) = (l.reverse.take n).length := by rw [I.size]; simp; split <;> omega
  simp only [hs]
  have hsplit : l = l.take (l.length - n) ++ (l.reverse.take n).reverse := by
    rw [List.take_reverse, List.reverse_reverse, List.take_append_drop]
  by_cases hz : 0 < (l.reverse.take n).length
  · rw [if_pos hz]
    have r := I.rep
    have hr := I.right
    have hlen := congrArg List.length hsplit
    rw [List.length_append, List.length_reverse] at hlen
    rw [hsplit] at r
    obtain ⟨data', e, r'⟩ := popRightLoop_spec q.cap q.left (l.reverse.take n) q.data (l.take (l.length - n)) r
    rw [← hlen, ← hr] at e
    refine ⟨{ q with data := data', right := (q.left + (l.take (l.length - n)).length) % q.cap, size := q.size - (l.reverse.take n).length },
      by simp only [e, Option.bind_eq_bind, Option.bind_some], r', ?_, rfl⟩
    simp only; rw [I.size]; omega
  · rw [if_neg hz]
    have h0 : l.reverse.take n = [] := List.length_eq_zero_iff.mp (by omega)
    rw [h0, List.reverse_nil, List.append_nil] at hsplit
    rw [h0, ← hsplit]
    exact ⟨q, rfl, I⟩

theorem destroyLoop_spec {P : Type} {data : List (Option P)} {cap head stop : Nat} {l : List P} (r : Rep data cap head l)
    (hs2 : stop = (head + l.length) % cap) : ∀ (n fuel k : Nat), n < fuel → k + (n + 1) = l.length →
    destroyLoop data cap stop fuel ((head + k) % cap) = some (l.drop k) := by
  have hh := r.head_lt
  have hf := r.fits
  intro n
  induction n with
  | zero =>
    intro fuel k hfu hk
    obtain ⟨fuel, rfl⟩ : ∃ f, fuel = f + 1 := ⟨fuel - 1, by omega⟩
    have h1 : ((head + k) % cap + 1) % cap = stop := by
      rw [hs2, Nat.add_mod, Nat.mod_mod, ← Nat.add_mod]; congr 1; omega
    have hlt : k < l.length := by omega
    rw [destroyLoop, r.get hlt]
    simp only [Option.bind_eq_bind, Option.bind_some, h1, if_true]
    rw [List.drop_eq_getElem_cons hlt, List.drop_eq_nil_of_le (by omega)]
  | succ n ih =>
    intro fuel k hfu hk
    obtain ⟨fuel, rfl⟩ : ∃ f, fuel = f + 1 := ⟨fuel - 1, by omega⟩
    have hlt : k < l.length := by omega
    have h1 : ((head + k) % cap + 1) % cap = (head + (k + 1)) % cap := by
      rw [Nat.add_mod, Nat.mod_mod, ← Nat.add_mod]; rfl
    have hne : (head + (k + 1)) % cap ≠ stop := by
      rw [hs2]
      intro he
      rw [mod_case (by omega), mod_case (by omega)] at he
      split at he <;> split at he <;> omega
    rw [destroyLoop, r.get hlt]
    simp only [Option.bind_eq_bind, Option.bind_some, h1, if_neg hne]
    rw [ih fuel (k + 1) (by omega) (by omega), List.drop_eq_getElem_cons hlt]
    rfl

theorem destroy_spec {P : Type} {q : D P} {l : List P} (I : Inv q l) : destroy q = some l := by
  have hh := I.rep.head_lt
  have hf := I.rep.fits
  have hr := I.right
  have hrl : q.right < q.cap := by rw [hr]; exact Nat.mod_lt _ (by omega)
  unfold destroy
  rw [if_neg (by omega)]
  cases hl : l with
  | nil => rw [if_neg (by simp [I.size, hl])]
  | cons x l' =>
    have hlen : l.length = l'.length + 1 := by rw [hl]; rfl
    rw [if_pos (by rw [I.size]; omega)]
    have e := destroyLoop_spec I.rep hr l'.length (q.cap + 1) 0 (by omega) (by omega)
    rw [show q.left + 0 = q.left from rfl, Nat.mod_eq_of_lt hh] at e
    rw [e, hl]; rfl

theorem copy_eq {P : Type} {q : D P} {l : List P} (I : Inv q l) : copy q = some q := by
  have hlen := I.rep.len
  simp only [copy, CMem.memcpy]
  rw [if_pos (by simp; omega)]
  simp [← hlen]
  rw [hlen]

end TD
