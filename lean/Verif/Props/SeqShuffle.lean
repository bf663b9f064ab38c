import Verif.Lemmas.SeqSort
import Verif.Model.SeqShuffle
import Mathlib.Data.List.Perm.Basic
import Mathlib.Data.List.Nodup
/-! # C183: shuffling is fair and reproducible -/
open Seqn SeqSpec

namespace SeqShuffle

/-- The `k`-th number drawn after `srand`: `k = 0` first. -/
def drawn {σ : Type} (g : Rng σ) (st : σ) : Nat → Nat
  | 0 => (g.rand st).2
  | k + 1 => drawn g (g.rand st).1 k

theorem loop_eq {σ P : Type} (g : Rng σ) : ∀ i (st : σ) (data : List (Option P)) (rnd : Nat → Nat), (∀ k, k < i → rnd (i - k) = drawn g st k) →
    (loop g st data i).map (·.2) = shuffleLoop rnd data i := by
  intro i
  induction i with
  | zero => intros; rfl
  | succ i ih =>
    intro st data rnd h
    have h0 := h 0 (by omega)
    simp only [Nat.sub_zero, drawn] at h0
    simp only [loop, shuffleLoop, h0, Option.bind_eq_bind]
    cases swap data (i + 1) ((g.rand st).2 % (i + 1 + 1)) with
    | none => rfl
    | some d =>
      simp only [Option.bind_some]
      refine ih _ _ _ fun k hk => ?_
      have := h (k + 1) (by omega)
      rw [show i + 1 - (k + 1) = i - k by omega] at this
      rw [this]; rfl

/-- The shuffle of a list. -/
def shuf {P : Type} (r : Nat → Nat) : List P → Nat → List P
  | l, 0 => l
  | l, i + 1 =>
    if h : i + 1 < l.length ∧ r (i + 1) % (i + 2) < l.length then shuf r (exch l (i + 1) (r (i + 1) % (i + 2)) h.1 h.2) i else l

theorem shuf_loop {P : Type} (r : Nat → Nat) (rest : List (Option P)) : ∀ i (l : List P), i < l.length →
    shuffleLoop r (l.map some ++ rest) i = some ((shuf r l i).map some ++ rest) ∧ (shuf r l i).Perm l := by
  intro i
  induction i with
  | zero => intro l _; exact ⟨rfl, .refl _⟩
  | succ i ih =>
    intro l hi
    have hj : r (i + 1) % (i + 2) < l.length := by
      have := Nat.mod_lt (r (i+1)) (show 0 < i + 2 by omega); omega
    obtain ⟨e, p⟩ := ih (exch l (i+1) _ hi hj) (by simp; omega)
    constructor
    · simp [shuffleLoop, swap_eq hi hj, e, shuf, hi, hj]
    · simp only [shuf, hi, hj, and_self, dite_true]; exact p.trans (exch_perm hi hj)

theorem shuf_congr {P : Type} {r r' : Nat → Nat} : ∀ i (l : List P), (∀ k, k ≤ i → r k = r' k) → shuf r l i = shuf r' l i := by
  intro i
  induction i with
  | zero => intros; rfl
  | succ i ih =>
    intro l h
    simp only [shuf, h (i + 1) (by omega)]
    split
    · exact ih _ fun k hk => h k (by omega)
    · rfl

theorem shuf_map {P Q : Type} (f : P → Q) (r : Nat → Nat) : ∀ i (l : List P), shuf r (l.map f) i = (shuf r l i).map f := by
  intro i
  induction i with
  | zero => intros; rfl
  | succ i ih =>
    intro l
    simp only [shuf, List.length_map]
    split
    · rename_i h
      rw [← ih]
      congr 1
      simp [exch, List.map_set]
    · rfl

/-- Positions above `i` stay. -/
theorem shuf_above {P : Type} (r : Nat → Nat) : ∀ i (l : List P) k, i < k → i < l.length → (shuf r l i)[k]? = l[k]? := by
  intro i
  induction i with
  | zero => intros; rfl
  | succ i ih =>
    intro l k hk hi
    have hj : r (i + 1) % (i + 2) < i + 2 := Nat.mod_lt _ (by omega)
    simp only [shuf]
    rw [dif_pos ⟨hi, by omega⟩, ih _ k (by omega) (by simp; omega), exch_getElem? hi (by omega), if_neg (by omega), if_neg (by omega)]

theorem shuf_reach {P : Type} : ∀ i (a b rest : List P), a.length = i + 1 → a.Perm b → ∃ r : Nat → Nat, (∀ k, r k ≤ k) ∧ shuf r (a ++ rest) i = b ++ rest := by
  intro i
  induction i with
  | zero =>
    intro a b rest ha hp
    obtain ⟨x, rfl⟩ := List.length_eq_one_iff.mp ha
    have : b = [x] := List.perm_singleton.mp hp.symm
    subst this
    exact ⟨fun _ => 0, fun _ => Nat.zero_le _, rfl⟩
  | succ i ih =>
    intro a b rest ha hp
    have hb : b ≠ [] := by intro h; subst h; have := hp.length_eq; rw [ha] at this; simp at this
    obtain ⟨b', x, rfl⟩ : ∃ b' x, b = b' ++ [x] := ⟨b.dropLast, b.getLast hb, (List.dropLast_append_getLast hb).symm⟩
    have hx : x ∈ a := hp.mem_iff.mpr (by simp)
    obtain ⟨j, hj, ej⟩ := List.getElem_of_mem hx
    have hlast : i + 1 < a.length := by omega
    -- the list after the exchange
    have hE : ∃ a', exch a (i + 1) j hlast hj = a' ++ [x] ∧ a'.length = i + 1 := by
      refine ⟨(exch a (i + 1) j hlast hj).dropLast, ?_, by simp [ha]⟩
      have hne : exch a (i + 1) j hlast hj ≠ [] := by
        intro h; have := congrArg List.length h; rw [exch_length, ha] at this; simp at this
      conv => lhs; rw [← List.dropLast_append_getLast hne]
      congr 2
      rw [List.getLast_eq_getElem]
      have := exch_getElem? hlast hj (i + 1)
      have h2 : (exch a (i + 1) j hlast hj)[i + 1]? = some x := by
        rw [this]
        split
        · rename_i e; subst e; simp [hlast, ej]
        · simp [hj, ej]
      rw [List.getElem?_eq_some_iff] at h2
      obtain ⟨_, h2⟩ := h2
      simp only [exch_length, ha]
      exact h2
    obtain ⟨a', e', ha'⟩ := hE
    have hp' : a'.Perm b' := by
      have h1 : (a' ++ [x]).Perm (b' ++ [x]) := by rw [← e']; exact (exch_perm hlast hj).trans hp
      exact (List.perm_append_right_iff [x]).mp h1
    obtain ⟨r, hr, er⟩ := ih a' b' (x :: rest) ha' hp'
    refine ⟨fun k => if k = i + 1 then j else r k, fun k => ?_, ?_⟩
    · show (if k = i + 1 then j else r k) ≤ k
      split
      · rename_i e; omega
      · exact hr k
    · have hjm : j % (i + 2) = j := Nat.mod_eq_of_lt (by omega)
      have h1 : i + 1 < (a ++ rest).length ∧ j < (a ++ rest).length := by rw [List.length_append]; constructor <;> omega
      have hx2 : exch (a ++ rest) (i + 1) j h1.1 h1.2 = exch a (i + 1) j hlast hj ++ rest := by
        simp only [exch]
        rw [List.getElem_append_left hj, List.getElem_append_left hlast, List.set_append, if_pos hlast, List.set_append, if_pos (by simpa using hj)]
      simp only [shuf, if_true, hjm]
      rw [dif_pos h1, hx2, e', List.append_assoc]
      rw [shuf_congr i _ (r' := r) (fun k hk => by simp [show k ≠ i + 1 by omega])]
      simpa using er

theorem shuf_inj {P : Type} {r r' : Nat → Nat} : ∀ i (l : List P), l.Nodup → i < l.length → shuf r l i = shuf r' l i →
    ∀ k, 1 ≤ k → k ≤ i → r k % (k + 1) = r' k % (k + 1) := by
  intro i
  induction i with
  | zero => intros; omega
  | succ i ih =>
    intro l hn hi he
    have hj : r (i + 1) % (i + 2) < i + 2 := Nat.mod_lt _ (by omega)
    have hj' : r' (i + 1) % (i + 2) < i + 2 := Nat.mod_lt _ (by omega)
    have h1 : r (i + 1) % (i + 2) < l.length := by omega
    have h2 : r' (i + 1) % (i + 2) < l.length := by omega
    have top : r (i + 1) % (i + 2) = r' (i + 1) % (i + 2) := by
      have he := congrArg (fun l => l[i + 1]?) he
      simp only [shuf] at he
      rw [dif_pos ⟨hi, h1⟩, dif_pos ⟨hi, h2⟩, shuf_above _ _ _ _ (by omega) (by simp; omega), shuf_above _ _ _ _ (by omega) (by simp; omega),
        exch_getElem? hi h1, exch_getElem? hi h2] at he
      have simpl : ∀ q, q < l.length → (if i + 1 = q then l[i + 1]? else if i + 1 = i + 1 then l[q]? else l[i + 1]?) = l[q]? := by
        intro q _; split
        · rename_i e; rw [e]
        · simp
      rw [simpl _ h1, simpl _ h2, List.getElem?_eq_getElem h1, List.getElem?_eq_getElem h2] at he
      exact (List.Nodup.getElem_inj_iff hn).mp (Option.some.inj he)
    intro k hk1 hk
    by_cases hk2 : k = i + 1
    · subst hk2; exact top
    · simp only [shuf] at he
      rw [dif_pos ⟨hi, h1⟩, dif_pos ⟨hi, h2⟩] at he
      simp only [top] at he
      exact ih _ ((exch_perm hi h2).nodup_iff.mpr hn) (by simp; omega) he k hk1 (by omega)

theorem shuffle_shuf {P : Type} (r : Nat → Nat) {s : Seqn.Seq P} {l : List P} (h : Has s l) :
    ∃ s', Seqn.shuffle r s = some s' ∧ Has s' (shuf r l (l.length - 1)) := by
  obtain ⟨rest, hx, dat, cap, pos, len⟩ := h.rep
  unfold Seqn.shuffle
  by_cases h0 : s.length = 0
  · have hl : l = [] := List.eq_nil_of_length_eq_zero (by omega)
    subst hl
    rw [if_pos h0]; exact ⟨s, rfl, h⟩
  · rw [if_neg h0]
    obtain ⟨e, p⟩ := shuf_loop r rest (s.length - 1) l (by omega)
    rw [len] at e p
    refine ⟨{ s with data := (shuf r l (l.length - 1)).map some ++ rest }, ?_, ?_⟩
    · rw [dat, len, e]; rfl
    · refine Rep.has (rest := rest) ⟨rfl, rfl, ?_, pos, by simp [len, p.length_eq]⟩
      simp only [List.length_append, List.length_map, p.length_eq]
      rw [← cap, dat]; simp

end SeqShuffle
open SeqShuffle

/-- **C183**. `SeqShuffle` with any generator of random numbers: the result is the elements rearranged by an order that depends only on the generator, the seed and
the number of elements (not on the elements, nor on random numbers drawn before), it stays in bounds, and afterwards the generator is in a state that does not depend on the seed or the
sequence. -/
theorem C183_reproducible {σ : Type} (g : Rng σ) (seed n : Nat) :
    ∃ order : List Nat, order.Perm (List.range n) ∧
      ∀ (P : Type) (st : σ) (s : Seqn.Seq P) (l : List P), WellFormed s → Contents s l → l.length = n →
        ∃ s' l', SeqShuffle.shuffle g st s seed = some (s', if n = 0 then st else g.srand (g.rand st).2) ∧ WellFormed s' ∧ Contents s' l' ∧
          l'.map some = order.map (l[·]?) := by
  let rnd : Nat → Nat := fun k => drawn g (g.srand seed) (n - 1 - k)
  refine ⟨shuf rnd (List.range n) (n - 1), ?_, ?_⟩
  · by_cases h0 : n = 0
    · subst h0; exact .refl _
    · exact (shuf_loop rnd [] (n - 1) (List.range n) (by simp; omega)).2
  · intro P st s l hw hc hn
    have hlen := hc.1
    obtain ⟨s', e, r⟩ := shuffle_shuf rnd ⟨hw, hc⟩
    refine ⟨s', shuf rnd l (l.length - 1), ?_, r.1, r.2, ?_⟩
    · unfold SeqShuffle.shuffle
      unfold Seqn.shuffle at e
      by_cases h0 : s.length = 0
      · rw [if_pos h0] at e ⊢
        rw [if_pos (by omega)]
        simpa using e
      · rw [if_neg h0] at e ⊢
        rw [if_neg (by omega)]
        have hl := loop_eq g (s.length - 1) (g.srand seed) s.data rnd (by
          intro k hk
          simp only [rnd]; congr 1; omega)
        rw [← hl] at e
        cases hL : loop g (g.srand seed) s.data (s.length - 1) with
        | none => simp [hL] at e
        | some x =>
          simp [hL] at e
          simp [hL, e]
    · rw [← shuf_map, ← shuf_map, hn]
      congr 1
      apply List.ext_getElem?
      intro k
      by_cases hk : k < n
      · have : k < l.length := by omega
        simp [hk, this]
      · simp [hk, show l.length ≤ k by omega]

/-- **C183**. Every order of the elements is the result for some drawn numbers. -/
theorem C183_every_order {P : Type} (s : Seqn.Seq P) (l l' : List P) (hw : WellFormed s) (hc : Contents s l) (hp : l.Perm l') :
    ∃ rnd : Nat → Nat, (∀ k, rnd k ≤ k) ∧ ∃ s', Seqn.shuffle rnd s = some s' ∧ WellFormed s' ∧ Contents s' l' := by
  by_cases h0 : l = []
  · subst h0
    have : l' = [] := List.nil_perm.mp hp
    subst this
    obtain ⟨s', e, r⟩ := shuffle_shuf (fun _ => 0) ⟨hw, hc⟩
    exact ⟨fun _ => 0, fun _ => Nat.zero_le _, s', e, r.1, r.2⟩
  · have hl : 0 < l.length := List.length_pos_iff.mpr h0
    obtain ⟨r, hr, er⟩ := shuf_reach (l.length - 1) l l' [] (by omega) hp
    obtain ⟨s', e, h⟩ := shuffle_shuf r ⟨hw, hc⟩
    simp only [List.append_nil] at er
    rw [er] at h
    exact ⟨r, hr, s', e, h.1, h.2⟩

/-- **C183**. No order is the result for two different choices: the number drawn for place `k` counts modulo `k + 1`, and with different elements two runs with the
same result drew the same numbers in this sense. With `C183_every_order` this is a one-to-one correspondence between the `n!` choices and the orders, so
all orders are equally likely if all choices are. -/
theorem C183_no_order_twice {P : Type} (s : Seqn.Seq P) (l : List P) (hw : WellFormed s) (hc : Contents s l) (hn : l.Nodup) (r r' : Nat → Nat)
    (s1 s2 : Seqn.Seq P) (l' : List P) (h1 : Seqn.shuffle r s = some s1) (h2 : Seqn.shuffle r' s = some s2) (c1 : Contents s1 l') (c2 : Contents s2 l') :
    ∀ k, 1 ≤ k → k < l.length → r k % (k + 1) = r' k % (k + 1) := by
  obtain ⟨t1, e1, g1⟩ := shuffle_shuf r ⟨hw, hc⟩
  obtain ⟨t2, e2, g2⟩ := shuffle_shuf r' ⟨hw, hc⟩
  rw [h1] at e1; rw [h2] at e2
  cases e1; cases e2
  have uniq : ∀ {s : Seqn.Seq P} {a b : List P}, Contents s a → Contents s b → a = b := by
    intro s a b ha hb
    apply List.ext_getElem?
    intro k
    by_cases hk : k < s.length
    · rw [← ha.2 k hk, ← hb.2 k hk]
    · rw [List.getElem?_eq_none (by have := ha.1; omega), List.getElem?_eq_none (by have := hb.1; omega)]
  have he : shuf r l (l.length - 1) = shuf r' l (l.length - 1) := (uniq g1.2 c1).trans (uniq c2 g2.2)
  intro k hk1 hk2
  exact shuf_inj (l.length - 1) l hn (by omega) he k hk1 (by omega)

/-- **C183**, finding: the state of the generator before the call is not put back (the comment says it is): the program's next random number is not the one
it would have got without the call. Here with the generator given in the C standard. -/
theorem C183_state_not_restored_negated :
    ∃ (g : Rng Nat) (st : Nat) (s s' : Seqn.Seq Nat) (st' : Nat), WellFormed s ∧ Contents s [1] ∧ SeqShuffle.shuffle g st s 0 = some (s', st') ∧
      (g.rand st').2 ≠ (g.rand st).2 ∧ (g.rand st').2 ≠ (g.rand (g.rand st).1).2 := by
  refine ⟨⟨fun n => ((n * 1103515245 + 12345) % 2 ^ 64, (n * 1103515245 + 12345) % 2 ^ 64 / 65536 % 32768), id⟩, 1, ⟨false, [some 1], 1, 1⟩, _, _, ⟨by decide, by decide, by decide⟩, ?_, rfl, by decide +kernel, by decide +kernel⟩
  refine ⟨rfl, ?_⟩
  intro i hi
  have : i = 0 := by simp at hi; omega
  subst this; rfl

/-- The hypotheses are met: three elements, and the choices 0 for place 2 and 1 for place 1. -/
example : Seqn.shuffle (fun k => if k = 2 then 0 else 1) (⟨true, [some 7, some 8, some 9, none], 3, 4⟩ : Seqn.Seq Nat) = some ⟨true, [some 9, some 8, some 7, none], 3, 4⟩ := by
  rfl
