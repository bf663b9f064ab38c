import Verif.Model.List
/-! Doubly linked lists in a heap: index-based shape predicate and its preservation. -/
namespace CList
open Queue (Heap Node)

/-- The cells of `c` hold the doubly linked list `l` of (address, datum). -/
structure DL {α : Type} (c : Nat → Option (Node α)) (first last : Option Nat) (l : List (Nat × α)) : Prop where
  first_eq : first = l.head?.map (·.1)
  last_eq : last = l.getLast?.map (·.1)
  nodup : ∀ i j (hi : i < l.length) (hj : j < l.length), l[i].1 = l[j].1 → i = j
  cell : ∀ i (hi : i < l.length), c l[i].1 = some ⟨l[i].2, l[i+1]?.map (·.1), if i = 0 then none else l[i-1]?.map (·.1)⟩

theorem DL.congr {α : Type} {c c' : Nat → Option (Node α)} {f t : Option Nat} {l : List (Nat × α)}
    (h : DL c f t l) (hc : ∀ p ∈ l, c' p.1 = c p.1) : DL c' f t l :=
  ⟨h.first_eq, h.last_eq, h.nodup, fun i hi => by rw [hc _ (List.getElem_mem hi)]; exact h.cell i hi⟩

theorem DL.nil {α : Type} (c : Nat → Option (Node α)) : DL c none none ([] : List (Nat × α)) :=
  ⟨rfl, rfl, fun i j hi => by simp at hi, fun i hi => by simp at hi⟩

theorem DL.snoc {α : Type} {c c' : Nat → Option (Node α)} {f t : Option Nat} {l : List (Nat × α)} {a : Nat} {x : α}
    (h : DL c f t l) (hne : l ≠ []) (hfresh : ∀ p ∈ l, p.1 ≠ a)
    (hc : ∀ b, b ≠ a → some b ≠ t → c' b = c b)
    (ha : c' a = some ⟨x, none, t⟩)
    (ht : ∀ b n, t = some b → c b = some n → c' b = some { n with next := some a }) :
    DL c' f (some a) (l ++ [(a, x)]) := by
  have hlen : 0 < l.length := by cases l with | nil => exact absurd rfl hne | cons => simp
  have hlast : t = some (l[l.length - 1]'(by omega)).1 := by
    rw [h.last_eq, List.getLast?_eq_getElem?, List.getElem?_eq_getElem (by omega)]; rfl
  refine ⟨?_, by simp, ?_, ?_⟩
  · rw [h.first_eq]; cases l with | nil => exact absurd rfl hne | cons => rfl
  · intro i j hi hj he
    simp only [List.length_append, List.length_cons, List.length_nil] at hi hj
    by_cases h1 : i < l.length <;> by_cases h2 : j < l.length
    · rw [List.getElem_append_left h1, List.getElem_append_left h2] at he
      exact h.nodup i j h1 h2 he
    · have : j = l.length := by omega
      subst this
      rw [List.getElem_append_left h1] at he
      simp at he
      exact absurd he (hfresh _ (List.getElem_mem h1))
    · have : i = l.length := by omega
      subst this
      rw [List.getElem_append_left h2] at he
      simp at he
      exact absurd he.symm (hfresh _ (List.getElem_mem h2))
    · omega
  · intro i hi
    simp only [List.length_append, List.length_cons, List.length_nil] at hi
    by_cases h1 : i < l.length
    · have hci := h.cell i h1
      have hp : (if i = 0 then none else (l ++ [(a, x)])[i-1]?.map (·.1)) = (if i = 0 then none else l[i-1]?.map (·.1)) := by
        by_cases hi0 : i = 0
        · simp [hi0]
        · rw [List.getElem?_append_left (by omega)]
      by_cases h2 : i + 1 < l.length
      · rw [List.getElem_append_left h1, hp, List.getElem?_append_left h2, hc, hci]
        · exact hfresh _ (List.getElem_mem h1)
        · rw [hlast]; intro hh
          have := h.nodup i (l.length - 1) h1 (by omega) (Option.some.inj hh)
          omega
      · have hil : i = l.length - 1 := by omega
        have h3 := ht _ _ (by rw [hlast]; simp only [hil]) hci
        rw [List.getElem_append_left h1, hp, h3]
        simp [show i + 1 = l.length by omega]
    · have hil : i = l.length := by omega
      subst hil
      simp only [List.getElem_concat_length, ha]
      rw [List.getElem?_eq_none (by simp), if_neg (by omega), List.getElem?_append_left (by omega), hlast,
        List.getElem?_eq_getElem (by omega)]
      rfl

theorem DL.singleton {α : Type} {c : Nat → Option (Node α)} {a : Nat} {x : α} (ha : c a = some ⟨x, none, none⟩) :
    DL c (some a) (some a) [(a, x)] := by
  refine ⟨rfl, rfl, fun i j hi hj _ => by simp at hi hj; omega, fun i hi => ?_⟩
  have : i = 0 := by simpa using hi
  subst this
  simpa using ha

theorem DL.cons {α : Type} {c c' : Nat → Option (Node α)} {f t : Option Nat} {l : List (Nat × α)} {a : Nat} {x : α}
    (h : DL c f t l) (hne : l ≠ []) (hfresh : ∀ p ∈ l, p.1 ≠ a)
    (hc : ∀ b, b ≠ a → some b ≠ f → c' b = c b)
    (ha : c' a = some ⟨x, f, none⟩)
    (ht : ∀ b n, f = some b → c b = some n → c' b = some { n with previous := some a }) :
    DL c' (some a) t ((a, x) :: l) := by
  have hlen : 0 < l.length := by cases l with | nil => exact absurd rfl hne | cons => simp
  have hf : f = some (l[0]).1 := by
    rw [h.first_eq, List.head?_eq_getElem?, List.getElem?_eq_getElem (by omega)]; rfl
  refine ⟨rfl, ?_, ?_, ?_⟩
  · rw [h.last_eq]; cases l with | nil => exact absurd rfl hne | cons => simp
  · intro i j hi hj he
    simp only [List.length_cons] at hi hj
    cases i with
    | zero =>
      cases j with
      | zero => rfl
      | succ j => simp at he; exact absurd he.symm (hfresh _ (List.getElem_mem (by omega)))
    | succ i =>
      cases j with
      | zero => simp at he; exact absurd he (hfresh _ (List.getElem_mem (by omega)))
      | succ j => simp at he; rw [h.nodup i j (by omega) (by omega) he]
  · intro i hi
    simp only [List.length_cons] at hi
    cases i with
    | zero =>
      simp only [List.getElem_cons_zero, ha, hf]
      rw [List.getElem?_cons_succ, List.getElem?_eq_getElem (by omega)]
      simp
    | succ i =>
      have hci := h.cell i (by omega)
      simp only [List.getElem_cons_succ, List.getElem?_cons_succ, Nat.succ_ne_zero, if_false, Nat.add_sub_cancel]
      cases i with
      | zero =>
        rw [ht _ _ hf hci]
        simp
      | succ k =>
        rw [hc _ (hfresh _ (List.getElem_mem (by omega))), hci]
        · simp
        · rw [hf]; intro hh
          have := h.nodup _ _ (by omega) (by omega) (Option.some.inj hh)
          omega

/-- Removing the node at position `k`. -/
theorem DL.erase {α : Type} {c c' : Nat → Option (Node α)} {f t f' t' : Option Nat} {l : List (Nat × α)} {k : Nat}
    (h : DL c f t l) (hk : k < l.length)
    (hc : ∀ i (hi : i < l.length), i ≠ k → i + 1 ≠ k → i ≠ k + 1 → c' l[i].1 = c l[i].1)
    (hp : ∀ (hk0 : k ≠ 0) n, c (l[k-1]'(by omega)).1 = some n →
      c' (l[k-1]'(by omega)).1 = some { n with next := l[k+1]?.map (·.1) })
    (hn : ∀ (hk1 : k + 1 < l.length) n, c l[k+1].1 = some n →
      c' l[k+1].1 = some { n with previous := if k = 0 then none else l[k-1]?.map (·.1) })
    (hf : f' = if k = 0 then l[1]?.map (·.1) else f)
    (ht : t' = if k + 1 = l.length then (if k = 0 then none else l[k-1]?.map (·.1)) else t) :
    DL c' f' t' (l.eraseIdx k) := by
  have hlen : (l.eraseIdx k).length = l.length - 1 := by rw [List.length_eraseIdx, if_pos hk]
  refine ⟨?_, ?_, ?_, ?_⟩
  · rw [hf, h.first_eq, List.head?_eq_getElem?, List.head?_eq_getElem?, List.getElem?_eraseIdx]
    by_cases h0 : k = 0
    · simp [h0]
    · rw [if_neg h0, if_pos (by omega)]
  · rw [ht, h.last_eq, List.getLast?_eq_getElem?, List.getLast?_eq_getElem?, List.getElem?_eraseIdx, hlen]
    by_cases h1 : k + 1 = l.length
    · rw [if_pos h1]
      by_cases h0 : k = 0
      · subst h0
        rw [if_pos rfl, if_neg (by omega), List.getElem?_eq_none (by omega)]; rfl
      · rw [if_neg h0, if_pos (by omega), show l.length - 1 - 1 = k - 1 by omega]
    · rw [if_neg h1, if_neg (by omega), show l.length - 1 - 1 + 1 = l.length - 1 by omega]
  · intro i j hi hj he
    rw [hlen] at hi hj
    rw [List.getElem_eraseIdx, List.getElem_eraseIdx] at he
    split at he <;> split at he <;> have := h.nodup _ _ (by omega) (by omega) he <;> omega
  · intro i hi
    rw [hlen] at hi
    simp only [List.getElem?_eraseIdx]
    rw [List.getElem_eraseIdx]
    by_cases hik : i < k
    · rw [dif_pos hik]
      have hci := h.cell i (by omega)
      by_cases h1 : i + 1 = k
      · subst h1
        rw [show l[i] = l[i + 1 - 1]'(by omega) by simp] at hci ⊢
        rw [hp (by omega) _ hci]
        simp only [Nat.add_sub_cancel, Nat.lt_irrefl, if_false]
        by_cases hi0 : i = 0
        · simp [hi0]
        · simp [hi0, show i - 1 < i + 1 by omega]
      · rw [hc i (by omega) (by omega) h1 (by omega), hci]
        simp only [if_pos (show i + 1 < k by omega)]
        by_cases hi0 : i = 0
        · simp [hi0]
        · simp [hi0, show i - 1 < k by omega]
    · rw [dif_neg hik]
      have hci := h.cell (i+1) (by omega)
      rw [if_neg (by omega)]
      by_cases h1 : i = k
      · subst h1
        rw [hn (by omega) _ hci]
        by_cases hi0 : i = 0
        · simp [hi0]
        · simp [hi0, show i - 1 < i by omega]
      · rw [hc (i+1) (by omega) (by omega) (by omega) (by omega), hci]
        have hi0 : i ≠ 0 := by omega
        simp [hi0, show ¬ i - 1 < k by omega, show i - 1 + 1 = i by omega]

theorem length_le_of_nodup {α : Type} : ∀ (n : Nat) (l : List (Nat × α)),
    (∀ i j (hi : i < l.length) (hj : j < l.length), l[i].1 = l[j].1 → i = j) → (∀ p ∈ l, p.1 < n) → l.length ≤ n := by
  intro n l hnd hlt
  have hnd' : (l.map (·.1)).Nodup := by
    rw [List.nodup_iff_pairwise_ne, List.pairwise_iff_getElem]
    intro i j hi hj hij h
    simp only [List.length_map] at hi hj
    simp only [List.getElem_map] at h
    have := hnd i j hi hj h
    omega
  have := (List.Nodup.length_le_of_subset hnd' (l₂ := List.range n) (by
    intro x hx; simp at hx; obtain ⟨y, hy⟩ := hx; simp; exact hlt _ hy))
  simpa using this

end CList
