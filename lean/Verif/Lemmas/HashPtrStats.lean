import Verif.Lemmas.HashPtrIter
/-! # The numbers printed by `HashMapPrintStats` -/
namespace HashPtr
open CMap (Fns Destroyed HInv hit NoDup Placed)
open CMem HashPtrSpec
open MapSpec (Lawful)

variable {K V : Type} {h h' h0 : Heap (K × V)} {f : Fns K} {B : Nat} {D : List (List (DItem K V))} {c c' : List (DItem K V)}
  {s s' : St K V} {m m' : CMap.HashMap (Nat × K) V}

theorem countLoop_sim : ∀ (c : List (DItem K V)) (n : Nat), Seg h c 0 → (∀ a ∈ c.map adr, a ≠ 0) → c.length < n →
    countLoop h n (hd c 0) = some c.length := by
  intro c
  induction c with
  | nil => intro n _ _ hn; cases n with
    | zero => omega
    | succ n => simp [countLoop, hd]
  | cons p c ih =>
    intro n hs hz hn
    cases n with
    | zero => omega
    | succ n =>
      simp only [List.map_cons, List.mem_cons, forall_eq_or_imp] at hz
      rw [show hd (p :: c) 0 = adr p from rfl]
      simp only [countLoop, if_neg hz.1, getNext, hs.1, Option.bind_eq_bind, Option.bind_some, ih n hs.2 hz.2 (by simpa using hn), List.length_cons]

theorem lengths_sim (M : Mem h0 s m) (H : HInv (lift f) m) : ∀ (n i : Nat), i + n = m.buckets.length →
    lengths s n i = some ((m.buckets.drop i).map List.length) := by
  intro n
  induction n with
  | zero => intro i hi; rw [List.drop_eq_nil_of_le (by omega)]; rfl
  | succ n ih =>
    intro i hi
    have hb : i < m.buckets.length := by omega
    have hle : m.buckets[i].length ≤ m.load := by
      rw [H.load]; exact (List.sublist_flatten_of_mem (List.getElem_mem hb)).length_le
    simp only [lengths, M.rep.slot hb, Option.bind_eq_bind, Option.bind_some]
    rw [countLoop_sim _ _ (M.rep.ok _ (List.getElem_mem hb)) (fun a ha => M.rep.nz a (bucket_mem hb a ha)) (by rw [M.load]; omega),
      Option.bind_some, ih (i + 1) (by omega), Option.bind_some, List.drop_eq_getElem_cons hb, List.map_cons]

theorem bucket_count (H : HInv (lift f) m) {i : Nat} (hb : i < m.buckets.length) :
    m.buckets[i].length = (m.buckets.flatten.map bare).countP fun p => f.hash p.1 % m.size == i := by
  rw [List.countP_map, CMap.flatten_split _ i hb, List.countP_append, List.countP_append]
  have h1 : m.buckets[i].countP ((fun p : K × V => f.hash p.1 % m.size == i) ∘ bare) = m.buckets[i].length := by
    rw [List.countP_eq_length]
    intro p hp
    simpa [bare, lift] using H.placed i hb p hp
  have h2 : (m.buckets.take i).flatten.countP ((fun p : K × V => f.hash p.1 % m.size == i) ∘ bare) = 0 := by
    rw [List.countP_eq_zero]
    intro p hp
    obtain ⟨c, hc, hpc⟩ := List.mem_flatten.mp hp
    rw [List.mem_take_iff_getElem] at hc
    obtain ⟨j, hj, rfl⟩ := hc
    have := H.placed j (by omega) p hpc
    simp only [Function.comp, bare, beq_iff_eq]
    rw [show (lift f).hash p.1 = f.hash p.1.2 from rfl] at this
    omega
  have h3 : (m.buckets.drop (i + 1)).flatten.countP ((fun p : K × V => f.hash p.1 % m.size == i) ∘ bare) = 0 := by
    rw [List.countP_eq_zero]
    intro p hp
    obtain ⟨c, hc, hpc⟩ := List.mem_flatten.mp hp
    rw [List.mem_drop_iff_getElem] at hc
    obtain ⟨j, hj, rfl⟩ := hc
    have := H.placed (i + 1 + j) (by omega) p hpc
    simp only [Function.comp, bare, beq_iff_eq]
    rw [show (lift f).hash p.1 = f.hash p.1.2 from rfl] at this
    omega
  omega

/-! ## The longest buckets -/

theorem longest_aux (ls : List Nat) : ∀ n, n ≤ ls.length →
    let r := (List.range n).foldl (fun best i => if ls.getD i 0 > ls.getD best 0 then i else best) 0
    (r = 0 ∨ r < n) ∧ (∀ i < n, ls.getD i 0 ≤ ls.getD r 0) ∧ ∀ i < r, ls.getD i 0 < ls.getD r 0 := by
  intro n
  induction n with
  | zero => intro _; simp
  | succ n ih =>
    intro hn
    obtain ⟨h1, h2, h3⟩ := ih (by omega)
    simp only [List.range_succ, List.foldl_append, List.foldl_cons, List.foldl_nil]
    generalize (List.range n).foldl (fun best i => if ls.getD i 0 > ls.getD best 0 then i else best) 0 = r at *
    split
    · rename_i hg
      refine ⟨Or.inr (by omega), fun i hi => ?_, fun i hi => ?_⟩
      · rcases Nat.lt_succ_iff_lt_or_eq.mp hi with h | rfl
        · have := h2 i h; omega
        · exact Nat.le_refl _
      · have := h2 i hi; omega
    · rename_i hg
      refine ⟨by omega, fun i hi => ?_, h3⟩
      rcases Nat.lt_succ_iff_lt_or_eq.mp hi with h | rfl
      · exact h2 i h
      · omega

theorem longest_spec (ls : List Nat) (hne : 0 < ls.length) : longest ls < ls.length ∧ (∀ i < ls.length, ls.getD i 0 ≤ ls.getD (longest ls) 0) ∧
    ∀ i < longest ls, ls.getD i 0 < ls.getD (longest ls) 0 := by
  obtain ⟨h1, h2, h3⟩ := longest_aux ls ls.length (Nat.le_refl _)
  exact ⟨by rcases h1 with h | h <;> unfold longest <;> omega, h2, h3⟩

/-- Sorting downwards. -/
def desc (ls : List Nat) : List Nat := ls.mergeSort fun a b => decide (b ≤ a)

theorem desc_eq {a b : List Nat} (hp : a.Perm b) (hs : b.Pairwise (fun x y => y ≤ x)) : desc a = b := by
  have h1 : (desc a).Pairwise (fun x y => decide (y ≤ x) = true) :=
    List.pairwise_mergeSort (fun x y z h1 h2 => by simp only [decide_eq_true_eq] at *; omega) (fun x y => by simp only [Bool.or_eq_true, decide_eq_true_eq]; omega) a
  have h2 : (desc a).Perm b := (List.mergeSort_perm a _).trans hp
  refine List.Perm.eq_of_pairwise (le := fun x y => y ≤ x) ?_ (h1.imp (by simp)) hs h2
  intro x y _ _ h1 h2; omega

theorem perm_erase {l : List Nat} {i : Nat} (hi : i < l.length) : l.Perm (l[i] :: l.eraseIdx i) := by
  rw [List.eraseIdx_eq_take_drop_succ]
  conv => lhs; rw [← List.take_append_drop i l, List.drop_eq_getElem_cons hi]
  exact List.perm_middle

theorem top_desc : ∀ (k : Nat) (ls : List Nat), k ≤ ls.length → (topLoop k ls).map (·.2) = (desc ls).take k := by
  intro k
  induction k with
  | zero => intro ls _; simp [topLoop]
  | succ k ih =>
    intro ls hk
    obtain ⟨h1, h2, h3⟩ := longest_spec ls (by omega)
    generalize hj : longest ls = j at *
    simp only [topLoop, List.map_cons, hj]
    rw [ih _ (by rw [List.length_set]; omega)]
    have hgd : ls.getD j 0 = ls[j] := by simp [List.getD, h1]
    let rest := desc (ls.eraseIdx j)
    have hrp : rest.Perm (ls.eraseIdx j) := List.mergeSort_perm _ _
    have hrs : rest.Pairwise (fun x y => y ≤ x) := by
      have : rest.Pairwise (fun x y => decide (y ≤ x) = true) :=
        List.pairwise_mergeSort (fun x y z h1 h2 => by simp only [decide_eq_true_eq] at *; omega) (fun x y => by simp only [Bool.or_eq_true, decide_eq_true_eq]; omega) _
      exact this.imp (by simp)
    have hp1 : ls.Perm (ls[j] :: ls.eraseIdx j) := perm_erase h1
    have hp2 : (ls.set j 0).Perm (0 :: ls.eraseIdx j) := by
      have := perm_erase (l := ls.set j 0) (i := j) (by simpa using h1)
      rwa [List.getElem_set_self, List.eraseIdx_set_eq] at this
    have e1 : desc ls = ls[j] :: rest := by
      refine desc_eq (hp1.trans (List.Perm.cons _ hrp.symm)) (List.pairwise_cons.mpr ⟨fun x hx => ?_, hrs⟩)
      have hx' : x ∈ ls := hp1.mem_iff.mpr (List.mem_cons_of_mem _ (hrp.mem_iff.mp hx))
      obtain ⟨i, hi, rfl⟩ := List.mem_iff_getElem.mp hx'
      have := h2 i hi
      simpa [List.getD, hi, h1] using this
    have e2 : desc (ls.set j 0) = rest ++ [0] := by
      refine desc_eq (hp2.trans ?_) (List.pairwise_append.mpr ⟨hrs, by simp, by simp⟩)
      exact ((List.Perm.cons 0 hrp.symm)).trans (List.perm_append_singleton _ _).symm
    have hrl : rest.length = ls.length - 1 := by rw [hrp.length_eq, List.length_eraseIdx_of_lt h1]
    rw [e1, e2, List.take_append_of_le_length (by omega), hgd, List.take_succ_cons]

theorem top_real : ∀ (k : Nat) (ls : List Nat), ls ≠ [] → ∀ i c, (i, c) ∈ topLoop k ls → c ≠ 0 → ls[i]? = some c := by
  intro k
  induction k with
  | zero => intro ls _ i c h; simp [topLoop] at h
  | succ k ih =>
    intro ls hne i c hmem hc
    obtain ⟨h1, -, -⟩ := longest_spec ls (List.length_pos_iff.mpr hne)
    simp only [topLoop, List.mem_cons, Prod.mk.injEq] at hmem
    rcases hmem with ⟨rfl, rfl⟩ | hmem
    · simp [List.getD, h1]
    · have := ih _ (by simpa using hne) i c hmem hc
      rw [List.getElem?_set] at this
      split at this
      · first
        | (split at this
           · simp only [Option.some.injEq] at this; exact absurd this.symm hc
           · cases this)
        | (simp only [Option.some.injEq] at this; exact absurd this.symm hc)
      · exact this

theorem top_distinct : ∀ (k : Nat) (ls : List Nat), ls ≠ [] →
    (topLoop k ls).Pairwise (fun x y => y.2 ≠ 0 → x.1 ≠ y.1) := by
  intro k
  induction k with
  | zero => intro ls _; simp [topLoop]
  | succ k ih =>
    intro ls hne
    have hne' : ls.set (longest ls) 0 ≠ [] := by simpa using hne
    simp only [topLoop]
    refine List.pairwise_cons.mpr ⟨fun y hy h0 e => ?_, ih _ hne'⟩
    have := top_real k _ hne' y.1 y.2 hy h0
    simp only at e
    rw [List.getElem?_set, if_pos e] at this
    split at this
    · simp only [Option.some.injEq] at this; exact h0 this.symm
    · cases this

end HashPtr
