import Verif.Lemmas.Seq
namespace Seqn
open SeqSpec

/-- Exchange positions `i` and `j`. -/
def exch {P : Type} (l : List P) (i j : Nat) (hi : i < l.length) (hj : j < l.length) : List P :=
  (l.set i l[j]).set j l[i]

@[simp] theorem exch_length {P : Type} (l : List P) (i j : Nat) (hi : i < l.length) (hj : j < l.length) :
    (exch l i j hi hj).length = l.length := by simp [exch]

theorem swap_eq {P : Type} {l : List P} {rest : List (Option P)} {i j : Nat} (hi : i < l.length) (hj : j < l.length) :
    swap (l.map some ++ rest) i j = some ((exch l i j hi hj).map some ++ rest) := by
  have h1 : CMem.write (l.map some ++ rest) i (some l[j]) = some ((l.set i l[j]).map some ++ rest) := by
    rw [CMem.write_eq (by simp; omega), List.set_append, if_pos (by simpa using hi), List.map_set]
  have h2 : CMem.write ((l.set i l[j]).map some ++ rest) j (some l[i]) =
      some (((l.set i l[j]).set j l[i]).map some ++ rest) := by
    rw [CMem.write_eq (by simp; omega), List.set_append, if_pos (by simpa using hj)]
    simp [List.map_set]
  simp only [swap, get_app hi, get_app hj, Option.bind_eq_bind, Option.bind_some, h1, h2, exch]

theorem exch_getElem? {P : Type} {l : List P} {i j : Nat} (hi : i < l.length) (hj : j < l.length) (k : Nat) :
    (exch l i j hi hj)[k]? = if k = j then l[i]? else if k = i then l[j]? else l[k]? := by
  simp only [exch, List.getElem?_set, List.length_set]
  by_cases h1 : j = k
  · subst h1; simp [hi, hj]
  · by_cases h2 : i = k
    · subst h2; simp [h1, Ne.symm h1, hi, hj]
    · simp [h1, h2, Ne.symm h1, Ne.symm h2]

theorem exch_perm {P : Type} {l : List P} {i j : Nat} (hi : i < l.length) (hj : j < l.length) :
    (exch l i j hi hj).Perm l := List.set_set_perm hi hj

/-- `l'` is obtained from `l` by exchanging positions inside `[lo, hi)`. -/
inductive Sw {P : Type} (lo hi : Nat) : List P → List P → Prop
  | refl (l) : Sw lo hi l l
  | step {l i j l'} (hi1 : i < l.length) (hj1 : j < l.length) (h1 : lo ≤ i) (h2 : i < hi) (h3 : lo ≤ j) (h4 : j < hi)
      (h : Sw lo hi (exch l i j hi1 hj1) l') : Sw lo hi l l'

theorem Sw.trans {P : Type} {lo hi : Nat} {a b c : List P} (h1 : Sw lo hi a b) (h2 : Sw lo hi b c) : Sw lo hi a c := by
  induction h1 with
  | refl => exact h2
  | step hi1 hj1 e1 e2 e3 e4 _ ih => exact .step hi1 hj1 e1 e2 e3 e4 (ih h2)

theorem Sw.mono {P : Type} {lo hi lo' hi' : Nat} {a b : List P} (h : Sw lo hi a b) (h1 : lo' ≤ lo) (h2 : hi ≤ hi') :
    Sw lo' hi' a b := by
  induction h with
  | refl => exact .refl _
  | step hi1 hj1 e1 e2 e3 e4 _ ih => exact .step hi1 hj1 (by omega) (by omega) (by omega) (by omega) ih

theorem Sw.length {P : Type} {lo hi : Nat} {a b : List P} (h : Sw lo hi a b) : b.length = a.length := by
  induction h with
  | refl => rfl
  | step _ _ _ _ _ _ _ ih => simpa using ih

theorem Sw.perm {P : Type} {lo hi : Nat} {a b : List P} (h : Sw lo hi a b) : b.Perm a := by
  induction h with
  | refl => exact .refl _
  | step hi1 hj1 _ _ _ _ _ ih => exact ih.trans (exch_perm hi1 hj1)

theorem Sw.outside {P : Type} {lo hi : Nat} {a b : List P} (h : Sw lo hi a b) {k : Nat} (hk : k < lo ∨ hi ≤ k) :
    b[k]? = a[k]? := by
  induction h with
  | refl => rfl
  | step hi1 hj1 e1 e2 e3 e4 _ ih =>
    rw [ih, exch_getElem?, if_neg (by omega), if_neg (by omega)]

/-- A property of all the elements in a region containing the exchanged one is preserved. -/
theorem Sw.all {P : Type} {lo hi : Nat} {a b : List P} (h : Sw lo hi a b) {lo' hi' : Nat}
    (hreg : (lo' ≤ lo ∧ hi ≤ hi')) {Q : P → Prop}
    (hq : ∀ k x, lo' ≤ k → k < hi' → a[k]? = some x → Q x) : ∀ k x, lo' ≤ k → k < hi' → b[k]? = some x → Q x := by
  induction h with
  | refl => exact hq
  | step hi1 hj1 e1 e2 e3 e4 _ ih =>
    apply ih
    intro k x h1 h2 h3
    rw [exch_getElem?] at h3
    split at h3
    · exact hq _ _ (by omega) (by omega) h3
    · split at h3
      · exact hq _ _ (by omega) (by omega) h3
      · exact hq _ _ h1 h2 h3

section
variable {P : Type} {cmp : Cmp P}

theorem scanUp_spec {l : List P} {rest : List (Option P)} {p : P} {m : Nat} {xm : P}
    (hm : l[m]? = some xm) (hge : 0 ≤ cmp xm p) :
    ∀ fuel i, i ≤ m → m - i < fuel →
      ∃ j, scanUp cmp (l.map some ++ rest) p fuel i = some j ∧ i ≤ j ∧ j ≤ m ∧
        (∀ k x, i ≤ k → k < j → l[k]? = some x → cmp x p < 0) ∧ (∃ x, l[j]? = some x ∧ 0 ≤ cmp x p) := by
  have hml : m < l.length := by
    rw [List.getElem?_eq_some_iff] at hm; exact hm.1
  intro fuel
  induction fuel with
  | zero => intro i _ h; omega
  | succ fuel ih =>
    intro i hi hf
    have hil : i < l.length := by omega
    simp only [scanUp, get_app hil, Option.bind_eq_bind, Option.bind_some]
    by_cases hc : cmp l[i] p < 0
    · have him : i ≠ m := by
        intro h; subst h
        rw [List.getElem?_eq_getElem hil] at hm
        simp at hm; subst hm; omega
      obtain ⟨j, e, h1, h2, h3, h4⟩ := ih (i+1) (by omega) (by omega)
      refine ⟨j, by simp [hc, e], by omega, h2, ?_, h4⟩
      intro k x hk1 hk2 hk3
      by_cases hki : k = i
      · subst hki; rw [List.getElem?_eq_getElem hil] at hk3; simp at hk3; subst hk3; exact hc
      · exact h3 k x (by omega) hk2 hk3
    · refine ⟨i, by simp [hc], Nat.le_refl _, hi, by intro k x h1 h2; omega, l[i], by simp [hil], by omega⟩

theorem scanDown_spec {l : List P} {rest : List (Option P)} {p : P} {m : Nat} {xm : P}
    (hm : l[m]? = some xm) (hle : cmp xm p ≤ 0) :
    ∀ fuel r1, m < r1 → r1 ≤ l.length → r1 - m ≤ fuel →
      ∃ j, scanDown cmp (l.map some ++ rest) p fuel r1 = some j ∧ j ≤ r1 ∧ m < j ∧
        (∀ k x, j ≤ k → k < r1 → l[k]? = some x → 0 < cmp x p) ∧ (∃ x, l[j-1]? = some x ∧ cmp x p ≤ 0) := by
  intro fuel
  induction fuel with
  | zero => intro r1 h1 _ h; omega
  | succ fuel ih =>
    intro r1 h1 h2 hf
    obtain ⟨r, rfl⟩ : ∃ r, r1 = r + 1 := ⟨r1 - 1, by omega⟩
    have hrl : r < l.length := by omega
    simp only [scanDown, get_app hrl, Option.bind_eq_bind, Option.bind_some]
    by_cases hc : cmp l[r] p > 0
    · have hrm : r ≠ m := by
        intro h; subst h
        rw [List.getElem?_eq_getElem hrl] at hm
        simp at hm; subst hm; omega
      obtain ⟨j, e, g1, g2, g3, g4⟩ := ih r (by omega) (by omega) (by omega)
      refine ⟨j, by simp [hc, e], by omega, g2, ?_, g4⟩
      intro k x hk1 hk2 hk3
      by_cases hkr : k = r
      · subst hkr; rw [List.getElem?_eq_getElem hrl] at hk3; simp at hk3; subst hk3; exact hc
      · exact g3 k x hk1 (by omega) hk3
    · refine ⟨r + 1, by simp [hc], Nat.le_refl _, h1, by intro k x h1 h2; omega, l[r], by simp [hrl], by omega⟩

/-- The partition loop. -/
theorem partition_spec {lo hi : Nat} {p : P} (hlohi : lo < hi) : ∀ fuel (l : List P) (rest : List (Option P)) (i r1 : Nat),
    hi ≤ l.length → lo ≤ i → r1 ≤ hi → r1 - i < fuel → i ≤ hi → lo ≤ r1 →
    (∀ k x, lo ≤ k → k < i → l[k]? = some x → cmp x p ≤ 0) →
    (∀ k x, r1 ≤ k → k < hi → l[k]? = some x → 0 ≤ cmp x p) →
    ((lo < i ∧ r1 < hi) ∨ (∃ m x, i ≤ m ∧ m < r1 ∧ l[m]? = some x ∧ cmp x p = 0)) →
    ∃ l' i' r1', partition cmp p fuel (l.map some ++ rest) i r1 = some (l'.map some ++ rest, i', r1') ∧
      Sw lo hi l l' ∧ r1' ≤ i' ∧ lo < i' ∧ i' ≤ hi ∧ lo ≤ r1' ∧ r1' < hi ∧
      (∀ k x, lo ≤ k → k < i' → l'[k]? = some x → cmp x p ≤ 0) ∧
      (∀ k x, r1' ≤ k → k < hi → l'[k]? = some x → 0 ≤ cmp x p) := by
  intro fuel
  induction fuel with
  | zero => intro l rest i r1 _ _ _ h; omega
  | succ fuel ih =>
    intro l rest i r1 hlen hlo hr hf hi' hlr hle hge hprog
    unfold partition
    by_cases hlt : i < r1
    · -- sentinels
      have hup : ∃ m x, i ≤ m ∧ m < hi ∧ l[m]? = some x ∧ 0 ≤ cmp x p := by
        rcases hprog with ⟨h1, h2⟩ | ⟨m, x, h1, h2, h3, h4⟩
        · have : r1 < l.length := by omega
          exact ⟨r1, l[r1], by omega, h2, by simp [this], hge r1 _ (Nat.le_refl _) h2 (by simp [this])⟩
        · exact ⟨m, x, h1, by omega, h3, by omega⟩
      have hdn : ∃ m x, lo ≤ m ∧ m < r1 ∧ l[m]? = some x ∧ cmp x p ≤ 0 := by
        rcases hprog with ⟨h1, h2⟩ | ⟨m, x, h1, h2, h3, h4⟩
        · have : i - 1 < l.length := by omega
          exact ⟨i - 1, l[i-1], by omega, by omega, by simp [this], hle (i-1) _ (by omega) (by omega) (by simp [this])⟩
        · exact ⟨m, x, by omega, h2, h3, by omega⟩
      obtain ⟨mu, xu, u1, u2, u3, u4⟩ := hup
      obtain ⟨md, xd, d1, d2, d3, d4⟩ := hdn
      have hdl : (l.map some ++ rest).length = l.length + rest.length := by simp
      obtain ⟨i2, e1, a1, a2, a3, x2, a4, a5⟩ := scanUp_spec (rest := rest) u3 u4
        ((l.map some ++ rest).length + 1) i u1 (by omega)
      obtain ⟨r2, e2, b1, b2, b3, y2, b4, b5⟩ := scanDown_spec (rest := rest) d3 d4
        ((l.map some ++ rest).length + 1) r1 d2 (by omega) (by omega)
      have hle2 : ∀ k x, lo ≤ k → k < i2 → l[k]? = some x → cmp x p ≤ 0 := by
        intro k x h1 h2 h3
        by_cases hk : k < i
        · exact hle k x h1 hk h3
        · exact Int.le_of_lt (a3 k x (by omega) h2 h3)
      have hge2 : ∀ k x, r2 ≤ k → k < hi → l[k]? = some x → 0 ≤ cmp x p := by
        intro k x h1 h2 h3
        by_cases hk : r1 ≤ k
        · exact hge k x hk h2 h3
        · exact Int.le_of_lt (b3 k x h1 (by omega) h3)
      simp only [hlt, if_true, e1, e2, Option.bind_eq_bind, Option.bind_some]
      by_cases hlt2 : i2 < r2
      · have hi2l : i2 < l.length := by omega
        have hr2l : r2 - 1 < l.length := by omega
        simp only [hlt2, if_true, swap_eq hi2l hr2l, Option.bind_some]
        have hfu : r2 - 1 - (i2 + 1) < fuel := by clear hprog ih; omega
        obtain ⟨l', i', r1', f1, f2, f3⟩ := ih (exch l i2 (r2-1) hi2l hr2l) rest (i2+1) (r2-1) (by simpa using hlen)
          (by omega) (by omega) hfu (by omega) (by omega)
          (by
            intro k x h1 h2 h3
            rw [exch_getElem?] at h3
            split at h3
            · rename_i hk
              have : k = i2 := by omega
              rw [show r2 - 1 = i2 by omega] at b4
              rw [b4] at h3; simp at h3; subst h3; exact b5
            · split at h3
              · rw [b4] at h3; simp at h3; subst h3; exact b5
              · exact hle2 k x h1 (by omega) h3)
          (by
            intro k x h1 h2 h3
            rw [exch_getElem?] at h3
            split at h3
            · rw [a4] at h3; simp at h3; subst h3; exact a5
            · split at h3
              · omega
              · exact hge2 k x (by omega) h2 h3)
          (Or.inl ⟨by omega, by omega⟩)
        exact ⟨l', i', r1', f1, .step hi2l hr2l (by omega) (by omega) (by omega) (by omega) f2, f3⟩
      · simp only [hlt2, if_false]
        have hp2 : lo < i2 ∧ r2 < hi := by
          rcases hprog with ⟨h1, h2⟩ | ⟨m, x, h1, h2, h3, h4⟩
          · omega
          · exfalso
            have hm1 : i2 ≤ m := by
              apply Decidable.byContradiction; intro hn
              have := a3 m x h1 (by omega) h3; omega
            have hm2 : m < r2 := by
              apply Decidable.byContradiction; intro hn
              have := b3 m x (by omega) (by omega) h3; omega
            omega
        -- the next iteration ends immediately
        obtain ⟨f, rfl⟩ : ∃ f, fuel = f + 1 := ⟨fuel - 1, by omega⟩
        unfold partition
        simp only [hlt2, if_false]
        exact ⟨l, i2, r2, rfl, .refl _, by omega, by omega, by omega, by omega, by omega, hle2, hge2⟩
    · simp only [hlt, if_false]
      have hp : lo < i ∧ r1 < hi := by
        rcases hprog with h | ⟨m, x, h1, h2, _, _⟩
        · exact h
        · omega
      exact ⟨l, i, r1, rfl, .refl _, by omega, by omega, by omega, by omega, by omega, hle, hge⟩

/-- Region `[lo,hi)` is in order. -/
def SortedOn (cmp : Cmp P) (lo hi : Nat) (l : List P) : Prop :=
  ∀ i j x y, lo ≤ i → i < j → j < hi → l[i]? = some x → l[j]? = some y → cmp x y ≤ 0

theorem le_via (hc : TotalPreorder cmp) {x y p : P} (h1 : cmp x p ≤ 0) (h2 : 0 ≤ cmp y p) : cmp x y ≤ 0 := by
  apply hc.trans x p y h1
  have := hc.swap p y
  omega

theorem quickSort_spec (hc : TotalPreorder cmp) : ∀ fuel (l : List P) (rest : List (Option P)) (lo n : Nat),
    n < fuel → lo + n ≤ l.length →
    ∃ l', quickSort cmp fuel (l.map some ++ rest) lo n = some (l'.map some ++ rest) ∧
      Sw lo (lo + n) l l' ∧ SortedOn cmp lo (lo + n) l' := by
  intro fuel
  induction fuel with
  | zero => intro l rest lo n h; omega
  | succ fuel ih =>
    intro l rest lo n hn hlen
    unfold quickSort
    by_cases h2 : n < 2
    · simp only [h2, if_true]
      exact ⟨l, rfl, .refl _, by intro i j x y h1 h2 h3; omega⟩
    · have hml : lo + n / 2 < l.length := by omega
      simp only [h2, if_false, get_app hml, Option.bind_eq_bind, Option.bind_some]
      obtain ⟨l1, i, r1, e1, s1, p1, p2, p3, p4, p5, p6, p7⟩ := partition_spec (cmp := cmp) (lo := lo) (hi := lo + n)
        (p := l[lo + n/2]) (by omega) (n + 2) l rest lo (lo + n) hlen (Nat.le_refl _) (Nat.le_refl _) (by omega)
        (by omega) (by omega) (by intro k x h1 h2; omega) (by intro k x h1 h2; omega)
        (Or.inr ⟨lo + n/2, l[lo+n/2], by omega, by omega, by simp [hml], hc.refl _⟩)
      simp only [e1, Option.bind_some]
      have len1 := s1.length
      obtain ⟨l2, e2, s2, o2⟩ := ih l1 rest lo (r1 - lo) (by omega) (by omega)
      have len2 := s2.length
      obtain ⟨l3, e3, s3, o3⟩ := ih l2 rest i (lo + n - i) (by omega) (by omega)
      simp only [e2, e3, Option.bind_some]
      rw [show lo + (r1 - lo) = r1 by omega] at s2 o2
      rw [show i + (lo + n - i) = lo + n by omega] at s3 o3
      refine ⟨l3, rfl, (s1.trans (s2.mono (Nat.le_refl _) (by omega))).trans (s3.mono (by omega) (Nat.le_refl _)), ?_⟩
      -- facts about l3
      have q1 : ∀ k x, lo ≤ k → k < i → l3[k]? = some x → cmp x l[lo+n/2] ≤ 0 := by
        intro k x h1 h2 h3
        rw [s3.outside (by omega)] at h3
        exact s2.all ⟨Nat.le_refl _, p1⟩ (p6) k x h1 h2 h3
      have q2 : ∀ k x, r1 ≤ k → k < lo + n → l3[k]? = some x → 0 ≤ cmp x l[lo+n/2] := by
        refine s3.all ⟨p1, Nat.le_refl _⟩ ?_
        intro k x h1 h2 h3
        rw [s2.outside (by omega)] at h3
        exact p7 k x h1 h2 h3
      intro a b x y h1 h2 h3 h4 h5
      by_cases hb : b < r1
      · rw [s3.outside (by omega)] at h4 h5
        exact o2 a b x y h1 h2 hb h4 h5
      · by_cases ha : a < i
        · exact le_via hc (q1 a x h1 ha h4) (q2 b y (by omega) h3 h5)
        · exact o3 a b x y (by omega) h2 h3 h4 h5

theorem sort_spec (hc : TotalPreorder cmp) {s : Seq P} {l : List P} (h : Has s l) :
    ∃ s' l', sort cmp s = some s' ∧ Has s' l' ∧ l'.Perm l ∧ Sorted cmp l' ∧ s'.hasDestroy = s.hasDestroy := by
  obtain ⟨rest, hx, dat, cap, pos, len⟩ := h.rep
  obtain ⟨l', e, sw, so⟩ := quickSort_spec hc (l.length + 1) l rest 0 l.length (by omega) (by omega)
  refine ⟨{ s with data := l'.map some ++ rest }, l', ?_, ?_, sw.perm, ?_, rfl⟩
  · rw [sort, dat, len, e]; rfl
  · refine Rep.has (rest := rest) ⟨rfl, rfl, ?_, pos, by simp [len, sw.length]⟩
    simp only [List.length_append, List.length_map, sw.length]
    rw [← cap, dat]; simp
  · rw [Sorted, List.pairwise_iff_getElem]
    intro i j hi hj hij
    have hl := sw.length
    exact so i j _ _ (Nat.zero_le _) hij (by omega) (by simp [hi]) (by simp [hj])

theorem binLoop_spec (hc : TotalPreorder cmp) {l : List P} {rest : List (Option P)} (hs : Sorted cmp l) (key : P) :
    ∀ fuel low high, low ≤ high → high ≤ l.length → high - low < fuel →
      (∀ k x, k < low → l[k]? = some x → 0 < cmp key x) → (∀ k x, high ≤ k → l[k]? = some x → cmp key x < 0) →
      (∃ i x, binLoop cmp key (l.map some ++ rest) fuel low high = some (Int.ofNat i) ∧ l[i]? = some x ∧ cmp key x = 0) ∨
      (binLoop cmp key (l.map some ++ rest) fuel low high = some (-1) ∧ ∀ x ∈ l, cmp key x ≠ 0) := by
  intro fuel
  induction fuel with
  | zero => intro low high _ _ h; omega
  | succ fuel ih =>
    intro low high h1 h2 hf hlo hhi
    unfold binLoop
    by_cases hlt : low < high
    · have hmid : low + ((high - low) >>> 1) = low + (high - low) / 2 := by rw [Nat.shiftRight_eq_div_pow]
      have hm : low + (high - low) / 2 < l.length := by omega
      simp only [hlt, if_true, hmid, get_app hm, Option.bind_eq_bind, Option.bind_some]
      have hpw := List.pairwise_iff_getElem.mp hs
      generalize hmm : low + (high - low) / 2 = m at hm ⊢
      by_cases h0 : cmp key l[m] = 0
      · left
        exact ⟨m, l[m], by simp [h0], by simp [hm], h0⟩
      · by_cases hg : cmp key l[m] > 0
        · simp only [h0, hg, if_true, if_false]
          refine ih (m + 1) high (by omega) h2 (by omega) ?_ hhi
          intro k x hk hx
          obtain ⟨hkl, hkx⟩ := List.getElem?_eq_some_iff.mp hx
          by_cases hkm : k = m
          · subst hkm; rw [← hkx]; exact hg
          · have := hpw k m hkl hm (by omega)
            rw [hkx] at this
            apply Decidable.byContradiction; intro hn
            have := hc.trans key x l[m] (by omega) this
            omega
        · simp only [h0, hg, if_false]
          refine ih low m (by omega) (by omega) (by omega) hlo ?_
          intro k x hk hx
          obtain ⟨hkl, hkx⟩ := List.getElem?_eq_some_iff.mp hx
          have hxm : cmp l[m] x ≤ 0 := by
            by_cases hkm : k = m
            · subst hkm; rw [← hkx, hc.refl]; omega
            · have := hpw m k hm hkl (by omega)
              rwa [hkx] at this
          have s1 := hc.swap key x
          have s2 := hc.swap x key
          have s3 := hc.swap l[m] key
          apply Decidable.byContradiction; intro hn
          -- key ≥ x ≥ l[m] gives key ≥ l[m]
          have h5 : cmp x key ≤ 0 := by omega
          have h6 := hc.trans l[m] x key hxm h5
          omega
    · right
      simp only [hlt, if_false, true_and]
      intro x hx
      obtain ⟨k, hk, hkx⟩ := List.mem_iff_getElem.mp hx
      by_cases hkl : k < low
      · have := hlo k x hkl (by simp [hk, hkx]); omega
      · have := hhi k x (by omega) (by simp [hk, hkx]); omega

theorem reverseLoop_spec {l0 : List P} {rest : List (Option P)} : ∀ n i (l : List P), i + n = l0.length / 2 →
    l.length = l0.length →
    (∀ k, l[k]? = if k < i ∨ l0.length - i ≤ k then (if k < l0.length then l0[l0.length - 1 - k]? else none) else l0[k]?) →
    reverseLoop l0.length (l.map some ++ rest) i n = some (l0.reverse.map some ++ rest) := by
  intro n
  induction n with
  | zero =>
    intro i l h1 h2 h3
    simp only [reverseLoop]
    congr 3
    apply List.ext_getElem?
    intro k
    rw [h3]
    by_cases hk : k < l0.length
    · rw [List.getElem?_reverse hk]
      split
      · rfl
      · congr 1; omega
    · rw [if_pos (by omega), if_neg hk, List.getElem?_eq_none (by simp; omega)]
  | succ n ih =>
    intro i l h1 h2 h3
    have hi : i < l.length := by omega
    have hj : l0.length - 1 - i < l.length := by omega
    simp only [reverseLoop, swap_eq hi hj, Option.bind_eq_bind, Option.bind_some]
    apply ih (i+1) _ (by omega) (by simpa using h2)
    intro k
    rw [exch_getElem?]
    by_cases hkj : k = l0.length - 1 - i
    · simp only [hkj, if_true, h3]
      rw [if_neg (by omega), if_pos (by omega), if_pos (by omega)]
      congr 1; omega
    · by_cases hki : k = i
      · subst hki
        simp only [hkj, if_true, if_false, h3]
        rw [if_neg (by omega), if_pos (by omega), if_pos (by omega)]
      · simp only [hkj, hki, if_false, h3]
        by_cases hc : k < i ∨ l0.length - i ≤ k
        · rw [if_pos hc]
          split
          · rw [if_pos (by omega)]
          · rw [if_pos (by omega)]
        · rw [if_neg hc, if_neg (by omega)]

theorem reverse_spec {s : Seq P} {l : List P} (h : Has s l) :
    ∃ s', reverse s = some s' ∧ Has s' l.reverse ∧ s'.hasDestroy = s.hasDestroy := by
  obtain ⟨rest, hx, dat, cap, pos, len⟩ := h.rep
  have e := reverseLoop_spec (rest := rest) (l0 := l) (l.length / 2) 0 l (by omega) rfl (by
    intro k
    by_cases hk : k < l.length
    · rw [if_neg (by omega)]
    · rw [if_pos (by omega), if_neg hk]; simp; omega)
  refine ⟨{ s with data := l.reverse.map some ++ rest }, ?_, ?_, rfl⟩
  · rw [reverse, dat, len, e]; rfl
  · refine Rep.has (rest := rest) ⟨rfl, rfl, ?_, pos, by simp [len]⟩
    simp only [List.length_append, List.length_map, List.length_reverse]
    rw [← cap, dat]; simp

theorem shuffleLoop_spec {rnd : Nat → Nat} {rest : List (Option P)} : ∀ i (l : List P), i < l.length →
    ∃ l' : List P, shuffleLoop rnd (l.map some ++ rest) i = some (l'.map some ++ rest) ∧ l'.Perm l := by
  intro i
  induction i with
  | zero => intro l _; exact ⟨l, rfl, .refl _⟩
  | succ i ih =>
    intro l hi
    have hj : rnd (i+1) % (i+1+1) < l.length := by
      have := Nat.mod_lt (rnd (i+1)) (show 0 < i + 1 + 1 by omega); omega
    obtain ⟨l', e, p⟩ := ih (exch l (i+1) _ hi hj) (by simp; omega)
    exact ⟨l', by simp [shuffleLoop, swap_eq hi hj, e], p.trans (exch_perm hi hj)⟩

theorem shuffle_spec (rnd : Nat → Nat) {s : Seq P} {l : List P} (h : Has s l) :
    ∃ s' l', shuffle rnd s = some s' ∧ Has s' l' ∧ l'.Perm l := by
  obtain ⟨rest, hx, dat, cap, pos, len⟩ := h.rep
  unfold shuffle
  by_cases h0 : s.length = 0
  · rw [if_pos h0]; exact ⟨s, l, rfl, h, .refl _⟩
  · rw [if_neg h0]
    obtain ⟨l', e, p⟩ := shuffleLoop_spec (rnd := rnd) (rest := rest) (s.length - 1) l (by omega)
    refine ⟨{ s with data := l'.map some ++ rest }, l', ?_, ?_, p⟩
    · rw [dat, e]; rfl
    · refine Rep.has (rest := rest) ⟨rfl, rfl, ?_, pos, by simp [len, p.length_eq]⟩
      simp only [List.length_append, List.length_map, p.length_eq]
      rw [← cap, dat]; simp

end
end Seqn
