import Verif.Spec.Map
import Verif.Lemmas.Stack
/-! # Proof machinery for Map -/
namespace CMap
open CMem MapSpec

/-- The list-level view of a map: items, without two equal keys. -/
def NoDup {K V : Type} (f : Fns K) (l : List (K × V)) : Prop := l.Pairwise (fun p q => f.eq p.1 q.1 = false)

/-- Items with a key equal to `k`. -/
def hit {K V : Type} (f : Fns K) (k : K) (p : K × V) : Bool := f.eq p.1 k

theorem Lawful.symm_iff {K : Type} {f : Fns K} (hf : Lawful f) (a b : K) : f.eq a b = f.eq b a := by
  have h1 := hf.symm a b; have h2 := hf.symm b a
  cases h : f.eq a b <;> cases h' : f.eq b a <;> simp_all

theorem noDup_perm {K V : Type} {f : Fns K} (hf : Lawful f) {l l' : List (K × V)} (h : l.Perm l') (hn : NoDup f l) :
    NoDup f l' := by
  unfold NoDup at *
  refine (h.pairwise_iff ?_).mp hn
  intro a b hab; rw [Lawful.symm_iff hf]; exact hab

/-- Replacing the hit. -/
theorem chainReplace_spec {K V : Type} {f : Fns K} (hf : Lawful f) (k : K) (v : V) (c : List (K × V)) (hn : NoDup f c) :
    (chainReplace f k v c = none ∧ c.find? (hit f k) = none) ∨
    (∃ old c', chainReplace f k v c = some (old, c') ∧ c.find? (hit f k) = some old ∧
      c'.Perm ((k, v) :: c.filter (fun p => !hit f k p))) := by
  induction c with
  | nil => left; simp [chainReplace]
  | cons p rest ih =>
    have hp := List.pairwise_cons.mp hn
    by_cases h : f.eq p.1 k = true
    · right
      refine ⟨p, (k, v) :: rest, by simp [chainReplace, h], by simp [hit, h], ?_⟩
      have : rest.filter (fun p => !hit f k p) = rest := by
        rw [List.filter_eq_self]
        intro q hq
        have := hp.1 q hq
        simp only [hit, Bool.not_eq_true']
        cases hqk : f.eq q.1 k
        · rfl
        · have := hf.trans _ _ _ h (hf.symm _ _ hqk); simp_all
      simp [List.filter_cons, hit, h] at *
      rw [List.filter_eq_self.mpr (by simpa [hit] using this)]
    · have h' : f.eq p.1 k = false := by simpa using h
      rcases ih hp.2 with ⟨e1, e2⟩ | ⟨old, c', e1, e2, e3⟩
      · left; simp [chainReplace, h', e1, hit]; simpa [hit] using e2
      · right
        refine ⟨old, p :: c', by simp [chainReplace, h', e1], by simp [hit, h']; simpa [hit] using e2, ?_⟩
        have : (p :: rest).filter (fun p => !hit f k p) = p :: rest.filter (fun p => !hit f k p) := by
          rw [List.filter_cons_of_pos]; simp [hit, h']
        rw [this]
        exact (e3.cons p).trans (List.Perm.swap _ _ _)

theorem chainRemove_spec {K V : Type} {f : Fns K} (hf : Lawful f) (k : K) (c : List (K × V)) (hn : NoDup f c) :
    (chainRemove f k c = none ∧ c.find? (hit f k) = none) ∨
    (∃ old c', chainRemove f k c = some (old, c') ∧ c.find? (hit f k) = some old ∧
      c' = c.filter (fun p => !hit f k p) ∧ c'.length + 1 = c.length) := by
  induction c with
  | nil => left; simp [chainRemove]
  | cons p rest ih =>
    have hp := List.pairwise_cons.mp hn
    by_cases h : f.eq p.1 k = true
    · right
      have : rest.filter (fun p => !hit f k p) = rest := by
        rw [List.filter_eq_self]
        intro q hq
        have := hp.1 q hq
        simp only [hit, Bool.not_eq_true']
        cases hqk : f.eq q.1 k
        · rfl
        · have := hf.trans _ _ _ h (hf.symm _ _ hqk); simp_all
      refine ⟨p, rest, by simp [chainRemove, h], by simp [hit, h], ?_, rfl⟩
      rw [List.filter_cons_of_neg (by simp [hit, h]), this]
    · have h' : f.eq p.1 k = false := by simpa using h
      rcases ih hp.2 with ⟨e1, e2⟩ | ⟨old, c', e1, e2, e3, e4⟩
      · left; simp [chainRemove, h', e1, hit]; simpa [hit] using e2
      · right
        refine ⟨old, p :: c', by simp [chainRemove, h', e1], by simp [hit, h']; simpa [hit] using e2, ?_, by simp [e4]⟩
        rw [List.filter_cons_of_pos (by simp [hit, h']), e3]

theorem chainFind_eq {K V : Type} (f : Fns K) (k : K) (c : List (K × V)) : chainFind f k c = c.find? (hit f k) := by
  induction c with
  | nil => rfl
  | cons p rest ih =>
    by_cases h : f.eq p.1 k = true <;> simp [chainFind, hit, h] <;> simpa [hit] using ih

/-! ## Hash map invariant -/

/-- Every item sits in the bucket of its key. -/
def Placed {K V : Type} (f : Fns K) (size : Nat) (bs : List (List (K × V))) : Prop :=
  ∀ b (hb : b < bs.length), ∀ p ∈ bs[b], f.hash p.1 % size = b

structure HInv {K V : Type} (f : Fns K) (m : HashMap K V) : Prop where
  pow : ∃ i, m.size = 2 ^ i
  initPow : ∃ i, m.initSize = 2 ^ i
  le : m.initSize ≤ m.size
  len : m.buckets.length = m.size
  placed : Placed f m.size m.buckets
  load : m.load = m.buckets.flatten.length
  nodup : NoDup f m.buckets.flatten

theorem ispow2_two_pow (i : Nat) : Misc.ispow2 (2 ^ i) = true := by
  have : 0 < 2 ^ i := Nat.two_pow_pos i
  simp [Misc.ispow2, this, Nat.and_two_pow_sub_one_eq_mod]

theorem getBucket_spec {K : Type} (f : Fns K) {size : Nat} (h : ∃ i, size = 2 ^ i) (k : K) :
    getBucket f size k = some (f.hash k % size) := by
  obtain ⟨i, rfl⟩ := h
  simp [getBucket, ispow2_two_pow, Nat.and_two_pow_sub_one_eq_mod]

theorem pow_pos' {n : Nat} (h : ∃ i, n = 2 ^ i) : 0 < n := by
  obtain ⟨i, rfl⟩ := h; exact Nat.two_pow_pos i

theorem flatten_split {α : Type} (bs : List (List α)) (b : Nat) (hb : b < bs.length) :
    bs.flatten = (bs.take b).flatten ++ (bs[b] ++ (bs.drop (b + 1)).flatten) := by
  conv => lhs; rw [← List.take_append_drop b bs]
  rw [List.flatten_append, List.drop_eq_getElem_cons hb, List.flatten_cons]

theorem flatten_set {α : Type} (bs : List (List α)) (b : Nat) (hb : b < bs.length) (c : List α) :
    (bs.set b c).flatten = (bs.take b).flatten ++ (c ++ (bs.drop (b + 1)).flatten) := by
  rw [flatten_split (bs.set b c) b (by simpa using hb)]
  simp [List.take_set_of_le (Nat.le_refl b), List.drop_set_of_lt (Nat.lt_succ_self b)]

theorem placed_set {K V : Type} {f : Fns K} {size : Nat} {bs : List (List (K × V))} (h : Placed f size bs) {b : Nat}
    {c : List (K × V)} (hc : ∀ p ∈ c, f.hash p.1 % size = b) : Placed f size (bs.set b c) := by
  intro b' hb' p hp
  rw [List.getElem_set] at hp
  split at hp
  · rename_i e; rw [← e]; exact hc p hp
  · exact h b' (by simpa using hb') p hp

theorem moveChain_spec {K V : Type} {f : Fns K} {size : Nat} (hs : ∃ i, size = 2 ^ i) (c : List (K × V)) :
    ∀ nb : List (List (K × V)), nb.length = size → Placed f size nb →
      ∃ nb', moveChain f size nb c = some nb' ∧ nb'.length = size ∧ Placed f size nb' ∧
        nb'.flatten.Perm (c ++ nb.flatten) := by
  induction c with
  | nil => intro nb h1 h2; exact ⟨nb, rfl, h1, h2, by simp⟩
  | cons kv rest ih =>
    intro nb h1 h2
    have hlt : f.hash kv.1 % size < nb.length := by rw [h1]; exact Nat.mod_lt _ (pow_pos' hs)
    have h3 : Placed f size (nb.set (f.hash kv.1 % size) (kv :: nb[f.hash kv.1 % size])) := by
      apply placed_set h2
      intro p hp
      rcases List.mem_cons.mp hp with rfl | hp
      · rfl
      · exact h2 _ hlt p hp
    obtain ⟨nb', e, l', p', perm⟩ := ih _ (by simpa using h1) h3
    refine ⟨nb', ?_, l', p', ?_⟩
    · simp [moveChain, getBucket_spec f hs, read_eq hlt, write_eq hlt, e]
    · refine perm.trans ?_
      rw [flatten_set _ _ hlt, flatten_split nb _ hlt]
      simp only [List.cons_append]
      refine (List.Perm.append_left rest (List.perm_middle)).trans ?_
      exact List.perm_middle

theorem moveAll_spec {K V : Type} {f : Fns K} {size : Nat} (hs : ∃ i, size = 2 ^ i) (cs : List (List (K × V))) :
    ∀ nb : List (List (K × V)), nb.length = size → Placed f size nb →
      ∃ nb', moveAll f size nb cs = some nb' ∧ nb'.length = size ∧ Placed f size nb' ∧
        nb'.flatten.Perm (cs.flatten ++ nb.flatten) := by
  induction cs with
  | nil => intro nb h1 h2; exact ⟨nb, rfl, h1, h2, by simp⟩
  | cons c cs ih =>
    intro nb h1 h2
    obtain ⟨nb1, e1, l1, p1, q1⟩ := moveChain_spec hs c nb h1 h2
    obtain ⟨nb2, e2, l2, p2, q2⟩ := ih nb1 l1 p1
    refine ⟨nb2, by simp [moveAll, e1, e2], l2, p2, ?_⟩
    refine q2.trans ?_
    simp only [List.flatten_cons, List.append_assoc]
    refine (List.Perm.append_left _ q1).trans ?_
    rw [← List.append_assoc, ← List.append_assoc]
    exact List.Perm.append_right _ List.perm_append_comm

theorem placed_empty {K V : Type} (f : Fns K) (size n : Nat) : Placed f size (List.replicate n ([] : List (K × V))) := by
  intro b hb p hp; simp at hp

/-- Rehashing keeps the items. -/
theorem resize_spec {K V : Type} {f : Fns K} (hf : Lawful f) {m : HashMap K V} (newSize : Nat)
    (hp : ∃ i, newSize = 2 ^ i) (hle : m.initSize ≤ newSize) (hi : ∃ i, m.initSize = 2 ^ i)
    (hl : m.load = m.buckets.flatten.length) (hn : NoDup f m.buckets.flatten) :
    ∃ m', resize f m newSize = some m' ∧ HInv f m' ∧ m'.buckets.flatten.Perm m.buckets.flatten := by
  obtain ⟨nb, e, l, p, q⟩ := moveAll_spec hp m.buckets (List.replicate newSize []) (by simp) (placed_empty f newSize newSize)
  have q' : nb.flatten.Perm m.buckets.flatten := by simpa using q
  refine ⟨{ m with buckets := nb, size := newSize, maxThreshold := maxThr newSize, minThreshold := minThr newSize },
    by simp [resize, e], ⟨hp, hi, hle, l, p, ?_, noDup_perm hf q'.symm hn⟩, q'⟩
  simp only [hl]; exact q'.length_eq.symm

/-- Only the chain of the key's bucket can contain an equal key. -/
theorem hit_other {K V : Type} {f : Fns K} (hf : Lawful f) {size : Nat} {bs : List (List (K × V))} (h : Placed f size bs)
    (k : K) (hb : f.hash k % size < bs.length) :
    (∀ p ∈ (bs.take (f.hash k % size)).flatten, hit f k p = false) ∧
    (∀ p ∈ (bs.drop (f.hash k % size + 1)).flatten, hit f k p = false) := by
  have aux : ∀ (b : Nat) (hb : b < bs.length) p, p ∈ bs[b] → b ≠ f.hash k % size → hit f k p = false := by
    intro b hb p hp hne
    cases hh : hit f k p
    · rfl
    · exfalso; apply hne
      have := hf.hash _ _ hh
      rw [← this]; exact (h b hb p hp).symm
  constructor
  · intro p hp
    obtain ⟨c, hc, hpc⟩ := List.mem_flatten.mp hp
    obtain ⟨i, hi, rfl⟩ := List.mem_iff_getElem.mp hc
    simp only [List.length_take] at hi
    rw [List.getElem_take] at hpc
    exact aux i (by omega) p hpc (by omega)
  · intro p hp
    obtain ⟨c, hc, hpc⟩ := List.mem_flatten.mp hp
    obtain ⟨i, hi, rfl⟩ := List.mem_iff_getElem.mp hc
    simp only [List.length_drop] at hi
    rw [List.getElem_drop] at hpc
    exact aux _ (by omega) p hpc (by omega)

theorem find_split {α : Type} {p : α → Bool} {a c d : List α} (ha : ∀ x ∈ a, p x = false) (hd : ∀ x ∈ d, p x = false) :
    (a ++ (c ++ d)).find? p = c.find? p := by
  have h1 : a.find? p = none := by rw [List.find?_eq_none]; intro x hx; simp [ha x hx]
  have h2 : d.find? p = none := by rw [List.find?_eq_none]; intro x hx; simp [hd x hx]
  simp [List.find?_append, h1, h2]

theorem filter_split {α : Type} {p : α → Bool} {a c d : List α} (ha : ∀ x ∈ a, p x = false) (hd : ∀ x ∈ d, p x = false) :
    (a ++ (c ++ d)).filter (fun x => !p x) = a ++ (c.filter (fun x => !p x) ++ d) := by
  rw [List.filter_append, List.filter_append, List.filter_eq_self.mpr (by simpa using ha),
    List.filter_eq_self.mpr (show ∀ x ∈ d, (!p x) = true by simpa using hd)]

/-- What an old pair means for the destructor calls. -/
def oldOf {K V : Type} (o : Option (K × V)) : Destroyed K V := ⟨o.toList.map (·.1), o.toList.map (·.2)⟩

theorem chain_nodup {K V : Type} {f : Fns K} {m : HashMap K V} (h : HInv f m) (b : Nat) (hb : b < m.buckets.length) :
    NoDup f m.buckets[b] := by
  have := h.nodup
  rw [flatten_split _ b hb] at this
  exact (List.pairwise_append.mp (List.pairwise_append.mp this).2.1).1

theorem filter_nodup_cons {K V : Type} {f : Fns K} (hf : Lawful f) {l : List (K × V)} (hn : NoDup f l) (k : K) (v : V) :
    NoDup f ((k, v) :: l.filter (fun p => !hit f k p)) := by
  refine List.pairwise_cons.mpr ⟨?_, hn.filter _⟩
  intro q hq
  have := (List.mem_filter.mp hq).2
  simp only [hit, Bool.not_eq_true'] at this
  rw [Lawful.symm_iff hf]; exact this

theorem hashInsert_spec {K V : Type} {f : Fns K} (hf : Lawful f) {m : HashMap K V} (h : HInv f m) (k : K) (v : V) :
    ∃ m', hashInsert f m k v = some (m', (m.buckets.flatten.find? (hit f k)).isSome,
        oldOf (m.buckets.flatten.find? (hit f k))) ∧ HInv f m' ∧
      m'.buckets.flatten.Perm ((k, v) :: m.buckets.flatten.filter (fun p => !hit f k p)) := by
  have hb : f.hash k % m.size < m.buckets.length := by rw [h.len]; exact Nat.mod_lt _ (pow_pos' h.pow)
  obtain ⟨o1, o2⟩ := hit_other hf h.placed k hb
  have hfind := find_split (c := m.buckets[f.hash k % m.size]) o1 o2
  have hfilt := filter_split (c := m.buckets[f.hash k % m.size]) o1 o2
  rw [← flatten_split] at hfind hfilt
  have hnd := chain_nodup h _ hb
  rcases chainReplace_spec hf k v _ hnd with ⟨e1, e2⟩ | ⟨old, c', e1, e2, e3⟩
  · -- new key
    have hfilt' : m.buckets[f.hash k % m.size].filter (fun p => !hit f k p) = m.buckets[f.hash k % m.size] := by
      rw [List.filter_eq_self]; intro p hp
      have := List.find?_eq_none.mp e2 p hp; simpa using this
    rw [hfilt', ← flatten_split] at hfilt
    rw [hfilt, hfind, e2]
    let m1 : HashMap K V := { m with
      buckets := m.buckets.set (f.hash k % m.size) ((k, v) :: m.buckets[f.hash k % m.size]), load := m.load + 1 }
    have hperm : m1.buckets.flatten.Perm ((k, v) :: m.buckets.flatten) := by
      show (m.buckets.set _ _).flatten.Perm _
      rw [flatten_set _ _ hb, flatten_split m.buckets _ hb]
      simp only [List.cons_append]; exact List.perm_middle
    have hnd1 : NoDup f m1.buckets.flatten := by
      refine noDup_perm hf hperm.symm ?_
      have := filter_nodup_cons hf h.nodup k v
      rwa [hfilt] at this
    have hload : m1.load = m1.buckets.flatten.length := by
      rw [hperm.length_eq]; simp [m1, h.load]
    have hI1 : HInv f m1 := by
      refine ⟨h.pow, h.initPow, h.le, by simp [m1, h.len], ?_, hload, hnd1⟩
      apply placed_set h.placed
      intro p hp
      rcases List.mem_cons.mp hp with rfl | hp
      · rfl
      · exact h.placed _ hb p hp
    have hstep : hashInsert f m k v = (if m1.load > m1.maxThreshold ∧ m1.size < MAX_BUCKETS then do
        let m' ← resize f m1 (m1.size * 2)
        some (m', false, {})
      else some (m1, false, {})) := by
      simp only [hashInsert, getBucket_spec f h.pow, read_eq hb, write_eq hb, e1, Option.bind_eq_bind, Option.bind_some]
      rfl
    rw [hstep]
    by_cases hc : m1.load > m1.maxThreshold ∧ m1.size < MAX_BUCKETS
    · obtain ⟨m', er, hI, hp⟩ := resize_spec hf (m := m1) (m1.size * 2)
        (by obtain ⟨i, hi⟩ := h.pow; exact ⟨i + 1, by show m.size * 2 = _; rw [hi]; rfl⟩)
        (by have := h.le; show m.initSize ≤ m.size * 2; omega) h.initPow hload hnd1
      refine ⟨m', ?_, hI, hp.trans hperm⟩
      rw [if_pos hc, er]; rfl
    · exact ⟨m1, by rw [if_neg hc]; rfl, hI1, hperm⟩
  · -- replaced key
    rw [hfilt, hfind, e2]
    have hperm : (m.buckets.set (f.hash k % m.size) c').flatten.Perm ((k, v) :: m.buckets.flatten.filter (fun p => !hit f k p)) := by
      rw [hfilt, flatten_set _ _ hb]
      refine (List.Perm.append_left _ (List.Perm.append_right _ e3)).trans ?_
      simp only [List.cons_append]; exact List.perm_middle
    refine ⟨{ m with buckets := m.buckets.set (f.hash k % m.size) c' }, ?_, ?_, by rw [← hfilt]; exact hperm⟩
    · simp [hashInsert, getBucket_spec f h.pow, read_eq hb, write_eq hb, e1, oldOf]
    · refine ⟨h.pow, h.initPow, h.le, by simp [h.len], ?_, ?_, ?_⟩
      · apply placed_set h.placed
        intro p hp
        rcases List.mem_cons.mp (e3.mem_iff.mp hp) with rfl | hp
        · rfl
        · exact h.placed _ hb p (List.mem_filter.mp hp).1
      · show m.load = _
        rw [h.load, flatten_set _ _ hb, flatten_split m.buckets _ hb]
        have hl := e3.length_eq
        rcases chainRemove_spec hf k _ hnd with ⟨_, n2⟩ | ⟨_, c'', _, _, n3, n4⟩
        · rw [e2] at n2; cases n2
        · rw [← n3] at hl
          simp only [List.length_append, List.length_cons] at *
          omega
      · exact noDup_perm hf hperm.symm (filter_nodup_cons hf h.nodup k v)

theorem hashRemove_spec {K V : Type} {f : Fns K} (hf : Lawful f) {m : HashMap K V} (h : HInv f m) (k : K) :
    ∃ m', hashRemove f m k = some (m', (m.buckets.flatten.find? (hit f k)).isSome,
        oldOf (m.buckets.flatten.find? (hit f k))) ∧ HInv f m' ∧
      m'.buckets.flatten.Perm (m.buckets.flatten.filter (fun p => !hit f k p)) := by
  have hb : f.hash k % m.size < m.buckets.length := by rw [h.len]; exact Nat.mod_lt _ (pow_pos' h.pow)
  obtain ⟨o1, o2⟩ := hit_other hf h.placed k hb
  have hfind := find_split (c := m.buckets[f.hash k % m.size]) o1 o2
  have hfilt := filter_split (c := m.buckets[f.hash k % m.size]) o1 o2
  rw [← flatten_split] at hfind hfilt
  have hnd := chain_nodup h _ hb
  rcases chainRemove_spec hf k _ hnd with ⟨e1, e2⟩ | ⟨old, c', e1, e2, e3, e4⟩
  · rw [hfind, e2]
    refine ⟨m, by simp [hashRemove, getBucket_spec f h.pow, read_eq hb, e1, oldOf], h, ?_⟩
    have : m.buckets.flatten.filter (fun p => !hit f k p) = m.buckets.flatten := by
      rw [List.filter_eq_self]; intro p hp
      rw [e2] at hfind
      have := List.find?_eq_none.mp hfind p hp; simpa using this
    rw [this]
  · rw [hfind, e2]
    let m1 : HashMap K V := { m with buckets := m.buckets.set (f.hash k % m.size) c', load := m.load - 1 }
    have hperm : m1.buckets.flatten = m.buckets.flatten.filter (fun p => !hit f k p) := by
      show (m.buckets.set _ _).flatten = _
      rw [flatten_set _ _ hb, hfilt, e3]
    have hlen : m1.buckets.flatten.length + 1 = m.load := by
      show (m.buckets.set _ _).flatten.length + 1 = _
      rw [h.load, flatten_set _ _ hb, flatten_split m.buckets _ hb]
      simp only [List.length_append]; omega
    have hnd1 : NoDup f m1.buckets.flatten := by rw [hperm]; exact h.nodup.filter _
    have hload : m1.load = m1.buckets.flatten.length := by show m.load - 1 = _; omega
    have hI1 : HInv f m1 := by
      refine ⟨h.pow, h.initPow, h.le, by simp [m1, h.len], ?_, hload, hnd1⟩
      apply placed_set h.placed
      intro p hp
      rw [e3] at hp
      exact h.placed _ hb p (List.mem_filter.mp hp).1
    have h0 : m.load ≠ 0 := by omega
    have hstep : hashRemove f m k = (if m1.load < m1.minThreshold ∧ m1.size > m1.initSize then do
        let m' ← resize f m1 (m1.size / 2)
        some (m', true, ⟨[old.1], [old.2]⟩)
      else some (m1, true, ⟨[old.1], [old.2]⟩)) := by
      simp only [hashRemove, getBucket_spec f h.pow, read_eq hb, write_eq hb, e1, Option.bind_eq_bind, Option.bind_some,
        if_neg h0]
      rfl
    rw [hstep]
    by_cases hc : m1.load < m1.minThreshold ∧ m1.size > m1.initSize
    · obtain ⟨i, hi⟩ := h.pow
      obtain ⟨j, hj⟩ := h.initPow
      have hgt : 2 ^ j < 2 ^ i := by rw [← hi, ← hj]; exact hc.2
      have hji : j < i := (Nat.pow_lt_pow_iff_right (by omega)).mp hgt
      have hhalf : m.size / 2 = 2 ^ (i - 1) := by
        rw [hi]; obtain ⟨i', rfl⟩ : ∃ i', i = i' + 1 := ⟨i - 1, by omega⟩
        simp [Nat.pow_succ]
      obtain ⟨m', er, hI, hp⟩ := resize_spec hf (m := m1) (m1.size / 2) ⟨i - 1, hhalf⟩
        (by show m.initSize ≤ m.size / 2; rw [hhalf, hj]; exact Nat.pow_le_pow_right (by omega) (by omega)) ⟨j, hj⟩ hload hnd1
      refine ⟨m', ?_, hI, by rw [← hperm]; exact hp⟩
      rw [if_pos hc, er]; rfl
    · exact ⟨m1, by rw [if_neg hc]; rfl, hI1, by rw [hperm]⟩

theorem hashGet_spec {K V : Type} {f : Fns K} (hf : Lawful f) {m : HashMap K V} (h : HInv f m) (k : K) :
    hashGet f m k = some (m.buckets.flatten.find? (hit f k)) := by
  have hb : f.hash k % m.size < m.buckets.length := by rw [h.len]; exact Nat.mod_lt _ (pow_pos' h.pow)
  obtain ⟨o1, o2⟩ := hit_other hf h.placed k hb
  have hfind := find_split (c := m.buckets[f.hash k % m.size]) o1 o2
  rw [← flatten_split] at hfind
  rw [hfind]
  simp [hashGet, getBucket_spec f h.pow, read_eq hb, chainFind_eq]

theorem freeChain_spec {K V : Type} (c : List (K × V)) : ∀ load, c.length ≤ load →
    freeChain load c = some (load - c.length, ⟨c.reverse.map (·.1), c.reverse.map (·.2)⟩) := by
  induction c with
  | nil => intro load _; rfl
  | cons p c ih =>
    intro load hl
    simp only [List.length_cons] at hl
    simp only [freeChain, ih load (by omega), Option.bind_eq_bind, Option.bind_some]
    rw [if_neg (by omega)]
    simp [Destroyed.append]; omega

theorem freeAll_spec {K V : Type} (cs : List (List (K × V))) : ∀ load, cs.flatten.length ≤ load →
    ∃ l : List (K × V), l.Perm cs.flatten ∧ freeAll load cs = some (load - cs.flatten.length, ⟨l.map (·.1), l.map (·.2)⟩) := by
  induction cs with
  | nil => intro load _; exact ⟨[], by simp, rfl⟩
  | cons c cs ih =>
    intro load hl
    simp only [List.flatten_cons, List.length_append] at hl
    obtain ⟨l, hp, e⟩ := ih (load - c.length) (by omega)
    refine ⟨c.reverse ++ l, ?_, ?_⟩
    · simp only [List.flatten_cons]; exact List.Perm.append (List.reverse_perm c) hp
    · simp only [freeAll, freeChain_spec c load (by omega), e, Option.bind_eq_bind, Option.bind_some]
      simp only [Destroyed.append, List.flatten_cons, List.length_append, List.map_append]
      congr 2; omega

theorem hashClear_spec {K V : Type} {f : Fns K} {m : HashMap K V} (h : HInv f m) :
    ∃ m', ∃ l : List (K × V), l.Perm m.buckets.flatten ∧ hashClear m = some (m', ⟨l.map (·.1), l.map (·.2)⟩) ∧ HInv f m' ∧
      m'.buckets.flatten = [] := by
  obtain ⟨l, hp, e⟩ := freeAll_spec m.buckets m.load (by rw [h.load]; exact Nat.le_refl _)
  refine ⟨{ m with buckets := List.replicate m.buckets.length [], load := 0 }, l, hp, ?_, ?_, by simp⟩
  · simp only [hashClear, e, Option.bind_eq_bind, Option.bind_some]
    rw [if_pos (by rw [h.load, Nat.sub_self])]
  · exact ⟨h.pow, h.initPow, h.le, by simp [h.len], placed_empty _ _ _, by simp, by simp [NoDup]⟩

theorem hashSoftDestroy_spec {K V : Type} {f : Fns K} {m : HashMap K V} (h : HInv f m) :
    ∃ l : List (K × V), l.Perm m.buckets.flatten ∧ hashSoftDestroy m = some ⟨l.map (·.1), []⟩ := by
  obtain ⟨l, hp, e⟩ := freeAll_spec m.buckets m.load (by rw [h.load]; exact Nat.le_refl _)
  exact ⟨l, hp, by simp [hashSoftDestroy, e]⟩

theorem hashIterate_spec {K V : Type} (m : HashMap K V) (hl : m.buckets.length = m.size) :
    ∀ (b : Nat) (cur : List (K × V)), b < m.size →
      hashIterate m b cur = some (cur ++ (m.buckets.drop (b + 1)).flatten) := by
  intro b cur
  fun_induction hashIterate m b cur with
  | case1 b kv cur ih => intro hb; simp [ih hb]
  | case2 b hlt ih =>
    intro hb
    have hlt' : b + 1 < m.buckets.length := by omega
    rw [read_eq hlt']
    simp only [Option.bind_eq_bind, Option.bind_some]
    rw [ih _ hlt, List.drop_eq_getElem_cons hlt', List.flatten_cons]
    rfl
  | case3 b hlt =>
    intro hb
    rw [List.drop_eq_nil_of_le (by omega)]; simp

theorem hashNew_inv {K V : Type} (f : Fns K) : HInv f (hashNew 128 : HashMap K V) := by
  have hs : (hashNew 128 : HashMap K V) = ⟨List.replicate 128 [], 128, 128, 0, maxThr 128, minThr 128⟩ := rfl
  rw [hs]
  exact ⟨⟨7, rfl⟩, ⟨7, rfl⟩, Nat.le_refl _, by simp, placed_empty _ _ _, by simp, by simp [NoDup]⟩

theorem insertAll_spec {K V : Type} {f : Fns K} (hf : Lawful f) (l : List (K × V)) : ∀ (h : HashMap K V), HInv f h →
    NoDup f (h.buckets.flatten ++ l) →
    ∃ h', insertAll f h l = some (h', {}) ∧ HInv f h' ∧ h'.buckets.flatten.Perm (h.buckets.flatten ++ l) := by
  induction l with
  | nil => intro h hI _; exact ⟨h, rfl, hI, by simp⟩
  | cons p l ih =>
    intro h hI hn
    have hp := List.pairwise_append.mp hn
    have hnone : h.buckets.flatten.find? (hit f p.1) = none := by
      rw [List.find?_eq_none]; intro q hq
      have := hp.2.2 q hq p (by simp); simp [hit, this]
    have hfil : h.buckets.flatten.filter (fun q => !hit f p.1 q) = h.buckets.flatten := by
      rw [List.filter_eq_self]; intro q hq
      have := List.find?_eq_none.mp hnone q hq; simpa using this
    obtain ⟨h1, e1, hI1, p1⟩ := hashInsert_spec hf hI p.1 p.2
    rw [hnone] at e1; rw [hfil] at p1
    have hperm : (h.buckets.flatten ++ p :: l).Perm (h1.buckets.flatten ++ l) := by
      refine List.perm_middle.trans ?_
      exact List.Perm.append_right l p1.symm
    obtain ⟨h2, e2, hI2, p2⟩ := ih h1 hI1 (noDup_perm hf hperm hn)
    refine ⟨h2, ?_, hI2, p2.trans hperm.symm⟩
    simp [insertAll, e1, e2, Destroyed.append, oldOf]

/-! ## Array map -/

structure AInv {K V : Type} (f : Fns K) (a : ArrayMap K V) (l : List (K × V)) : Prop where
  len : a.values.length = TINY_LIMIT
  size : a.size = l.length
  le : l.length ≤ TINY_LIMIT
  dat : ∃ rest, a.values = l.map some ++ rest
  nodup : NoDup f l

theorem get_map {α : Type} {l : List α} {rest : List (Option α)} {i : Nat} (hi : i < l.length) :
    get (l.map some ++ rest) i = some l[i] := by
  rw [CMem.get_eq, List.getElem?_append_left (by simpa using hi)]; simp [hi]

theorem arrayFind_spec {K V : Type} (f : Fns K) (k : K) (l : List (K × V)) (rest : List (Option (K × V))) :
    ∀ n i, i + n = l.length →
      (arrayFind f (l.map some ++ rest) k i n = some none ∧ (l.drop i).find? (hit f k) = none) ∨
      ∃ j, ∃ hj : j < l.length, i ≤ j ∧ arrayFind f (l.map some ++ rest) k i n = some (some j) ∧
        (l.drop i).find? (hit f k) = some l[j] ∧ hit f k l[j] = true ∧ ∀ j' (hj' : j' < l.length), i ≤ j' → j' < j → hit f k l[j'] = false := by
  intro n
  induction n with
  | zero => intro i hi; left; rw [List.drop_eq_nil_of_le (by omega)]; simp [arrayFind]
  | succ n ih =>
    intro i hi
    have hlt : i < l.length := by omega
    rw [List.drop_eq_getElem_cons hlt]
    simp only [arrayFind, get_map hlt, Option.bind_eq_bind, Option.bind_some]
    by_cases h : f.eq l[i].1 k = true
    · right
      refine ⟨i, hlt, Nat.le_refl _, by simp [h], List.find?_cons_of_pos h, h, ?_⟩
      intro j' hj' h1 h2; omega
    · have h' : f.eq l[i].1 k = false := by simpa using h
      rcases ih (i + 1) (by omega) with ⟨e1, e2⟩ | ⟨j, hj, h1, e1, e2, e3, e4⟩
      · left; refine ⟨by simp [h', e1], ?_⟩
        rw [List.find?_cons_of_neg (by simp [hit, h'])]; exact e2
      · right
        refine ⟨j, hj, by omega, by simp [h', e1], ?_, e3, ?_⟩
        · rw [List.find?_cons_of_neg (by simp [hit, h'])]; exact e2
        · intro j' hj' h1' h2'
          by_cases hji : j' = i
          · subst hji; exact h'
          · exact e4 j' hj' (by omega) h2'

/-- In a list without equal keys, only position `j` hits. -/
theorem filter_erase {K V : Type} {f : Fns K} (hf : Lawful f) {l : List (K × V)} (hn : NoDup f l) {k : K} {j : Nat}
    (hj : j < l.length) (hh : hit f k l[j] = true) :
    l.filter (fun p => !hit f k p) = l.take j ++ l.drop (j + 1) := by
  have hl : l = l.take j ++ ([l[j]] ++ l.drop (j + 1)) := by
    conv => lhs; rw [← List.take_append_drop j l]
    rw [List.drop_eq_getElem_cons hj]; rfl
  have hn' := hn
  rw [hl] at hn'
  have q := List.pairwise_append.mp hn'
  have q2 := List.pairwise_append.mp q.2.1
  have aux : ∀ p : K × V, f.eq p.1 l[j].1 = false → hit f k p = false := by
    intro p hp
    cases hc : hit f k p
    · rfl
    · have := hf.trans _ _ _ hc (hf.symm _ _ hh); rw [hp] at this; cases this
  conv => lhs; rw [hl]
  rw [filter_split]
  · simp [hh]
  · intro p hp; apply aux; exact q.2.2 p hp l[j] (List.mem_append_left _ (List.mem_singleton.mpr rfl))
  · intro p hp; apply aux; rw [Lawful.symm_iff hf]; exact q2.2.2 l[j] (by simp) p hp

theorem arrayInsert_spec {K V : Type} {f : Fns K} (hf : Lawful f) {a : ArrayMap K V} {l : List (K × V)} (h : AInv f a l)
    (hlt : l.length ≠ TINY_LIMIT) (k : K) (v : V) :
    ∃ a' l', arrayInsert f a k v = some (a', if (l.find? (hit f k)).isSome then 1 else 2, oldOf (l.find? (hit f k))) ∧
      AInv f a' l' ∧ l'.Perm ((k, v) :: l.filter (fun p => !hit f k p)) := by
  obtain ⟨rest, hr⟩ := h.dat
  have hle := h.le
  have hlen : l.length + rest.length = TINY_LIMIT := by rw [← h.len, hr]; simp
  have hs : ¬ a.size = TINY_LIMIT := by rw [h.size]; exact hlt
  rcases arrayFind_spec f k l rest l.length 0 (by omega) with ⟨e1, e2⟩ | ⟨j, hj, -, e1, e2, e3, -⟩
  · simp only [List.drop_zero] at e2
    have hfil : l.filter (fun q => !hit f k q) = l := by
      rw [List.filter_eq_self]; intro q hq
      have := List.find?_eq_none.mp e2 q hq; simpa using this
    rw [e2, hfil]
    have hw : a.size < a.values.length := by rw [h.len, h.size]; omega
    refine ⟨⟨a.values.set a.size (some (k, v)), a.size + 1⟩, l ++ [(k, v)], ?_, ?_, ?_⟩
    · simp only [arrayInsert, if_neg hs, write_eq hw]
      rw [hr, h.size, e1]; rfl
    · refine ⟨by simp [h.len], by simp [h.size], by simp; omega, ⟨rest.drop 1, ?_⟩, ?_⟩
      · rw [hr, h.size]
        cases rest with
        | nil => simp at hlen; omega
        | cons r rs => simp
      · have := filter_nodup_cons hf h.nodup k v
        rw [hfil] at this
        exact noDup_perm hf (List.perm_append_comm (l₁ := [(k, v)])) this
    · exact List.perm_append_comm (l₂ := [(k, v)])
  · simp only [List.drop_zero] at e2
    rw [e2]
    have hw : j < a.values.length := by rw [h.len]; omega
    have hperm : (l.set j (k, v)).Perm ((k, v) :: l.filter (fun p => !hit f k p)) := by
      rw [filter_erase hf h.nodup hj e3, List.set_eq_take_append_cons_drop, if_pos hj]
      exact List.perm_middle
    refine ⟨⟨a.values.set j (some (k, v)), a.size⟩, l.set j (k, v), ?_, ?_, hperm⟩
    · simp only [arrayInsert, if_neg hs, write_eq hw]
      rw [hr, h.size, e1]
      rw [hr] at hw
      simp only [Option.bind_eq_bind, Option.bind_some, get_map hj, write_eq hw]
      rfl
    · refine ⟨by simp [h.len], by simp [h.size], by simp [hle], ⟨rest, ?_⟩,
        noDup_perm hf hperm.symm (filter_nodup_cons hf h.nodup k v)⟩
      rw [hr, List.set_append_left _ _ (by simpa using hj), List.map_set]

theorem arrayRemove_spec {K V : Type} {f : Fns K} (hf : Lawful f) {a : ArrayMap K V} {l : List (K × V)} (h : AInv f a l)
    (k : K) :
    ∃ a', arrayRemove f a k = some (a', (l.find? (hit f k)).isSome, oldOf (l.find? (hit f k))) ∧
      AInv f a' (l.filter (fun p => !hit f k p)) := by
  obtain ⟨rest, hr⟩ := h.dat
  have hle := h.le
  have hlen : l.length + rest.length = TINY_LIMIT := by rw [← h.len, hr]; simp
  rcases arrayFind_spec f k l rest l.length 0 (by omega) with ⟨e1, e2⟩ | ⟨j, hj, -, e1, e2, e3, -⟩
  · simp only [List.drop_zero] at e2
    have hfil : l.filter (fun q => !hit f k q) = l := by
      rw [List.filter_eq_self]; intro q hq
      have := List.find?_eq_none.mp e2 q hq; simpa using this
    rw [e2, hfil]
    refine ⟨a, ?_, h⟩
    simp only [arrayRemove]
    conv => lhs; rw [hr]
    rw [h.size, e1]; rfl
  · simp only [List.drop_zero] at e2
    rw [e2, filter_erase hf h.nodup hj e3]
    have hmv : memmove a.values j (j + 1) (a.size - j - 1) =
        some ((l.take j ++ l.drop (j + 1)).map some ++ a.values.drop (l.length - 1)) := by
      unfold memmove
      rw [if_pos (by rw [h.len, h.size]; omega)]
      rw [h.size]
      have e : j + (l.length - j - 1) = l.length - 1 := by omega
      rw [e]
      congr 2
      rw [hr]
      rw [List.take_append_of_le_length (by simp; omega), List.drop_append_of_le_length (by simp; omega),
        List.take_append_of_le_length (by simp; omega)]
      rw [List.map_append, List.map_take, List.map_drop]
      congr 1
      rw [List.take_of_length_le]; simp; omega
    refine ⟨⟨(l.take j ++ l.drop (j + 1)).map some ++ a.values.drop (l.length - 1), a.size - 1⟩, ?_,
      ⟨?_, ?_, ?_, ⟨_, rfl⟩, ?_⟩⟩
    · have e1' : arrayFind f a.values k 0 a.size = some (some j) := by rw [hr, h.size]; exact e1
      have g : get a.values j = some l[j] := by rw [hr]; exact get_map hj
      simp only [arrayRemove, hmv, e1', g, Option.bind_eq_bind, Option.bind_some]
      rfl
    · simp only [List.length_append, List.length_map, List.length_take, List.length_drop, h.len]; omega
    · simp only [List.length_append, List.length_take, List.length_drop, h.size]; omega
    · simp only [List.length_append, List.length_take, List.length_drop]; omega
    · rw [← filter_erase hf h.nodup hj e3]; exact h.nodup.filter _

theorem arrayGet_spec {K V : Type} {f : Fns K} {a : ArrayMap K V} {l : List (K × V)} (h : AInv f a l) (k : K) :
    arrayGet f a k = some (l.find? (hit f k)) := by
  obtain ⟨rest, hr⟩ := h.dat
  rcases arrayFind_spec f k l rest l.length 0 (by omega) with ⟨e1, e2⟩ | ⟨j, hj, -, e1, e2, -, -⟩
  · simp only [List.drop_zero] at e2
    simp only [arrayGet, hr, h.size, e1, e2]; rfl
  · simp only [List.drop_zero] at e2
    simp only [arrayGet, hr, h.size, e1, e2, Option.bind_eq_bind, Option.bind_some, get_map hj]

theorem arrayRange_spec {K V : Type} {f : Fns K} {a : ArrayMap K V} {l : List (K × V)} (h : AInv f a l) :
    getRange a.values 0 a.size = some l := by
  obtain ⟨rest, hr⟩ := h.dat
  have := getRange_eq [] l rest
  simpa [hr, h.size] using this

theorem arrayIterate_spec {K V : Type} {f : Fns K} {a : ArrayMap K V} {l : List (K × V)} (h : AInv f a l) :
    ∀ n pos, pos + n = l.length → arrayIterate a pos = some (l.drop pos) := by
  obtain ⟨rest, hr⟩ := h.dat
  intro n
  induction n with
  | zero => intro pos hp; rw [arrayIterate, if_neg (by rw [h.size]; omega), List.drop_eq_nil_of_le (by omega)]
  | succ n ih =>
    intro pos hp
    have hlt : pos < l.length := by omega
    rw [arrayIterate, if_pos (by rw [h.size]; omega), ih (pos + 1) (by omega), hr, get_map hlt]
    simp only [Option.bind_eq_bind, Option.bind_some]
    rw [← List.drop_eq_getElem_cons hlt]

/-! ## Map -/

/-- The map holds exactly the items `l`. -/
def MInv {K V : Type} (f : Fns K) (m : Map K V) (l : List (K × V)) : Prop :=
  match m with
  | .arr a => AInv f a l
  | .hash h => HInv f h ∧ l = h.buckets.flatten

theorem MInv.nodup {K V : Type} {f : Fns K} {m : Map K V} {l : List (K × V)} (h : MInv f m l) : NoDup f l := by
  cases m with
  | arr a => exact AInv.nodup h
  | hash g => obtain ⟨h1, rfl⟩ := h; exact h1.nodup

theorem mapNew_inv {K V : Type} (f : Fns K) : MInv f (mapNew : Map K V) [] :=
  ⟨by simp [arrayNew], rfl, by simp, ⟨_, rfl⟩, by simp [NoDup]⟩

theorem find_perm {K V : Type} {f : Fns K} (hf : Lawful f) {l l' : List (K × V)} (hn : NoDup f l) (hp : l'.Perm l) (k : K) :
    l'.find? (hit f k) = l.find? (hit f k) := by
  have uniq : ∀ p q, p ∈ l → q ∈ l → hit f k p = true → hit f k q = true → p = q := by
    intro p q hpl hql h1 h2
    apply Classical.byContradiction
    intro hne
    have hpq : f.eq p.1 q.1 = true := hf.trans _ _ _ h1 (hf.symm _ _ h2)
    have : p = q ∨ f.eq p.1 q.1 = false := by
      obtain ⟨i, hi, rfl⟩ := List.mem_iff_getElem.mp hpl
      obtain ⟨j, hj, rfl⟩ := List.mem_iff_getElem.mp hql
      have hg := List.pairwise_iff_getElem.mp hn
      rcases Nat.lt_trichotomy i j with h | h | h
      · right; exact hg i j hi hj h
      · left; subst h; rfl
      · right; rw [Lawful.symm_iff hf]; exact hg j i hj hi h
    rcases this with h | h
    · exact hne h
    · rw [hpq] at h; cases h
  cases h1 : l'.find? (hit f k) with
  | none =>
    symm; rw [List.find?_eq_none] at *
    intro x hx; exact h1 x (hp.mem_iff.mpr hx)
  | some p =>
    have hp1 := List.find?_some h1
    have hm1 := hp.mem_iff.mp (List.mem_of_find?_eq_some h1)
    cases h2 : l.find? (hit f k) with
    | none => rw [List.find?_eq_none] at h2; exact absurd hp1 (h2 p hm1)
    | some q =>
      rw [uniq p q hm1 (List.mem_of_find?_eq_some h2) hp1 (List.find?_some h2)]

theorem mapInsert_spec {K V : Type} {f : Fns K} (hf : Lawful f) {m : Map K V} {l : List (K × V)} (h : MInv f m l)
    (k : K) (v : V) :
    ∃ m' l', mapInsert f m k v = some (m', (l.find? (hit f k)).isSome, oldOf (l.find? (hit f k))) ∧
      MInv f m' l' ∧ l'.Perm ((k, v) :: l.filter (fun p => !hit f k p)) := by
  cases m with
  | hash g =>
    obtain ⟨h1, rfl⟩ := h
    obtain ⟨m', e, hI, hp⟩ := hashInsert_spec hf h1 k v
    exact ⟨.hash m', _, by simp [mapInsert, e], ⟨hI, rfl⟩, hp⟩
  | arr a =>
    have h : AInv f a l := h
    by_cases hc : l.length = TINY_LIMIT
    · have hs : a.size = TINY_LIMIT := by rw [h.size, hc]
      obtain ⟨h1, e1, hI1, p1⟩ := insertAll_spec hf l (hashNew 128) (hashNew_inv f) (by
        have : (hashNew 128 : HashMap K V).buckets.flatten = [] := by
          have hs : (hashNew 128 : HashMap K V) = ⟨List.replicate 128 [], 128, 128, 0, maxThr 128, minThr 128⟩ := rfl
          rw [hs]; simp
        rw [this]; exact h.nodup)
      have p1' : h1.buckets.flatten.Perm l := by
        have : (hashNew 128 : HashMap K V).buckets.flatten = [] := by
          have hs : (hashNew 128 : HashMap K V) = ⟨List.replicate 128 [], 128, 128, 0, maxThr 128, minThr 128⟩ := rfl
          rw [hs]; simp
        rw [this] at p1; simpa using p1
      obtain ⟨m', e, hI, hp⟩ := hashInsert_spec hf hI1 k v
      rw [find_perm hf h.nodup p1'] at e
      refine ⟨.hash m', _, ?_, ⟨hI, rfl⟩, hp.trans ((p1'.filter _).cons _)⟩
      simp [mapInsert, arrayInsert, hs, convert, arrayRange_spec h, e1, e, Destroyed.append]
      rw [← hs, arrayRange_spec h]; simp [e1, e]
    · obtain ⟨a', l', e, hI, hp⟩ := arrayInsert_spec hf h hc k v
      refine ⟨.arr a', l', ?_, hI, hp⟩
      simp only [mapInsert, e, Option.bind_eq_bind, Option.bind_some]
      cases l.find? (hit f k) <;> simp

theorem mapRemove_spec {K V : Type} {f : Fns K} (hf : Lawful f) {m : Map K V} {l : List (K × V)} (h : MInv f m l) (k : K) :
    ∃ m' l', mapRemove f m k = some (m', (l.find? (hit f k)).isSome, oldOf (l.find? (hit f k))) ∧
      MInv f m' l' ∧ l'.Perm (l.filter (fun p => !hit f k p)) := by
  cases m with
  | hash g =>
    obtain ⟨h1, rfl⟩ := h
    obtain ⟨m', e, hI, hp⟩ := hashRemove_spec hf h1 k
    exact ⟨.hash m', _, by simp [mapRemove, e], ⟨hI, rfl⟩, hp⟩
  | arr a =>
    obtain ⟨a', e, hI⟩ := arrayRemove_spec hf (show AInv f a l from h) k
    exact ⟨.arr a', _, by simp [mapRemove, e], hI, List.Perm.refl _⟩

theorem mapGetRaw_spec {K V : Type} {f : Fns K} (hf : Lawful f) {m : Map K V} {l : List (K × V)} (h : MInv f m l) (k : K) :
    mapGetRaw f m k = some (l.find? (hit f k)) := by
  cases m with
  | hash g => obtain ⟨h1, rfl⟩ := h; exact hashGet_spec hf h1 k
  | arr a => exact arrayGet_spec h k

theorem mapClear_spec {K V : Type} {f : Fns K} {m : Map K V} {l : List (K × V)} (h : MInv f m l) :
    ∃ m', ∃ d : List (K × V), d.Perm l ∧ mapClear m = some (m', ⟨d.map (·.1), d.map (·.2)⟩) ∧ MInv f m' [] := by
  cases m with
  | hash g =>
    obtain ⟨h1, rfl⟩ := h
    obtain ⟨m', d, hp, e, hI, hl⟩ := hashClear_spec h1
    exact ⟨.hash m', d, hp, by simp [mapClear, e], hI, hl.symm⟩
  | arr a =>
    have h : AInv f a l := h
    refine ⟨.arr { a with size := 0 }, l, List.Perm.refl _, ?_, ⟨h.len, rfl, by simp, ⟨_, rfl⟩, by simp [NoDup]⟩⟩
    simp [mapClear, arrayClear, arrayRange_spec h]

theorem mapDestroy_spec {K V : Type} {f : Fns K} {m : Map K V} {l : List (K × V)} (h : MInv f m l) :
    ∃ d : List (K × V), d.Perm l ∧ mapDestroy m = some ⟨d.map (·.1), d.map (·.2)⟩ := by
  obtain ⟨m', d, hp, e, -⟩ := mapClear_spec h
  refine ⟨d, hp, ?_⟩
  cases m with
  | arr a =>
    simp only [mapClear, Option.bind_eq_bind] at e
    simp only [mapDestroy, arrayDestroy, Option.bind_eq_bind]
    cases h : arrayClear a with
    | none => rw [h] at e; cases e
    | some r => rw [h] at e; simp at e ⊢; exact e.2
  | hash a =>
    simp only [mapClear, Option.bind_eq_bind] at e
    simp only [mapDestroy, hashDestroy, Option.bind_eq_bind]
    cases h : hashClear a with
    | none => rw [h] at e; cases e
    | some r => rw [h] at e; simp at e ⊢; exact e.2

theorem mapSoftDestroy_spec {K V : Type} {f : Fns K} {m : Map K V} {l : List (K × V)} (h : MInv f m l) :
    ∃ d : List (K × V), d.Perm l ∧ mapSoftDestroy m = some ⟨d.map (·.1), []⟩ := by
  cases m with
  | hash g => obtain ⟨h1, rfl⟩ := h; exact hashSoftDestroy_spec h1
  | arr a => exact ⟨l, List.Perm.refl _, by simp [mapSoftDestroy, arraySoftDestroy, arrayRange_spec h]⟩

theorem mapIterate_spec {K V : Type} {f : Fns K} {m : Map K V} {l : List (K × V)} (h : MInv f m l) :
    mapIterate m = some l := by
  cases m with
  | hash g =>
    obtain ⟨h1, rfl⟩ := h
    have h0 : 0 < g.size := pow_pos' h1.pow
    have h0' : 0 < g.buckets.length := by rw [h1.len]; exact h0
    simp only [mapIterate, read_eq h0', Option.bind_eq_bind, Option.bind_some, hashIterate_spec g h1.len 0 _ h0]
    rw [flatten_split _ 0 h0']; simp
  | arr a => have := arrayIterate_spec (show AInv f a l from h) l.length 0 (by omega); simpa [mapIterate] using this

theorem mapSize_spec {K V : Type} {f : Fns K} {m : Map K V} {l : List (K × V)} (h : MInv f m l) :
    mapSize m = some l.length := by
  cases m with
  | hash g => simp [mapSize, mapIterate_spec h]
  | arr a => simp [mapSize, (show AInv f a l from h).size]

/-! ## Histories -/

/-- Invariant over histories. -/
structure Hist {K V : Type} (f : Fns K) (h : List (Op K V)) (m : Map K V) (d : Destroyed K V) (l : List (K × V)) : Prop where
  inv : MInv f m l
  look : ∀ k, l.find? (hit f k) = lookup f.eq h k
  keys : (d.keys ++ l.map (·.1)).Perm (insertedKeys h)
  vals : (d.vals ++ l.map (·.2)).Perm (insertedVals h)

theorem find_filter_ne {K V : Type} {f : Fns K} (hf : Lawful f) {l : List (K × V)} {k k' : K}
    (hne : f.eq k k' = false) : (l.filter (fun p => !hit f k p)).find? (hit f k') = l.find? (hit f k') := by
  induction l with
  | nil => rfl
  | cons p l ih =>
    by_cases h : hit f k p = true
    · rw [List.filter_cons_of_neg (by simp [h]), ih, List.find?_cons_of_neg]
      intro h'
      have := hf.trans _ _ _ (hf.symm _ _ h) h'
      rw [hne] at this; cases this
    · rw [List.filter_cons_of_pos (by simpa using h)]
      by_cases h' : hit f k' p = true
      · rw [List.find?_cons_of_pos h', List.find?_cons_of_pos h']
      · rw [List.find?_cons_of_neg h', List.find?_cons_of_neg h', ih]

theorem find_filter_eq {K V : Type} {f : Fns K} (hf : Lawful f) {l : List (K × V)} {k k' : K}
    (he : f.eq k k' = true) : (l.filter (fun p => !hit f k p)).find? (hit f k') = none := by
  rw [List.find?_eq_none]
  intro p hp hh
  have := (List.mem_filter.mp hp).2
  have h2 := hf.trans _ _ _ hh (hf.symm _ _ he)
  simp [hit, h2] at this

/-- The hit and the rest make up the list. -/
theorem old_perm {K V : Type} {f : Fns K} (hf : Lawful f) {l : List (K × V)} (hn : NoDup f l) (k : K) :
    ((l.find? (hit f k)).toList ++ l.filter (fun p => !hit f k p)).Perm l := by
  induction l with
  | nil => simp
  | cons p l ih =>
    have hp := List.pairwise_cons.mp hn
    by_cases h : hit f k p = true
    · rw [List.find?_cons_of_pos h, List.filter_cons_of_neg (by simp [h])]
      have : l.filter (fun p => !hit f k p) = l := by
        rw [List.filter_eq_self]; intro q hq
        have h1 := hp.1 q hq
        cases hc : hit f k q
        · rfl
        · have := hf.trans _ _ _ h (hf.symm _ _ hc); rw [h1] at this; cases this
      rw [this]; simp
    · rw [List.find?_cons_of_neg h, List.filter_cons_of_pos (by simpa using h)]
      exact List.perm_middle.trans ((ih hp.2).cons p)

theorem step_spec {K V : Type} {f : Fns K} (hf : Lawful f) {h : List (Op K V)} {m : Map K V} {d : Destroyed K V}
    {l : List (K × V)} (H : Hist f h m d l) (op : Op K V) :
    ∃ m' d' l', stepImpl f m op = some (m', expectedReturn f.eq h op, d') ∧ Hist f (op :: h) m' (d.append d') l' ∧
      (match op with
        | .insert k _ => d' = oldOf (lookup f.eq h k)
        | .remove k => d' = oldOf (lookup f.eq h k)
        | .clear => ∃ dl : List (K × V), dl.Perm l ∧ d' = ⟨dl.map (·.1), dl.map (·.2)⟩) := by
  cases op with
  | insert k v =>
    obtain ⟨m', l', e, hI, hp⟩ := mapInsert_spec hf H.inv k v
    have hno := old_perm hf H.inv.nodup k
    refine ⟨m', oldOf (l.find? (hit f k)), l', by simp only [stepImpl, e, expectedReturn, H.look], ⟨hI, ?_, ?_, ?_⟩, ?_⟩
    · intro k'
      rw [find_perm hf (filter_nodup_cons hf H.inv.nodup k v) hp k']
      simp only [lookup]
      by_cases hk : f.eq k k' = true
      · rw [if_pos hk, List.find?_cons_of_pos (show hit f k' (k, v) = true from hk)]
      · rw [if_neg hk, List.find?_cons_of_neg (show ¬ hit f k' (k, v) = true from hk), find_filter_ne hf (by simpa using hk), H.look]
    · simp only [Destroyed.append, oldOf, insertedKeys]
      have h1 := (hp.map (·.1)).append_left (d.keys ++ (l.find? (hit f k)).toList.map (·.1))
      refine h1.trans ?_
      simp only [List.map_cons]
      refine List.perm_middle.trans (List.Perm.cons _ ?_)
      rw [List.append_assoc, ← List.map_append]
      exact ((hno.map (·.1)).append_left d.keys).trans H.keys
    · simp only [Destroyed.append, oldOf, insertedVals]
      have h1 := (hp.map (·.2)).append_left (d.vals ++ (l.find? (hit f k)).toList.map (·.2))
      refine h1.trans ?_
      simp only [List.map_cons]
      refine List.perm_middle.trans (List.Perm.cons _ ?_)
      rw [List.append_assoc, ← List.map_append]
      exact ((hno.map (·.2)).append_left d.vals).trans H.vals
    · simp only [H.look]
  | remove k =>
    obtain ⟨m', l', e, hI, hp⟩ := mapRemove_spec hf H.inv k
    have hno := old_perm hf H.inv.nodup k
    refine ⟨m', oldOf (l.find? (hit f k)), l', by simp only [stepImpl, e, expectedReturn, H.look], ⟨hI, ?_, ?_, ?_⟩, ?_⟩
    · intro k'
      rw [find_perm hf (H.inv.nodup.filter _) hp k']
      simp only [lookup]
      by_cases hk : f.eq k k' = true
      · rw [if_pos hk, find_filter_eq hf hk]
      · rw [if_neg hk, find_filter_ne hf (by simpa using hk), H.look]
    · simp only [Destroyed.append, oldOf, insertedKeys]
      refine ((hp.map (·.1)).append_left _).trans ?_
      rw [List.append_assoc, ← List.map_append]
      exact ((hno.map (·.1)).append_left d.keys).trans H.keys
    · simp only [Destroyed.append, oldOf, insertedVals]
      refine ((hp.map (·.2)).append_left _).trans ?_
      rw [List.append_assoc, ← List.map_append]
      exact ((hno.map (·.2)).append_left d.vals).trans H.vals
    · simp only [H.look]
  | clear =>
    obtain ⟨m', dl, hp, e, hI⟩ := mapClear_spec H.inv
    refine ⟨m', _, [], by simp only [stepImpl, e, expectedReturn]; rfl, ⟨hI, ?_, ?_, ?_⟩, dl, hp, rfl⟩
    · intro k; rfl
    · simp only [Destroyed.append, insertedKeys, List.map_nil, List.append_nil]
      exact ((hp.map (·.1)).append_left d.keys).trans H.keys
    · simp only [Destroyed.append, insertedVals, List.map_nil, List.append_nil]
      exact ((hp.map (·.2)).append_left d.vals).trans H.vals

theorem run_spec {K V : Type} {f : Fns K} (hf : Lawful f) (h : List (Op K V)) :
    ∃ m d l, runImpl f h = some (m, d) ∧ Hist f h m d l := by
  induction h with
  | nil => exact ⟨_, _, [], rfl, ⟨mapNew_inv f, fun _ => rfl, by simp [insertedKeys], by simp [insertedVals]⟩⟩
  | cons op h ih =>
    obtain ⟨m, d, l, e, H⟩ := ih
    obtain ⟨m', d', l', e', H', -⟩ := step_spec hf H op
    exact ⟨m', _, l', by simp [runImpl, e, e'], H'⟩

theorem find_iff {K V : Type} {f : Fns K} (hf : Lawful f) {l : List (K × V)} (hn : NoDup f l) (k : K) (p : K × V) :
    l.find? (hit f k) = some p ↔ p ∈ l ∧ f.eq p.1 k = true := by
  constructor
  · intro h1; exact ⟨List.mem_of_find?_eq_some h1, List.find?_some (p := hit f k) h1⟩
  · rintro ⟨h1, h2⟩
    cases hc : l.find? (hit f k) with
    | none => exact absurd h2 (List.find?_eq_none.mp hc p h1)
    | some q =>
      have hq := List.find?_some hc
      have hqm := List.mem_of_find?_eq_some hc
      have e1 : f.eq p.1 q.1 = true := hf.trans _ _ _ h2 (hf.symm _ _ hq)
      obtain ⟨i, hi, rfl⟩ := List.mem_iff_getElem.mp h1
      obtain ⟨j, hj, rfl⟩ := List.mem_iff_getElem.mp hqm
      have hg := List.pairwise_iff_getElem.mp hn
      rcases Nat.lt_trichotomy i j with h | h | h
      · have := hg i j hi hj h; rw [this] at e1; cases e1
      · subst h; rfl
      · have := hg j i hj hi h; rw [Lawful.symm_iff hf, this] at e1; cases e1

theorem Hist.enum {K V : Type} {f : Fns K} (hf : Lawful f) {h : List (Op K V)} {m : Map K V} {d : Destroyed K V}
    {l : List (K × V)} (H : Hist f h m d l) : Enumerates f.eq (lookup f.eq h) l := by
  refine ⟨H.inv.nodup, fun k p => ?_⟩
  rw [← H.look]
  exact find_iff hf H.inv.nodup k p

theorem sameKeysLoop_spec {K V W : Type} {f : Fns K} (hf : Lawful f) {m2 : Map K W} {l2 : List (K × W)} (h2 : MInv f m2 l2)
    (l : List (K × V)) : ∀ n, sameKeysLoop f m2 l n =
      some (if l.all (fun p => (l2.find? (hit f p.1)).isSome) then some (n + l.length) else none) := by
  induction l with
  | nil => intro n; simp [sameKeysLoop]
  | cons p l ih =>
    intro n
    simp only [sameKeysLoop, mapHasKey, mapGetRaw_spec hf h2, Option.bind_eq_bind, Option.bind_some]
    cases hq : (l2.find? (hit f p.1)).isSome
    · simp [hq]
    · simp only [List.all_cons, hq, Bool.true_and, ih, if_true, List.length_cons]
      rw [show n + 1 + l.length = n + (l.length + 1) by omega]

/-! ## Sets -/

/-- Pigeonhole: if every key of `l1` is in `l2` then `l1` is not longer, and with equal lengths the converse holds. -/
theorem pigeon {K V W : Type} {f : Fns K} (hf : Lawful f) (l1 : List (K × V)) : ∀ (l2 : List (K × W)), NoDup f l1 → NoDup f l2 →
    (∀ p ∈ l1, (l2.find? (hit f p.1)).isSome = true) →
    l1.length ≤ l2.length ∧ (l1.length = l2.length → ∀ q ∈ l2, (l1.find? (hit f q.1)).isSome = true) := by
  induction l1 with
  | nil =>
    intro l2 _ _ _
    refine ⟨by simp, fun h q hq => ?_⟩
    cases l2 with
    | nil => cases hq
    | cons a b => simp at h
  | cons p l1 ih =>
    intro l2 n1 n2 hall
    have hp := List.pairwise_cons.mp n1
    obtain ⟨q, hq⟩ := Option.isSome_iff_exists.mp (hall p (by simp))
    have hno := (old_perm hf n2 p.1).length_eq
    rw [hq] at hno
    simp only [Option.toList_some, List.length_append, List.length_cons, List.length_nil] at hno
    obtain ⟨h1, h2⟩ := ih (l2.filter (fun r => !hit f p.1 r)) hp.2 (n2.filter _) (by
      intro r hr
      rw [find_filter_ne hf (hp.1 r hr)]
      exact hall r (by simp [hr]))
    refine ⟨by simp only [List.length_cons]; omega, ?_⟩
    intro hlen r hr
    simp only [List.length_cons] at hlen
    by_cases hc : hit f p.1 r = true
    · rw [List.find?_cons_of_pos (show hit f r.1 p = true from hf.symm _ _ hc)]; rfl
    · have := h2 (by omega) r (List.mem_filter.mpr ⟨hr, by simpa using hc⟩)
      rw [List.find?_cons_of_neg]
      · exact this
      · intro h'; exact hc (hf.symm _ _ h')

end CMap
