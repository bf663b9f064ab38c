import Verif.Lemmas.HashPtrHist
/-! # Iterating over the hash map in memory, also while removing what was just delivered -/
namespace HashPtr
open CMap (Fns Destroyed HInv hit NoDup Placed)
open CMem HashPtrSpec
open MapSpec (Lawful)

variable {K V : Type} {h h' h0 : Heap (K × V)} {f : Fns K} {B : Nat} {D : List (List (DItem K V))} {c c' : List (DItem K V)}
  {malloc : (Nat → Bool) → Nat} {s s' : St K V} {m m' : CMap.HashMap (Nat × K) V}

theorem seek_sim (M : Mem h0 s m) (hlen : m.buckets.length = m.size) : ∀ (n b : Nat) (pre rest : List (DItem K V)) (hb : b < m.buckets.length),
    m.buckets[b] = pre ++ rest → m.size - b < n →
    (rest ++ (m.buckets.drop (b + 1)).flatten = [] → ∃ b', seek s n ⟨hd rest 0, b⟩ = some (⟨0, b'⟩, false)) ∧
    (∀ p R, rest ++ (m.buckets.drop (b + 1)).flatten = p :: R → ∃ b' pre' r', ∃ hb' : b' < m.buckets.length,
      m.buckets[b'] = pre' ++ p :: r' ∧ r' ++ (m.buckets.drop (b' + 1)).flatten = R ∧
      seek s n ⟨hd rest 0, b⟩ = some (⟨adr p, b'⟩, true)) := by
  intro n
  induction n with
  | zero => intro b pre rest hb _ hn; omega
  | succ n ih =>
    intro b pre rest hb hc hn
    cases rest with
    | cons q r =>
      refine ⟨fun e => by simp at e, fun p R e => ?_⟩
      simp only [List.cons_append, List.cons.injEq] at e
      obtain ⟨rfl, rfl⟩ := e
      have hz : adr q ≠ 0 := M.rep.nz _ (bucket_mem hb _ (by rw [hc]; simp))
      exact ⟨b, pre, r, hb, hc, rfl, by simp [seek, hd, hz]⟩
    | nil =>
      simp only [List.nil_append]
      by_cases hlast : b + 1 ≥ m.size
      · rw [List.drop_eq_nil_of_le (by omega)]
        refine ⟨fun _ => ⟨b + 1, by simp [seek, hd, M.size, hlast]⟩, fun p R e => by simp at e⟩
      · have hb1 : b + 1 < m.buckets.length := by omega
        obtain ⟨i1, i2⟩ := ih (b + 1) [] m.buckets[b + 1] hb1 rfl (by omega)
        have hstep : seek s (n + 1) ⟨hd ([] : List (DItem K V)) 0, b⟩ = seek s n ⟨hd m.buckets[b + 1] 0, b + 1⟩ := by
          simp only [seek, M.size]
          rw [if_neg (by simp [hd]), if_neg hlast, M.rep.slot hb1]
          rfl
        rw [hstep, List.drop_eq_getElem_cons hb1, List.flatten_cons]
        exact ⟨i1, i2⟩

theorem next_sim (M : Mem h0 s m) (hlen : m.buckets.length = m.size) (b : Nat) (pre rest : List (DItem K V)) (hb : b < m.buckets.length)
    (hc : m.buckets[b] = pre ++ rest) :
    (rest ++ (m.buckets.drop (b + 1)).flatten = [] → ∃ b', iterNext s ⟨hd rest 0, b⟩ = some (⟨0, b'⟩, 0)) ∧
    (∀ p R, rest ++ (m.buckets.drop (b + 1)).flatten = p :: R → ∃ b' pre' r', ∃ hb' : b' < m.buckets.length,
      m.buckets[b'] = pre' ++ p :: r' ∧ r' ++ (m.buckets.drop (b' + 1)).flatten = R ∧
      iterNext s ⟨hd rest 0, b⟩ = some (⟨hd r' 0, b'⟩, adr p)) := by
  obtain ⟨i1, i2⟩ := seek_sim M hlen (s.size + 1) b pre rest hb hc (by rw [M.size]; omega)
  refine ⟨fun e => ?_, fun p R e => ?_⟩
  · obtain ⟨b', e'⟩ := i1 e
    exact ⟨b', by simp [iterNext, e']⟩
  · obtain ⟨b', pre', r', hb', h1, h2, e'⟩ := i2 p R e
    refine ⟨b', pre', r', hb', h1, h2, ?_⟩
    have hseg := M.rep.ok _ (List.getElem_mem hb')
    rw [h1] at hseg
    have hcell := ((seg_append _ _ _).mp hseg).2.1
    simp [iterNext, e', getNext, hcell]

/-- Removing the item of the pair `p` when that does not shrink the map. -/
theorem drop_sim (hm : Allocator malloc) (hfin : Finite h0) (hf : Lawful f) (M : Mem h0 s m) (H : HInv (lift f) m) {b : Nat}
    (hb : b < m.buckets.length) {pre r : List (DItem K V)} {p : DItem K V} (hc : m.buckets[b] = pre ++ p :: r)
    (hns : m.size = m.initSize ∨ m.minThreshold + 1 ≤ m.load) :
    ∃ s' d, remove malloc f s (bare p).1 = some (s', true, d) ∧
      Mem h0 s' { m with buckets := m.buckets.set b (pre ++ r), load := m.load - 1 } ∧
      HInv (lift f) { m with buckets := m.buckets.set b (pre ++ r), load := m.load - 1 } := by
  have hf' := lift_lawful hf
  have hbk : f.hash p.1.2 % m.size = b := H.placed b hb p (by rw [hc]; simp)
  have hnd := CMap.chain_nodup H b hb
  have hpk : hit (lift f) (0, p.1.2) p = true := hf.refl _
  have hfilt : m.buckets[b].filter (fun q => !hit (lift f) (0, p.1.2) q) = pre ++ r := by
    rw [hc] at hnd ⊢
    rw [List.filter_append, List.filter_cons_of_neg (by simp [hpk])]
    obtain ⟨-, n2, n3⟩ := List.pairwise_append.mp hnd
    rw [List.filter_eq_self.mpr, List.filter_eq_self.mpr]
    · intro q hq
      have := (List.pairwise_cons.mp n2).1 q hq
      rw [CMap.Lawful.symm_iff hf'] at this
      simpa [hit, lift] using this
    · intro q hq
      have := n3 q hq p (by simp)
      simpa [hit, lift] using this
  have hrem : CMap.chainRemove (lift f) (0, p.1.2) m.buckets[b] = some (p, pre ++ r) := by
    rcases CMap.chainRemove_spec hf' (0, p.1.2) m.buckets[b] hnd with ⟨-, e2⟩ | ⟨old, c', e1, e2, e3, -⟩
    · exact absurd hpk (List.find?_eq_none.mp e2 p (by rw [hc]; simp))
    · have : old = p := by
        have h1 := (CMap.find_iff hf' hnd (0, p.1.2) p).mpr ⟨by rw [hc]; simp, hpk⟩
        rw [h1] at e2; exact (Option.some.inj e2).symm
      rw [e1, e3, hfilt, this]
  have hload : m.load ≠ 0 := by
    rw [H.load]
    have : p ∈ m.buckets.flatten := List.mem_flatten.mpr ⟨_, List.getElem_mem hb, by rw [hc]; simp⟩
    intro e
    rw [List.length_eq_zero_iff] at e
    rw [e] at this; cases this
  have hcond : ¬ (m.load - 1 < m.minThreshold ∧ m.size > m.initSize) := by
    rintro ⟨h1, h2⟩
    rcases hns with h3 | h3 <;> omega
  have e : CMap.hashRemove (lift f) m (0, p.1.2) =
      some ({ m with buckets := m.buckets.set b (pre ++ r), load := m.load - 1 }, true, ⟨[p.1], [p.2]⟩) := by
    simp only [CMap.hashRemove, CMap.getBucket_spec (lift f) H.pow, Option.bind_eq_bind, Option.bind_some]
    rw [show (lift f).hash (0, p.1.2) = f.hash p.1.2 from rfl, hbk, read_eq hb, Option.bind_some, hrem]
    simp only [write_eq hb, Option.bind_some, if_neg hload]
    rw [if_neg hcond]
  obtain ⟨s', es, M'⟩ := remove_sim hm hfin hf M H p.1.2 e
  obtain ⟨m2, e2, H2, -⟩ := CMap.hashRemove_spec hf' H (0, p.1.2)
  rw [e] at e2
  simp only [Option.some.injEq, Prod.mk.injEq] at e2
  refine ⟨s', _, es, M', ?_⟩
  rw [e2.1]; exact H2

/-- The items of a list that are not dropped. -/
def kept (drop : K → Bool) (R : List (DItem K V)) : List (DItem K V) := R.filter fun p => !drop (bare p).1

theorem walk_sim (hm : Allocator malloc) (hfin : Finite h0) (hf : Lawful f) (drop : K → Bool) :
    ∀ (R X : List (DItem K V)) (s : St K V) (m : CMap.HashMap (Nat × K) V) (n b : Nat) (pre rest : List (DItem K V))
      (hb : b < m.buckets.length), Mem h0 s m → HInv (lift f) m → m.buckets[b] = pre ++ rest →
      rest ++ (m.buckets.drop (b + 1)).flatten = R → R.length < n → m.buckets.flatten.Perm (X ++ R) →
      (m.size = m.initSize ∨ m.minThreshold + (R.length - (kept drop R).length) ≤ m.load ∨ kept drop R = R) →
      ∃ s' m', walk malloc f drop n s ⟨hd rest 0, b⟩ = some (R.map (fun p => (adr p, bare p)), s') ∧ Mem h0 s' m' ∧ HInv (lift f) m' ∧
        m'.buckets.flatten.Perm (X ++ kept drop R) := by
  intro R
  induction R with
  | nil =>
    intro X s m n b pre rest hb M H hc hR hn hp hns
    cases n with
    | zero => simp at hn
    | succ n =>
      obtain ⟨i1, -⟩ := next_sim M H.len b pre rest hb hc
      obtain ⟨b', e⟩ := i1 hR
      exact ⟨s, m, by simp [walk, e], M, H, by simpa [kept] using hp⟩
  | cons p R ih =>
    intro X s m n b pre rest hb M H hc hR hn hp hns
    cases n with
    | zero => simp at hn
    | succ n =>
      obtain ⟨-, i2⟩ := next_sim M H.len b pre rest hb hc
      obtain ⟨b', pre', r', hb', h1, h2, e⟩ := i2 p R hR
      have hz : adr p ≠ 0 := M.rep.nz _ (bucket_mem hb' _ (by rw [h1]; simp))
      have hpay : getPay s.h (adr p) = some (bare p) := by
        have hseg := M.rep.ok _ (List.getElem_mem hb')
        rw [h1] at hseg
        simp [getPay, ((seg_append _ _ _).mp hseg).2.1]
      have hlen : (kept drop R).length ≤ R.length := List.length_filter_le _ _
      have hn' : R.length < n := by simpa using hn
      cases hd : drop (bare p).1 with
      | false =>
        have hk : kept drop (p :: R) = p :: kept drop R := by simp [kept, hd]
        rw [hk] at hns
        obtain ⟨s', m', e', M', H', hp'⟩ := ih (X ++ [p]) s m n b' (pre' ++ [p]) r' hb' M H (by simpa using h1) h2 hn' (by simpa using hp)
          (by
            rcases hns with h | h | h
            · exact Or.inl h
            · right; left; simp only [List.length_cons] at h; omega
            · right; right; exact (List.cons.inj h).2)
        refine ⟨s', m', ?_, M', H', ?_⟩
        · simp only [walk, e, Option.bind_eq_bind, Option.bind_some, if_neg hz, hpay, hd, Bool.false_eq_true, if_false, e']
          rfl
        · rw [hk]; simpa using hp'
      | true =>
        have hk : kept drop (p :: R) = kept drop R := by simp [kept, hd]
        rw [hk] at hns
        obtain ⟨s1, d1, er, M1, H1⟩ := drop_sim hm hfin hf M H hb' h1 (by
          rcases hns with h | h | h
          · exact Or.inl h
          · right; simp only [List.length_cons] at h; omega
          · have := congrArg List.length h; simp only [List.length_cons] at this; omega)
        obtain ⟨s', m', e', M', H', hp'⟩ := ih X s1 _ n b' pre' r' (by simpa using hb') M1 H1 (by simp)
          (by simp only [List.drop_set_of_lt (Nat.lt_succ_self b')]; exact h2) hn'
          (by
            have hq : m.buckets.flatten.Perm (p :: (m.buckets.set b' (pre' ++ r')).flatten) := by
              rw [CMap.flatten_set _ _ hb', CMap.flatten_split m.buckets _ hb', h1]
              simp only [List.append_assoc, List.cons_append]
              refine (List.Perm.append_left _ List.perm_middle).trans List.perm_middle
            have := hq.symm.trans (hp.trans List.perm_middle)
            exact (List.perm_cons p).mp this)
          (by
            rcases hns with h | h | h
            · exact Or.inl h
            · right; left; simp only [List.length_cons] at h; show m.minThreshold + _ ≤ m.load - 1; omega
            · have := congrArg List.length h; simp only [List.length_cons] at this; omega)
        refine ⟨s', m', ?_, M', H', by rw [hk]; exact hp'⟩
        simp only [walk, e, Option.bind_eq_bind, Option.bind_some, if_neg hz, hpay, hd, if_true, er, Option.map_some, e']
        rfl

theorem iterInit_sim (M : Mem h0 s m) (H : HInv (lift f) m) :
    ∃ hb : 0 < m.buckets.length, iterInit s = some ⟨hd m.buckets[0] 0, 0⟩ ∧ m.buckets[0] ++ (m.buckets.drop 1).flatten = m.buckets.flatten := by
  have hb : 0 < m.buckets.length := by rw [H.len]; exact CMap.pow_pos' H.pow
  refine ⟨hb, by simp [iterInit, M.rep.slot hb], ?_⟩
  rw [CMap.flatten_split _ 0 hb]; simp

end HashPtr
