import Verif.Lemmas.HashPtrStats
/-! # C164-C167: the hash map as an array and chains of items in memory -/
namespace HashPtr
open HashPtrSpec
open CMap (Fns Destroyed)
open MapSpec (Op lookup Enumerates expectedReturn Lawful insertedKeys insertedVals)

variable {K V : Type}

theorem bare_nodup {f : Fns K} {l : List (DItem K V)} (hn : CMap.NoDup (lift f) l) :
    (l.map bare).Pairwise (fun p q => f.eq p.1 q.1 = false) := by
  rw [List.pairwise_map]; exact hn

theorem Sim.enum {f : Fns K} (hf : Lawful f) {n : Nat} {h0 : Heap (K × V)} {h : List (Op K V)} {s : St K V} {d : Destroyed K V}
    {m : CMap.HashMap (Nat × K) V} (S : Sim f n h0 h s d m) : Enumerates f.eq (lookup f.eq h) (m.buckets.flatten.map bare) := by
  have hn := bare_nodup S.inv.nodup
  refine ⟨hn, fun k p => ?_⟩
  rw [← S.look, Option.map_eq_some_iff]
  constructor
  · rintro ⟨q, hq, rfl⟩
    obtain ⟨h1, h2⟩ := (CMap.find_iff (lift_lawful hf) S.inv.nodup (0, k) q).mp hq
    exact ⟨List.mem_map_of_mem h1, h2⟩
  · rintro ⟨h1, h2⟩
    obtain ⟨q, hq, rfl⟩ := List.mem_map.mp h1
    exact ⟨q, (CMap.find_iff (lift_lawful hf) S.inv.nodup (0, k) q).mpr ⟨hq, h2⟩, rfl⟩

theorem pay_at {h0 : Heap (K × V)} {s : St K V} {m : CMap.HashMap (Nat × K) V} (M : Mem h0 s m) {p : DItem K V}
    (hp : p ∈ m.buckets.flatten) : getPay s.h (adr p) = some (bare p) ∧ adr p ≠ 0 := by
  obtain ⟨c, hc, hpc⟩ := List.mem_flatten.mp hp
  obtain ⟨x, hx⟩ := (M.rep.ok c hc).get p hpc
  exact ⟨by simp [getPay, hx], M.rep.nz _ (mem_addrs.mpr ⟨c, hc, p, hpc, rfl⟩)⟩

theorem view_sim {f : Fns K} (hf : Lawful f) {h0 : Heap (K × V)} {s : St K V} {m : CMap.HashMap (Nat × K) V} (M : Mem h0 s m)
    (H : CMap.HInv (lift f) m) (k : K) : view f s k = some ((m.buckets.flatten.find? (CMap.hit (lift f) (0, k))).map bare) := by
  rw [view, get_sim hf M H]
  cases hq : m.buckets.flatten.find? (CMap.hit (lift f) (0, k)) with
  | none => simp
  | some q =>
    obtain ⟨h1, h2⟩ := pay_at M (List.mem_of_find?_eq_some hq)
    simp [h1, h2]

/-- **C164**. In every memory, for every allocator that returns a free address that is not NULL, all callbacks that respect
equality, every initial size and every history (newest call first) of inserts, removes and clears, with all the growing and
shrinking they cause: no call reads or writes a block that is not allocated, indexes the bucket array out of bounds or runs
for ever; a pointer from `HashMapGet` shows the last pair inserted with an equal key and not removed or cleared since; the next
call, whatever it is, also runs, returns whether an equal key was present, and destroys exactly the pairs it drops; all keys
and values handed in are destroyed once or still stored. -/
theorem C164_hash_map_in_memory_is_a_finite_map (malloc : (Nat → Bool) → Nat) (hm : Allocator malloc) (f : Fns K) (hf : Lawful f)
    (h0 : Heap (K × V)) (hfin : Finite h0) (n : Nat) (h : List (Op K V)) :
    ∃ s d l, runPtr malloc f h0 n h = some (s, d) ∧ Enumerates f.eq (lookup f.eq h) l ∧ (∀ k, view f s k = some (lookup f.eq h k)) ∧
      s.load = l.length ∧ (d.keys ++ l.map (·.1)).Perm (insertedKeys h) ∧ (d.vals ++ l.map (·.2)).Perm (insertedVals h) ∧
      ∀ op, ∃ s' d', stepPtr malloc f s op = some (s', expectedReturn f.eq h op, d') ∧ ExpectedDestroyed f.eq h l d' op := by
  obtain ⟨s, d, m, e, S⟩ := run_sim hm hfin hf n h
  refine ⟨s, d, m.buckets.flatten.map bare, e, S.enum hf, fun k => ?_, ?_, ?_, ?_, fun op => ?_⟩
  · rw [view_sim hf S.mem S.inv, S.look]
  · rw [S.mem.load, S.inv.load, List.length_map]
  · obtain ⟨lh, dl, rfl, HH, rfl⟩ := S.hist
    have := HH.keys.map (·.2)
    rw [keys_strip] at this
    simpa [dstrip, bare, Function.comp_def] using this
  · obtain ⟨lh, dl, rfl, HH, rfl⟩ := S.hist
    have := HH.vals
    rw [vals_strip] at this
    simpa [dstrip, bare, Function.comp_def] using this
  · obtain ⟨s', m', d', es, -, hd, -⟩ := step_sim hm hfin hf S op
    exact ⟨s', d', es, hd⟩

/-- **C164**, memory. After every history the blocks of the map are one bucket array with as many slots as the map has buckets
and one item for each stored pair, all different, not NULL and none in use before; every other address is as it was before
the map was made. `HashMapDestroy` then gives back the very memory there was before the map was made, having destroyed exactly
the stored keys and values; `HashMapSoftDestroy` does the same but destroys the keys only. -/
theorem C164_memory_is_exactly_accounted (malloc : (Nat → Bool) → Nat) (hm : Allocator malloc) (f : Fns K) (hf : Lawful f)
    (h0 : Heap (K × V)) (hfin : Finite h0) (n : Nat) (h : List (Op K V)) :
    ∃ s d items l slots, runPtr malloc f h0 n h = some (s, d) ∧ Enumerates f.eq (lookup f.eq h) l ∧
      s.h s.buckets = some (.arr slots) ∧ slots.length = s.size ∧ items.map (getPay s.h) = l.map some ∧
      (s.buckets :: items).Nodup ∧ 0 ∉ items ∧ (∀ a ∈ s.buckets :: items, h0 a = none) ∧ (∀ a, a ∉ s.buckets :: items → s.h a = h0 a) ∧
      ∃ l' : List (K × V), l'.Perm l ∧ destroy s = some (h0, ⟨l'.map (·.1), l'.map (·.2)⟩) ∧ softDestroy s = some (h0, ⟨l'.map (·.1), []⟩) := by
  obtain ⟨s, d, m, e, S⟩ := run_sim hm hfin hf n h
  obtain ⟨l', hp, e1, e2⟩ := destroy_sim S.mem S.inv
  refine ⟨s, d, addrs m.buckets, m.buckets.flatten.map bare, _, e, S.enum hf, S.mem.rep.arr, ?_, ?_, S.mem.rep.nd,
    fun hz => S.mem.rep.nz 0 hz rfl, S.mem.fresh, S.mem.out, l'.map bare, hp.map bare, ?_, ?_⟩
  · rw [List.length_map, S.inv.len, S.mem.size]
  · rw [addrs, List.map_map, List.map_map]
    exact List.map_congr_left fun p hp => (pay_at S.mem hp).1
  · rw [e1]; simp [bare, Function.comp_def]
  · rw [e2]; simp [bare, Function.comp_def]

/-- **C165**. A pointer returned by `HashMapGet` stays valid through every later insert (also of the same key), every remove of
other keys and all the rehashing they cause: `HashMapGet` still returns the same pointer for that key, and it shows the pair
currently stored. -/
theorem C165_pointers_survive (malloc : (Nat → Bool) → Nat) (hm : Allocator malloc) (f : Fns K) (hf : Lawful f)
    (h0 : Heap (K × V)) (hfin : Finite h0) (n : Nat) (h : List (Op K V)) (k : K) :
    ∃ s d a, runPtr malloc f h0 n h = some (s, d) ∧ get f s k = some a ∧ (a ≠ 0 ↔ (lookup f.eq h k).isSome) ∧
      (a ≠ 0 → ∀ h2 : List (Op K V), (∀ op ∈ h2, Keeps f.eq k op) →
        ∃ s2 d2 p, runPtr malloc f h0 n (h2 ++ h) = some (s2, d2) ∧ get f s2 k = some a ∧ getPay s2.h a = some p ∧
          lookup f.eq (h2 ++ h) k = some p) := by
  obtain ⟨s, d, m, e, S⟩ := run_sim hm hfin hf n h
  refine ⟨s, d, _, e, get_sim hf S.mem S.inv k, ?_, ?_⟩
  · rw [← S.look]
    cases hq : m.buckets.flatten.find? (CMap.hit (lift f) (0, k)) with
    | none => simp
    | some q => simpa using (pay_at S.mem (List.mem_of_find?_eq_some hq)).2
  · intro ha h2 hk
    obtain ⟨q, hq⟩ : ∃ q, m.buckets.flatten.find? (CMap.hit (lift f) (0, k)) = some q := by
      cases hq : m.buckets.flatten.find? (CMap.hit (lift f) (0, k)) with
      | none => simp [hq] at ha
      | some q => exact ⟨q, rfl⟩
    have key : ∃ s d m, runPtr malloc f h0 n (h2 ++ h) = some (s, d) ∧ Sim f n h0 (h2 ++ h) s d m ∧ At f m (adr q) k := by
      induction h2 with
      | nil =>
        obtain ⟨h1, h2⟩ := (CMap.find_iff (lift_lawful hf) S.inv.nodup (0, k) q).mp hq
        exact ⟨s, d, m, e, S, q, h1, rfl, h2⟩
      | cons op h2 ih =>
        obtain ⟨s1, d1, m1, e1, S1, A1⟩ := ih fun op hop => hk op (List.mem_cons_of_mem _ hop)
        obtain ⟨s', m', d', es, S', -, st⟩ := step_sim hm hfin hf S1 op
        refine ⟨s', _, m', ?_, S', st _ _ (hk op (by simp)) A1⟩
        simp only [List.cons_append, runPtr, e1, es, Option.bind_eq_bind, Option.bind_some]
    obtain ⟨s2, d2, m2, e2, S2, p, hp, hpa, hpk⟩ := key
    have hf2 := (CMap.find_iff (lift_lawful hf) S2.inv.nodup (0, k) p).mpr ⟨hp, hpk⟩
    have hg := get_sim hf S2.mem S2.inv k
    rw [hf2] at hg
    refine ⟨s2, d2, bare p, e2, ?_, ?_, ?_⟩
    · rw [hg, hq]; simp [hpa]
    · rw [hq]; simpa [hpa] using (pay_at S2.mem hp).1
    · rw [← S2.look, hf2]; rfl

/-- **C166**. After every history an iteration delivers each stored pair exactly once, at the address `HashMapGet` gives for its
key, and touches nothing that is not allocated. If during the iteration the caller removes, just after it was delivered, each
key that satisfies `drop`, then, provided these removes do not shrink the map, the iteration still delivers the same items in
the same order; afterwards the map holds exactly the pairs not dropped, and destroying it gives all memory back. The map is not
shrunk if it has its initial size, or if it still holds the number of pairs its size requires. -/
theorem C166_iteration (malloc : (Nat → Bool) → Nat) (hm : Allocator malloc) (f : Fns K) (hf : Lawful f)
    (h0 : Heap (K × V)) (hfin : Finite h0) (n : Nat) (h : List (Op K V)) :
    ∃ s d vis, runPtr malloc f h0 n h = some (s, d) ∧ visits malloc f s = some vis ∧
      Enumerates f.eq (lookup f.eq h) (vis.map (·.2)) ∧ (∀ a p, (a, p) ∈ vis → get f s p.1 = some a) ∧
      ∀ drop : K → Bool, s.size = s.initSize ∨ s.minT ≤ ((vis.map (·.2)).filter fun p => !drop p.1).length →
        ∃ i s', iterInit s = some i ∧ walk malloc f drop (vis.length + 1) s i = some (vis, s') ∧
          (∀ k, view f s' k = some ((lookup f.eq h k).filter fun p => !drop p.1)) ∧ ∃ d', destroy s' = some (h0, d') := by
  obtain ⟨s, d, m, e, S⟩ := run_sim hm hfin hf n h
  obtain ⟨hb, ei, hsplit⟩ := iterInit_sim S.mem S.inv
  have hvl : (m.buckets.flatten.map fun p => (adr p, bare p)).length = m.load := by rw [List.length_map, S.inv.load]
  have hv2 : (m.buckets.flatten.map fun p => (adr p, bare p)).map (·.2) = m.buckets.flatten.map bare := by
    rw [List.map_map]; rfl
  refine ⟨s, d, m.buckets.flatten.map fun p => (adr p, bare p), e, ?_, ?_, ?_, ?_⟩
  · obtain ⟨s', m', ew, -⟩ := walk_sim (malloc := malloc) hm hfin hf (fun _ => false) m.buckets.flatten [] s m (s.load + 1) 0 []
      m.buckets[0] hb S.mem S.inv rfl hsplit (by rw [S.mem.load, S.inv.load]; omega) (List.Perm.refl _) (Or.inr (Or.inr (List.filter_eq_self.mpr (by simp))))
    simp [visits, ei, ew]
  · rw [hv2]; exact S.enum hf
  · intro a p hp
    obtain ⟨q, hq, he⟩ := List.mem_map.mp hp
    simp only [Prod.mk.injEq] at he
    obtain ⟨rfl, rfl⟩ := he
    have := (CMap.find_iff (lift_lawful hf) S.inv.nodup (0, (bare q).1) q).mpr ⟨hq, hf.refl _⟩
    rw [get_sim hf S.mem S.inv, this]; rfl
  · intro drop hd
    rw [hv2, hvl] at *
    have hk : ((m.buckets.flatten.map bare).filter fun p => !drop p.1).length = (kept drop m.buckets.flatten).length := by
      rw [kept, List.filter_map, List.length_map]; rfl
    obtain ⟨s', m', ew, M', H', hp'⟩ := walk_sim (malloc := malloc) hm hfin hf drop m.buckets.flatten [] s m (m.load + 1) 0 []
      m.buckets[0] hb S.mem S.inv rfl hsplit (by rw [S.inv.load]; omega) (List.Perm.refl _) (by
        rcases hd with hd | hd
        · left; rw [← S.mem.size, ← S.mem.initSize]; exact hd
        · right; left
          have h1 : (kept drop m.buckets.flatten).length ≤ m.buckets.flatten.length := List.length_filter_le _ _
          have h2 := S.inv.load
          have h3 := S.mem.minT
          omega)
    obtain ⟨l', -, ed, -⟩ := destroy_sim M' H'
    refine ⟨_, s', ei, ew, fun k => ?_, _, ed⟩
    rw [view_sim hf M' H', ← S.look]
    congr 1
    have hn2 : CMap.NoDup (lift f) (kept drop m.buckets.flatten) := S.inv.nodup.filter _
    rw [CMap.find_perm (lift_lawful hf) hn2 (by simpa using hp')]
    cases hq : m.buckets.flatten.find? (CMap.hit (lift f) (0, k)) with
    | none =>
      have : (kept drop m.buckets.flatten).find? (CMap.hit (lift f) (0, k)) = none := by
        rw [List.find?_eq_none] at hq ⊢
        intro x hx; exact hq x (List.mem_filter.mp hx).1
      rw [this]; rfl
    | some q =>
      obtain ⟨g1, g2⟩ := (CMap.find_iff (lift_lawful hf) S.inv.nodup (0, k) q).mp hq
      cases hdq : drop (bare q).1 with
      | false =>
        have := (CMap.find_iff (lift_lawful hf) hn2 (0, k) q).mpr ⟨List.mem_filter.mpr ⟨g1, by simp [hdq]⟩, g2⟩
        rw [this]; simp [Option.filter, hdq]
      | true =>
        have : (kept drop m.buckets.flatten).find? (CMap.hit (lift f) (0, k)) = none := by
          rw [List.find?_eq_none]
          intro x hx hxk
          obtain ⟨x1, x2⟩ := List.mem_filter.mp hx
          have := (CMap.find_iff (lift_lawful hf) S.inv.nodup (0, k) x).mpr ⟨x1, hxk⟩
          rw [hq] at this
          cases this
          simp [hdq] at x2
        rw [this]; simp [Option.filter, hdq]

/-- **C166**. A map that was never given more pairs than three quarters of its initial number of buckets (at least 24) has its
initial size, so `C166_iteration` allows every choice of removes. -/
theorem C166_small_maps_do_not_resize (malloc : (Nat → Bool) → Nat) (hm : Allocator malloc) (f : Fns K) (hf : Lawful f)
    (h0 : Heap (K × V)) (hfin : Finite h0) (n : Nat) (h : List (Op K V)) (hsmall : (insertedKeys h).length ≤ max n 32 * 3 / 4)
    (hn : n ≤ 2 ^ 30) : ∃ s d, runPtr malloc f h0 n h = some (s, d) ∧ s.size = s.initSize := by
  obtain ⟨s, d, m, e, S⟩ := run_sim hm hfin hf n h
  refine ⟨s, d, e, ?_⟩
  rw [S.mem.size, S.mem.initSize]
  refine (S.few ?_).1
  have hge : max n 32 ≤ startSize n := by
    unfold startSize
    have h1 : min (max n CMap.MIN_BUCKETS) CMap.MAX_BUCKETS = max n 32 := by
      simp only [CMap.MIN_BUCKETS, CMap.MAX_BUCKETS]; omega
    rw [h1]
    simp only
    split
    · exact Nat.le_refl _
    · have hk : (BitVec.ofNat 64 (max n 32)).toNat = max n 32 := by rw [BitVec.toNat_ofNat, Nat.mod_eq_of_lt (by omega)]
      obtain ⟨i, hi, hle, -⟩ := C36_upperPowerOfTwo_partial (BitVec.ofNat 64 (max n 32)) (by rw [hk]; omega) (by rw [hk]; omega)
      rw [hi]; omega
  simp only [inserts, CMap.maxThr]
  have : max n 32 * 3 / 4 ≤ startSize n * 3 / 4 := Nat.div_le_div_right (Nat.mul_le_mul_right 3 hge)
  omega

/-- **C166**. An iterator that has returned NULL returns NULL again. -/
theorem C166_end_is_final (s : St K V) (i i' : Iter) (h : iterNext s i = some (i', 0)) : ∃ i'', iterNext s i' = some (i'', 0) := by
  have key : ∀ n i j, seek s n i = some (j, false) → j.cur = 0 ∧ j.bucket ≥ s.size := by
    intro n
    induction n with
    | zero => intro i j e; simp [seek] at e
    | succ n ih =>
      intro i j e
      simp only [seek] at e
      split at e
      · simp at e
      · split at e
        · rename_i h1 h2
          simp only [Option.some.injEq, Prod.mk.injEq, and_true] at e
          subst e
          exact ⟨by simpa using h1, h2⟩
        · simp only [Option.bind_eq_bind, Option.bind_eq_some_iff] at e
          obtain ⟨c, -, e⟩ := e
          exact ih _ _ e
  have key2 : ∀ n i j, seek s n i = some (j, true) → j.cur ≠ 0 := by
    intro n
    induction n with
    | zero => intro i j e; simp [seek] at e
    | succ n ih =>
      intro i j e
      simp only [seek] at e
      split at e
      · rename_i h1
        simp only [Option.some.injEq, Prod.mk.injEq, and_true] at e
        subst e; exact h1
      · split at e
        · simp at e
        · simp only [Option.bind_eq_bind, Option.bind_eq_some_iff] at e
          obtain ⟨c, -, e⟩ := e
          exact ih _ _ e
  simp only [iterNext, Option.bind_eq_bind, Option.bind_eq_some_iff] at h
  obtain ⟨⟨j, more⟩, e1, e2⟩ := h
  cases more with
  | true =>
    simp only [if_true, Option.bind_eq_some_iff, Option.some.injEq, Prod.mk.injEq] at e2
    obtain ⟨nx, -, -, h0⟩ := e2
    exact absurd h0 (key2 _ _ _ e1)
  | false =>
    simp only [Bool.false_eq_true, if_false, Option.some.injEq, Prod.mk.injEq, and_true] at e2
    subst e2
    obtain ⟨h1, h2⟩ := key _ _ _ e1
    refine ⟨⟨0, j.bucket + 1⟩, ?_⟩
    have : j.bucket + 1 ≥ s.size := by omega
    simp [iterNext, seek, h1, this]

/-- **C167**. After every history the number of buckets is a power of two, not below the initial one, and at most three quarters
of it is used, unless the map has the largest size (2^30 buckets). -/
theorem C167_never_overfull (malloc : (Nat → Bool) → Nat) (hm : Allocator malloc) (f : Fns K) (hf : Lawful f)
    (h0 : Heap (K × V)) (hfin : Finite h0) (n : Nat) (h : List (Op K V)) :
    ∃ s d l, runPtr malloc f h0 n h = some (s, d) ∧ Enumerates f.eq (lookup f.eq h) l ∧ (∃ i, s.size = 2 ^ i) ∧ (∃ i, s.initSize = 2 ^ i) ∧
      32 ≤ s.initSize ∧ min n (2 ^ 30) ≤ s.initSize ∧ s.initSize ≤ s.size ∧ (4 * l.length ≤ 3 * s.size ∨ 2 ^ 30 ≤ s.size) := by
  obtain ⟨s, d, m, e, S⟩ := run_sim hm hfin hf n h
  refine ⟨s, d, _, e, S.enum hf, ?_, ?_, ?_, ?_, ?_, ?_⟩
  · rw [S.mem.size]; exact S.inv.pow
  · rw [S.mem.initSize]; exact S.inv.initPow
  · rw [S.mem.initSize]; exact S.linv.big
  · rw [S.mem.initSize, S.linv.init]
    unfold startSize
    simp only
    have h1 : min n (2 ^ 30) ≤ min (max n CMap.MIN_BUCKETS) CMap.MAX_BUCKETS := by simp only [CMap.MIN_BUCKETS, CMap.MAX_BUCKETS]; omega
    have h2 : min (max n CMap.MIN_BUCKETS) CMap.MAX_BUCKETS ≤ 2 ^ 30 := by simp only [CMap.MIN_BUCKETS, CMap.MAX_BUCKETS]; omega
    have h3 : 32 ≤ min (max n CMap.MIN_BUCKETS) CMap.MAX_BUCKETS := by simp only [CMap.MIN_BUCKETS, CMap.MAX_BUCKETS]; omega
    generalize min (max n CMap.MIN_BUCKETS) CMap.MAX_BUCKETS = k at *
    split
    · exact h1
    · have hk : (BitVec.ofNat 64 k).toNat = k := by rw [BitVec.toNat_ofNat, Nat.mod_eq_of_lt (by omega)]
      obtain ⟨i, hi, hle, -⟩ := C36_upperPowerOfTwo_partial (BitVec.ofNat 64 k) (by rw [hk]; omega) (by rw [hk]; omega)
      rw [hi]; omega
  · rw [S.mem.size, S.mem.initSize]; exact S.inv.le
  · rw [List.length_map, ← S.inv.load, S.mem.size]
    rcases S.linv.full with hl | hl
    · left; simp only [CMap.maxThr] at hl; omega
    · right; exact hl

/-- **C167**. After every history `HashMapPrintStats` reads only allocated memory and prints: the number of buckets, how many of
them some stored key hashes to, the number of stored pairs, and ten lines whose lengths are the ten largest numbers of pairs
that share a bucket, largest first; each line with a length that is not zero names a bucket of that length, and no bucket
twice. -/
theorem C167_stats_are_right (malloc : (Nat → Bool) → Nat) (hm : Allocator malloc) (f : Fns K) (hf : Lawful f)
    (h0 : Heap (K × V)) (hfin : Finite h0) (n : Nat) (h : List (Op K V)) :
    ∃ s d l ls sorted top, runPtr malloc f h0 n h = some (s, d) ∧ Enumerates f.eq (lookup f.eq h) l ∧
      ls = (List.range s.size).map (fun i => l.countP fun p => f.hash p.1 % s.size == i) ∧ Descending ls sorted ∧
      printStats s = some (s.size, ls.countP (· ≠ 0), l.length, top) ∧ top.map (·.2) = sorted.take 10 ∧ top.length = 10 ∧
      (∀ i c, (i, c) ∈ top → c ≠ 0 → ls[i]? = some c) ∧ top.Pairwise (fun x y => y.2 ≠ 0 → x.1 ≠ y.1) := by
  obtain ⟨s, d, m, e, S⟩ := run_sim hm hfin hf n h
  have hls : m.buckets.map List.length =
      (List.range s.size).map (fun i => (m.buckets.flatten.map bare).countP fun p => f.hash p.1 % s.size == i) := by
    refine List.ext_getElem (by simp [S.mem.size, S.inv.len]) fun i h1 h2 => ?_
    rw [List.getElem_map, List.getElem_map, List.getElem_range, S.mem.size]
    exact bucket_count S.inv (by simpa using h1)
  have hlen : 32 ≤ (m.buckets.map List.length).length := by
    rw [List.length_map, S.inv.len]
    exact Nat.le_trans S.linv.big S.inv.le
  have hne : m.buckets.map List.length ≠ [] := by rintro e; rw [e] at hlen; simp at hlen
  refine ⟨s, d, _, _, desc (m.buckets.map List.length), topLoop 10 (m.buckets.map List.length), e, S.enum hf, hls, ⟨?_, ?_⟩, ?_, ?_, ?_, ?_, ?_⟩
  · exact List.mergeSort_perm _ _
  · have : (desc (m.buckets.map List.length)).Pairwise (fun x y => decide (y ≤ x) = true) :=
      List.pairwise_mergeSort (fun x y z h1 h2 => by simp only [decide_eq_true_eq] at *; omega) (fun x y => by simp only [Bool.or_eq_true, decide_eq_true_eq]; omega) _
    exact this.imp (by simp)
  · simp only [printStats, S.mem.size, ← S.inv.len, lengths_sim S.mem S.inv m.buckets.length 0 (by omega), Option.bind_eq_bind, Option.bind_some,
      List.drop_zero, List.countP_eq_length_filter, List.length_map, List.length_flatten]
  · exact top_desc 10 _ (by omega)
  · simp [topLoop]
  · exact top_real 10 _ hne
  · exact top_distinct 10 _ hne

/-- An allocator: the lowest free block from 1 on. -/
noncomputable def demoMalloc (used : Nat → Bool) : Nat :=
  ((List.range 64).find? fun a => !used a && a != 0).getD (Classical.epsilon fun a => used a = false ∧ a ≠ 0)

theorem demoMalloc_ok : Allocator demoMalloc := by
  intro used ⟨N, hN⟩
  unfold demoMalloc
  cases h : (List.range 64).find? fun a => !used a && a != 0 with
  | some a =>
    have := List.find?_some h
    simpa using this
  | none => exact Classical.epsilon_spec (p := fun a => used a = false ∧ a ≠ 0) ⟨N + 1, hN _ (by omega), by omega⟩

/-- Memory with one block in use. -/
def demoHeap : Heap (Nat × Nat) := fun a => if a = 2 then some (.other 7) else none

theorem demoHeap_finite : Finite demoHeap := ⟨3, fun a ha => by simp [demoHeap]; omega⟩

/-- Numbers as keys, hashed to themselves. -/
def natFns : Fns Nat := ⟨fun a b => a == b, id⟩

theorem natFns_lawful : Lawful natFns := by
  refine ⟨?_, ?_, ?_, ?_⟩ <;> intros <;> simp_all [natFns]

/-- The hypotheses are met, and the program can be run: three items in one chain, one replaced, the middle one removed. -/
example : Allocator demoMalloc ∧ Lawful natFns ∧ Finite demoHeap ∧
    (runPtr demoMalloc natFns demoHeap 0 [.remove 33, .insert 1 11, .insert 65 3, .insert 33 2, .insert 1 1]).bind
      (fun r => (visits demoMalloc natFns r.1).map fun v => (v, r.2.vals)) = some ([(5, (65, 3)), (3, (1, 11))], [1, 2]) := by
  refine ⟨demoMalloc_ok, natFns_lawful, demoHeap_finite, ?_⟩
  decide +kernel

/-- `C166_iteration`: both keys of a chain are removed as they are delivered. -/
example : (runPtr demoMalloc natFns demoHeap 0 [.insert 33 2, .insert 1 1]).bind (fun r => (iterInit r.1).bind fun i =>
    (walk demoMalloc natFns (fun _ => true) 3 r.1 i).map fun w => (w.1, w.2.load)) = some ([(4, (33, 2)), (3, (1, 1))], 0) := by
  decide +kernel

/-- `C165_pointers_survive`: the same address before and after. -/
example : (runPtr demoMalloc natFns demoHeap 0 [.insert 33 2, .insert 1 1]).bind (fun r => get natFns r.1 1) = some 3 ∧
    (runPtr demoMalloc natFns demoHeap 0 [.remove 33, .insert 1 5, .insert 33 2, .insert 1 1]).bind (fun r => get natFns r.1 1) = some 3 := by
  decide +kernel

/-- **C166**, the limit. The iterator holds a pointer to the item it will deliver next. If the caller removes that item instead
of the one just delivered, the next step reads freed memory. -/
theorem C166_removing_the_next_item_negated :
    ∃ (s s2 : St Nat Nat) (d d2 : Destroyed Nat Nat) (i i2 : Iter) (a : Nat),
      runPtr demoMalloc natFns demoHeap 0 [.insert 33 2, .insert 1 1] = some (s, d) ∧ iterInit s = some i ∧
      iterNext s i = some (i2, a) ∧ getPay s.h a = some (33, 2) ∧
      runPtr demoMalloc natFns demoHeap 0 [.remove 1, .insert 33 2, .insert 1 1] = some (s2, d2) ∧ iterNext s2 i2 = none := by
  obtain ⟨s, d, m, e, -⟩ := run_sim demoMalloc_ok demoHeap_finite natFns_lawful 0 [.insert 33 2, .insert 1 1]
  obtain ⟨s2, d2, m2, e2, -⟩ := run_sim demoMalloc_ok demoHeap_finite natFns_lawful 0 [.remove 1, .insert 33 2, .insert 1 1]
  have h1 : (runPtr demoMalloc natFns demoHeap 0 [.insert 33 2, .insert 1 1]).bind (fun r => (iterInit r.1).bind fun i =>
      (iterNext r.1 i).bind fun x => (getPay r.1.h x.2).map fun p => (i, x.1, x.2, p)) = some (⟨0, 0⟩, ⟨3, 1⟩, 4, (33, 2)) := by decide +kernel
  have h2 : (runPtr demoMalloc natFns demoHeap 0 [.remove 1, .insert 33 2, .insert 1 1]).map (fun r => (iterNext r.1 ⟨3, 1⟩).isNone) =
      some true := by decide +kernel
  simp only [e, Option.bind_some, Option.bind_eq_some_iff, Option.map_eq_some_iff, Prod.mk.injEq] at h1
  simp only [e2, Option.map_some, Option.some.injEq, Option.isNone_iff_eq_none] at h2
  obtain ⟨i, hi, ⟨x, a⟩, hx, p, hp, rfl, rfl, h3, rfl⟩ := h1
  exact ⟨s, s2, d, d2, _, _, a, e, hi, hx, hp, e2, h2⟩

/-- Inserts of the given keys, the last of the list first. -/
def inserted (ks : List Nat) : List (Op Nat Nat) := ks.map fun k => .insert k 0

/-- **C166**, the limit. If the caller inserts a new key during an iteration and the map grows, the iteration can deliver a pair a
second time and never deliver another one that is stored all the time: here the key 128 comes twice and the key 0 not at all. -/
theorem C166_growing_during_iteration_negated :
    ∃ (s s2 s3 : St Nat Nat) (d d2 : Destroyed Nat Nat) (i i2 : Iter) (a : Nat) (vis : List (Nat × (Nat × Nat))),
      runPtr demoMalloc natFns demoHeap 0 (inserted (128 :: 64 :: (List.range 22).reverse)) = some (s, d) ∧ iterInit s = some i ∧
      iterNext s i = some (i2, a) ∧ getPay s.h a = some (128, 0) ∧
      runPtr demoMalloc natFns demoHeap 0 (inserted (22 :: 128 :: 64 :: (List.range 22).reverse)) = some (s2, d2) ∧
      walk demoMalloc natFns (fun _ => false) 30 s2 i2 = some (vis, s3) ∧ (128, 0) ∈ vis.map (·.2) ∧ (0, 0) ∉ vis.map (·.2) := by
  obtain ⟨s, d, m, e, -⟩ := run_sim demoMalloc_ok demoHeap_finite natFns_lawful 0 (inserted (128 :: 64 :: (List.range 22).reverse))
  obtain ⟨s2, d2, m2, e2, -⟩ := run_sim demoMalloc_ok demoHeap_finite natFns_lawful 0 (inserted (22 :: 128 :: 64 :: (List.range 22).reverse))
  have h1 : (runPtr demoMalloc natFns demoHeap 0 (inserted (128 :: 64 :: (List.range 22).reverse))).bind (fun r => (iterInit r.1).bind fun i =>
      (iterNext r.1 i).bind fun x => (getPay r.1.h x.2).map fun p => (i, x.1, x.2, p)) = some (⟨26, 0⟩, ⟨25, 0⟩, 26, (128, 0)) := by decide +kernel
  have h2 : (runPtr demoMalloc natFns demoHeap 0 (inserted (22 :: 128 :: 64 :: (List.range 22).reverse))).bind (fun r =>
      (walk demoMalloc natFns (fun _ => false) 30 r.1 ⟨25, 0⟩).map fun w => w.1.map (·.2)) =
      some ((64 :: 128 :: (List.range' 1 22)).map fun k => (k, 0)) := by decide +kernel
  simp only [e, Option.bind_some, Option.bind_eq_some_iff, Option.map_eq_some_iff, Prod.mk.injEq] at h1
  simp only [e2, Option.bind_some, Option.map_eq_some_iff] at h2
  obtain ⟨i, hi, ⟨x, a⟩, hx, p, hp, rfl, rfl, h3, rfl⟩ := h1
  obtain ⟨⟨vis, s3⟩, hw, hv⟩ := h2
  refine ⟨s, s2, s3, d, d2, _, _, a, vis, e, hi, hx, hp, e2, hw, ?_, fun h => ?_⟩
  · have h1 : vis.map (·.2) = (64 :: 128 :: (List.range' 1 22)).map fun k => (k, 0) := hv
    rw [h1]; decide
  · have h1 : vis.map (·.2) = (64 :: 128 :: (List.range' 1 22)).map fun k => (k, 0) := hv
    rw [h1] at h; revert h; decide

/-- **C166**, the limit. Removing each key just after it was delivered shrinks a map that has grown before, and then the iteration
can end early: here 25 pairs are stored, four are delivered and removed, and the iterator returns NULL with 21 pairs left. -/
theorem C166_shrinking_during_iteration_negated :
    ∃ (s s2 : St Nat Nat) (d : Destroyed Nat Nat) (i : Iter) (vis : List (Nat × (Nat × Nat))),
      runPtr demoMalloc natFns demoHeap 0 (inserted (List.range' 32 25)) = some (s, d) ∧ s.load = 25 ∧ iterInit s = some i ∧
      walk demoMalloc natFns (fun _ => true) 30 s i = some (vis, s2) ∧ vis.length = 4 ∧ s2.load = 21 := by
  obtain ⟨s, d, m, e, -⟩ := run_sim demoMalloc_ok demoHeap_finite natFns_lawful 0 (inserted (List.range' 32 25))
  have h1 : (runPtr demoMalloc natFns demoHeap 0 (inserted (List.range' 32 25))).bind (fun r => (iterInit r.1).bind fun i =>
      (walk demoMalloc natFns (fun _ => true) 30 r.1 i).map fun x => (r.1.load, x.1.length, x.2.load)) = some (25, 4, 21) := by decide +kernel
  simp only [e, Option.bind_some, Option.bind_eq_some_iff, Option.map_eq_some_iff, Prod.mk.injEq] at h1
  obtain ⟨i, hi, ⟨vis, s2⟩, hw, h2, h3, h4⟩ := h1
  exact ⟨s, s2, d, i, vis, e, h2, hi, hw, h3, h4⟩

/-- **C167**, a finding. When fewer than ten buckets are used, the remaining lines of `HashMapPrintStats` say that bucket 0 has no
elements, also when it has one. -/
theorem C167_stats_lie_about_bucket_0_negated :
    ∃ (s : St Nat Nat) (d : Destroyed Nat Nat) (top : List (Nat × Nat)),
      runPtr demoMalloc natFns demoHeap 0 (inserted [0]) = some (s, d) ∧ printStats s = some (32, 1, 1, (0, 1) :: (0, 0) :: top) := by
  obtain ⟨s, d, m, e, -⟩ := run_sim demoMalloc_ok demoHeap_finite natFns_lawful 0 (inserted [0])
  have h1 : (runPtr demoMalloc natFns demoHeap 0 (inserted [0])).bind (fun r => printStats r.1) =
      some (32, 1, 1, (0, 1) :: (0, 0) :: List.replicate 8 (0, 0)) := by decide +kernel
  simp only [e, Option.bind_some] at h1
  exact ⟨s, d, _, e, h1⟩

/-- **C167**, a finding. `HashMapClear` does not shrink the map: the bucket array keeps the size it grew to. -/
theorem C167_clear_keeps_the_buckets (s s' : St K V) (d : Destroyed K V) (h : clear s = some (s', d)) :
    s'.size = s.size ∧ s'.buckets = s.buckets ∧ s'.load = 0 := by
  simp only [clear, Option.bind_eq_bind, Option.bind_eq_some_iff] at h
  obtain ⟨x, -, h⟩ := h
  split at h
  · simp only [Option.some.injEq, Prod.mk.injEq] at h
    obtain ⟨rfl, -⟩ := h
    exact ⟨rfl, rfl, rfl⟩
  · cases h

/-- `C167`: 25 pairs need 64 buckets. -/
example : (runPtr demoMalloc natFns demoHeap 0 (inserted (List.range 25))).map (fun r => (r.1.load, r.1.size)) = some (25, 64) ∧
    (runPtr demoMalloc natFns demoHeap 100 (inserted [5])).map (fun r => (r.1.load, r.1.size)) = some (1, 128) := by decide +kernel

end HashPtr
