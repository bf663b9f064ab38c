import Verif.Lemmas.HashPtrDel
/-! # Histories of calls on the hash map in memory, and iteration -/
namespace HashPtr
open CMap (Fns Destroyed HInv hit NoDup Hist)
open CMem HashPtrSpec
open MapSpec (Lawful Op lookup expectedReturn stepImpl)

variable {K V : Type} {h h' h0 : Heap (K × V)} {f : Fns K} {B : Nat} {D : List (List (DItem K V))} {c c' : List (DItem K V)}
  {malloc : (Nat → Bool) → Nat} {s s' : St K V} {m m' : CMap.HashMap (Nat × K) V}

def stripOp : Op (Nat × K) V → Op K V
  | .insert k v => .insert k.2 v
  | .remove k => .remove k.2
  | .clear => .clear

theorem lookup_strip (lh : List (Op (Nat × K) V)) (a : Nat) (k : K) :
    (lookup (lift f).eq lh (a, k)).map bare = lookup f.eq (lh.map stripOp) k := by
  induction lh with
  | nil => rfl
  | cons op lh ih =>
    cases op with
    | insert k' v =>
      simp only [lookup, List.map_cons, stripOp]
      rw [show (lift f).eq k' (a, k) = f.eq k'.2 k from rfl]
      split
      · rfl
      · exact ih
    | remove k' =>
      simp only [lookup, List.map_cons, stripOp]
      rw [show (lift f).eq k' (a, k) = f.eq k'.2 k from rfl]
      split
      · rfl
      · exact ih
    | clear => rfl

theorem keys_strip (lh : List (Op (Nat × K) V)) : (MapSpec.insertedKeys lh).map (·.2) = MapSpec.insertedKeys (lh.map stripOp) := by
  induction lh with
  | nil => rfl
  | cons op lh ih => cases op <;> simp [MapSpec.insertedKeys, stripOp, ih]

theorem vals_strip (lh : List (Op (Nat × K) V)) : MapSpec.insertedVals lh = MapSpec.insertedVals (lh.map stripOp) := by
  induction lh with
  | nil => rfl
  | cons op lh ih => cases op <;> simp [MapSpec.insertedVals, stripOp, ih]

theorem ret_strip (lh : List (Op (Nat × K) V)) (op : Op (Nat × K) V) :
    expectedReturn (lift f).eq lh op = expectedReturn f.eq (lh.map stripOp) (stripOp op) := by
  cases op with
  | insert k v => simp only [expectedReturn, stripOp, ← lookup_strip lh k.1 k.2, Option.isSome_map]
  | remove k => simp only [expectedReturn, stripOp, ← lookup_strip lh k.1 k.2, Option.isSome_map]
  | clear => rfl

/-- The thresholds are those of the size, and the map is not overfull. -/
structure LInv {K V : Type} (n : Nat) (m : CMap.HashMap K V) : Prop where
  maxT : m.maxThreshold = CMap.maxThr m.size
  minT : m.minThreshold = CMap.minThr m.size
  init : m.initSize = startSize n
  big : 32 ≤ m.initSize
  full : m.load ≤ CMap.maxThr m.size ∨ CMap.MAX_BUCKETS ≤ m.size

theorem resize_fields {K V : Type} {f : Fns K} {m m' : CMap.HashMap K V} {n : Nat} (e : CMap.resize f m n = some m') :
    m'.size = n ∧ m'.load = m.load ∧ m'.initSize = m.initSize ∧ m'.maxThreshold = CMap.maxThr n ∧ m'.minThreshold = CMap.minThr n := by
  simp only [CMap.resize, Option.bind_eq_bind, Option.bind_eq_some_iff, Option.some.injEq] at e
  obtain ⟨nb, -, rfl⟩ := e
  exact ⟨rfl, rfl, rfl, rfl, rfl⟩

theorem insert_linv {K V : Type} {f : Fns K} {m m' : CMap.HashMap K V} {n : Nat} {k : K} {v : V} {r : Bool} {d : Destroyed K V}
    (L : LInv n m) (hle : m.initSize ≤ m.size) (e : CMap.hashInsert f m k v = some (m', r, d)) :
    LInv n m' ∧ (m.load + 1 ≤ m.maxThreshold → m'.size = m.size ∧ m'.load ≤ m.load + 1) := by
  obtain ⟨h1, h2, h3, h4, h5⟩ := L
  simp only [CMap.hashInsert, Option.bind_eq_bind, Option.bind_eq_some_iff] at e
  obtain ⟨b, -, chain, -, e⟩ := e
  split at e
  · simp only [Option.bind_eq_some_iff, Option.some.injEq, Prod.mk.injEq] at e
    obtain ⟨bs, -, rfl, -⟩ := e
    exact ⟨⟨h1, h2, h3, h4, h5⟩, fun _ => ⟨rfl, Nat.le_succ _⟩⟩
  · simp only [Option.bind_eq_some_iff] at e
    obtain ⟨bs, -, e⟩ := e
    split at e
    · rename_i hg
      simp only [Option.bind_eq_some_iff, Option.some.injEq, Prod.mk.injEq] at e
      obtain ⟨m2, e2, rfl, -⟩ := e
      obtain ⟨r1, r2, r3, r4, r5⟩ := resize_fields e2
      simp only at r1 r2 r3 r4 r5
      refine ⟨⟨by rw [r4, r1], by rw [r5, r1], by rw [r3, h3], by rw [r3]; exact h4, ?_⟩, fun hle' => by omega⟩
      rw [r1, r2]
      rcases h5 with h5 | h5
      · left; simp only [CMap.maxThr] at *; omega
      · right; omega
    · rename_i hg
      simp only [Option.some.injEq, Prod.mk.injEq] at e
      obtain ⟨rfl, -⟩ := e
      refine ⟨⟨h1, h2, h3, h4, ?_⟩, fun _ => ⟨rfl, Nat.le_refl _⟩⟩
      simp only at hg ⊢
      rw [← h1]
      omega

theorem remove_linv {K V : Type} {f : Fns K} {m m' : CMap.HashMap K V} {n : Nat} {k : K} {r : Bool} {d : Destroyed K V}
    (L : LInv n m) (e : CMap.hashRemove f m k = some (m', r, d)) :
    LInv n m' ∧ (m.size = m.initSize → m'.size = m.size ∧ m'.load ≤ m.load) := by
  obtain ⟨h1, h2, h3, h4, h5⟩ := L
  simp only [CMap.hashRemove, Option.bind_eq_bind, Option.bind_eq_some_iff] at e
  obtain ⟨b, -, chain, -, e⟩ := e
  split at e
  · simp only [Option.bind_eq_some_iff] at e
    obtain ⟨bs, -, e⟩ := e
    split at e
    · cases e
    split at e
    · rename_i hg
      simp only [Option.bind_eq_some_iff, Option.some.injEq, Prod.mk.injEq] at e
      obtain ⟨m2, e2, rfl, -⟩ := e
      obtain ⟨r1, r2, r3, r4, r5⟩ := resize_fields e2
      simp only at r1 r2 r3 r4 r5 hg
      refine ⟨⟨by rw [r4, r1], by rw [r5, r1], by rw [r3, h3], by rw [r3]; exact h4, ?_⟩, fun hle' => by omega⟩
      rw [r1, r2]
      left; simp only [CMap.maxThr, CMap.minThr] at *; omega
    · simp only [Option.some.injEq, Prod.mk.injEq] at e
      obtain ⟨rfl, -⟩ := e
      refine ⟨⟨h1, h2, h3, h4, ?_⟩, fun _ => ⟨rfl, Nat.sub_le _ _⟩⟩
      simp only at h5 ⊢
      omega
  · simp only [Option.some.injEq, Prod.mk.injEq] at e
    obtain ⟨rfl, -⟩ := e
    exact ⟨⟨h1, h2, h3, h4, h5⟩, fun _ => ⟨rfl, Nat.le_refl _⟩⟩

theorem clear_linv {K V : Type} {m m' : CMap.HashMap K V} {n : Nat} {d : Destroyed K V}
    (L : LInv n m) (e : CMap.hashClear m = some (m', d)) : LInv n m' ∧ m'.size = m.size ∧ m'.load ≤ m.load := by
  obtain ⟨h1, h2, h3, h4, h5⟩ := L
  simp only [CMap.hashClear, Option.bind_eq_bind, Option.bind_eq_some_iff] at e
  obtain ⟨x, -, e⟩ := e
  split at e
  · simp only [Option.some.injEq, Prod.mk.injEq] at e
    obtain ⟨rfl, -⟩ := e
    exact ⟨⟨h1, h2, h3, h4, Or.inl (Nat.zero_le _)⟩, rfl, Nat.zero_le _⟩
  · cases e

/-- How many inserts a history has. -/
def inserts (h : List (Op K V)) : Nat := (MapSpec.insertedKeys h).length

/-- The map in memory after a history. -/
structure Sim (f : Fns K) (n : Nat) (h0 : Heap (K × V)) (hist : List (Op K V)) (s : St K V) (d : Destroyed K V) (m : CMap.HashMap (Nat × K) V) : Prop where
  mem : Mem h0 s m
  inv : HInv (lift f) m
  linv : LInv n m
  few : inserts hist ≤ CMap.maxThr (startSize n) → m.size = m.initSize ∧ m.load ≤ inserts hist
  hist : ∃ lh dl, lh.map stripOp = hist ∧ Hist (lift f) lh (.hash m) dl m.buckets.flatten ∧ d = dstrip dl

theorem Sim.look {n : Nat} {hist : List (Op K V)} {d : Destroyed K V} (S : Sim f n h0 hist s d m) (k : K) :
    (m.buckets.flatten.find? (hit (lift f) (0, k))).map bare = lookup f.eq hist k := by
  obtain ⟨lh, dl, rfl, H, -⟩ := S.hist
  rw [H.look, lookup_strip]

/-- The item at address `a` holds a key equal to `k`. -/
def At (f : Fns K) (m : CMap.HashMap (Nat × K) V) (a : Nat) (k : K) : Prop :=
  ∃ p ∈ m.buckets.flatten, adr p = a ∧ f.eq p.1.2 k = true

theorem dstrip_append (a b : Destroyed (Nat × K) V) : dstrip (a.append b) = (dstrip a).append (dstrip b) := by
  simp [dstrip, Destroyed.append]

theorem dstrip_old (o : Option (DItem K V)) : dstrip (CMap.oldOf o) = CMap.oldOf (o.map bare) := by
  cases o <;> rfl

theorem step_sim (hm : Allocator malloc) (hfin : Finite h0) (hf : Lawful f) {n : Nat} {hist : List (Op K V)} {d : Destroyed K V}
    (S : Sim f n h0 hist s d m) (op : Op K V) :
    ∃ s' m' d', stepPtr malloc f s op = some (s', expectedReturn f.eq hist op, d') ∧ Sim f n h0 (op :: hist) s' (d.append d') m' ∧
      ExpectedDestroyed f.eq hist (m.buckets.flatten.map bare) d' op ∧
      ∀ a k, Keeps f.eq k op → At f m a k → At f m' a k := by
  have look := S.look
  obtain ⟨M, H, L, F, lh, dl, rfl, HH, rfl⟩ := S
  have hf' := lift_lawful hf
  cases op with
  | insert k v =>
    obtain ⟨m', e, H', hp⟩ := CMap.hashInsert_spec hf' H (spot malloc f s m k, k) v
    obtain ⟨s', es, M'⟩ := insert_sim hm hfin hf M H k v e
    obtain ⟨m1, d1, l1, e1, HH', hd1⟩ := CMap.step_spec hf' HH (.insert (spot malloc f s m k, k) v)
    have hx := ret_strip (f := f) lh (.insert (spot malloc f s m k, k) v)
    simp only [stepImpl, CMap.mapInsert, e, Option.bind_eq_bind, Option.bind_some, Option.some.injEq, Prod.mk.injEq] at e1
    obtain ⟨rfl, r1, r2⟩ := e1
    have hl1 : l1 = m'.buckets.flatten := HH'.inv.2
    subst hl1
    obtain ⟨L', F'⟩ := insert_linv L H.le e
    refine ⟨s', m', dstrip d1, ?_, ⟨M', H', L', ?_, _, _, rfl, HH', by rw [dstrip_append]⟩, ?_, ?_⟩
    rotate_left
    · intro hi
      simp only [inserts, MapSpec.insertedKeys, List.length_cons] at hi F ⊢
      obtain ⟨g1, g2⟩ := F (by omega)
      obtain ⟨g3, g4⟩ := F' (by rw [L.maxT, g1, L.init]; omega)
      refine ⟨by rw [g3, g1, L.init, L'.init], by omega⟩
    rotate_right
    · rw [show stepPtr malloc f s (.insert k v) = insert malloc f s k v from rfl, es, r1, hx, r2]; rfl
    · rw [← r2]
      simp only [ExpectedDestroyed, hit_zero, dstrip_old, look]
      exact ⟨rfl, rfl⟩
    · rintro a k' - ⟨p, hpm, rfl, hpk⟩
      cases hh : hit (lift f) (0, k) p with
      | false =>
        exact ⟨p, hp.mem_iff.mpr (List.mem_cons_of_mem _ (List.mem_filter.mpr ⟨hpm, by rw [hit_zero, hh]; rfl⟩)), rfl, hpk⟩
      | true =>
        have hfo := (CMap.find_iff hf' H.nodup (0, k) p).mpr ⟨hpm, hh⟩
        have hs : spot malloc f s m k = adr p := by simp [spot, hfo]
        refine ⟨((adr p, k), v), hp.mem_iff.mpr (by rw [hs]; exact List.mem_cons_self), rfl, ?_⟩
        exact hf.trans _ _ _ (hf.symm _ _ hh) hpk
  | remove k =>
    obtain ⟨m', e, H', hp⟩ := CMap.hashRemove_spec hf' H (0, k)
    obtain ⟨s', es, M'⟩ := remove_sim hm hfin hf M H k e
    obtain ⟨m1, d1, l1, e1, HH', hd1⟩ := CMap.step_spec hf' HH (.remove (0, k))
    have hx := ret_strip (f := f) lh (.remove (0, k))
    simp only [stepImpl, CMap.mapRemove, e, Option.bind_eq_bind, Option.bind_some, Option.some.injEq, Prod.mk.injEq] at e1
    obtain ⟨rfl, r1, r2⟩ := e1
    have hl1 : l1 = m'.buckets.flatten := HH'.inv.2
    subst hl1
    obtain ⟨L', F'⟩ := remove_linv L e
    refine ⟨s', m', dstrip d1, ?_, ⟨M', H', L', ?_, _, _, rfl, HH', by rw [dstrip_append]⟩, ?_, ?_⟩
    rotate_left
    · intro hi
      simp only [inserts, MapSpec.insertedKeys] at hi F ⊢
      obtain ⟨g1, g2⟩ := F hi
      obtain ⟨g3, g4⟩ := F' g1
      refine ⟨by rw [g3, g1, L.init, L'.init], by omega⟩
    rotate_right
    · rw [show stepPtr malloc f s (.remove k) = remove malloc f s k from rfl, es, r1, hx, r2]; rfl
    · rw [← r2]
      simp only [ExpectedDestroyed, dstrip_old, look]
      exact ⟨rfl, rfl⟩
    · rintro a k' hk ⟨p, hpm, rfl, hpk⟩
      cases hh : hit (lift f) (0, k) p with
      | false => exact ⟨p, hp.mem_iff.mpr (List.mem_filter.mpr ⟨hpm, by rw [hh]; rfl⟩), rfl, hpk⟩
      | true =>
        have := hf.trans _ _ _ (hf.symm _ _ hh) hpk
        simp only [Keeps] at hk
        rw [hk] at this; cases this
  | clear =>
    obtain ⟨m', dl', hperm, e, H', hemp⟩ := CMap.hashClear_spec H
    obtain ⟨s', es, M'⟩ := clear_sim M H e
    obtain ⟨m1, d1, l1, e1, HH', hd1⟩ := CMap.step_spec hf' HH .clear
    simp only [stepImpl, CMap.mapClear, e, Option.bind_eq_bind, Option.bind_some, Option.map_some, Option.some.injEq, Prod.mk.injEq] at e1
    obtain ⟨rfl, r1, r2⟩ := e1
    have hl1 : l1 = m'.buckets.flatten := HH'.inv.2
    subst hl1
    obtain ⟨L', g3, g4⟩ := clear_linv L e
    refine ⟨s', m', dstrip d1, ?_, ⟨M', H', L', ?_, _, _, rfl, HH', by rw [dstrip_append]⟩, ?_, ?_⟩
    rotate_left
    · intro hi
      simp only [inserts, MapSpec.insertedKeys] at hi F ⊢
      obtain ⟨g1, g2⟩ := F hi
      refine ⟨by rw [g3, g1, L.init, L'.init], by omega⟩
    rotate_right
    · rw [show stepPtr malloc f s .clear = (clear s).map fun r => (r.1, false, r.2) from rfl, es, r2]; rfl
    · rw [← r2]
      exact ⟨dl'.map bare, hperm.map bare, by simp [dstrip, bare], by simp [dstrip, bare]⟩
    · intro a k hk; exact hk.elim

theorem startSize_ge (n : Nat) : 32 ≤ startSize n := by
  unfold startSize
  have h1 : 2 ^ 5 ≤ min (max n CMap.MIN_BUCKETS) CMap.MAX_BUCKETS := by simp only [CMap.MIN_BUCKETS, CMap.MAX_BUCKETS]; omega
  have h2 : min (max n CMap.MIN_BUCKETS) CMap.MAX_BUCKETS ≤ 2 ^ 30 := by simp only [CMap.MIN_BUCKETS, CMap.MAX_BUCKETS]; omega
  generalize min (max n CMap.MIN_BUCKETS) CMap.MAX_BUCKETS = k at *
  simp only
  split
  · exact h1
  · have hk : (BitVec.ofNat 64 k).toNat = k := by rw [BitVec.toNat_ofNat, Nat.mod_eq_of_lt (by omega)]
    obtain ⟨i, hi, hle, -⟩ := C36_upperPowerOfTwo_partial (BitVec.ofNat 64 k) (by rw [hk]; omega) (by rw [hk]; omega)
    rw [hi]; omega

theorem run_sim (hm : Allocator malloc) (hfin : Finite h0) (hf : Lawful f) (n : Nat) (hist : List (Op K V)) :
    ∃ s d m, runPtr malloc f h0 n hist = some (s, d) ∧ Sim f n h0 hist s d m := by
  induction hist with
  | nil =>
    obtain ⟨M, H⟩ := new_sim (f := f) (K := K) (V := V) hm hfin n
    refine ⟨_, _, _, rfl, M, H, ⟨rfl, rfl, rfl, startSize_ge n, Or.inl (Nat.zero_le _)⟩, fun _ => ⟨rfl, Nat.zero_le _⟩, [], {}, rfl, ⟨⟨H, rfl⟩, fun k => ?_, ?_, ?_⟩, rfl⟩
    all_goals simp [CMap.hashNew, lookup, MapSpec.insertedKeys, MapSpec.insertedVals]
  | cons op hist ih =>
    obtain ⟨s, d, m, e, S⟩ := ih
    obtain ⟨s', m', d', e', S', -⟩ := step_sim hm hfin hf S op
    exact ⟨s', _, m', by simp only [runPtr, e, e', Option.bind_eq_bind, Option.bind_some], S'⟩

end HashPtr
