import Verif.Lemmas.HashPtr
import Verif.Spec.HashPtr
/-! # The calls on the hash map in memory simulate the calls on the hash map of lists -/
namespace HashPtr
open CMap (Fns Destroyed getBucket maxThr minThr MAX_BUCKETS HInv Placed hit NoDup flatten_set flatten_split getBucket_spec pow_pos')
open CMem HashPtrSpec
open MapSpec (Lawful)

variable {K V : Type} {h h' h0 : Heap (K × V)} {f : Fns K} {B : Nat} {D : List (List (DItem K V))} {c c' : List (DItem K V)}
  {malloc : (Nat → Bool) → Nat} {s s' : St K V} {m m' : CMap.HashMap (Nat × K) V}

theorem lift_lawful (hf : Lawful f) : Lawful (lift f) :=
  ⟨fun a => hf.refl a.2, fun a b => hf.symm a.2 b.2, fun a b c => hf.trans a.2 b.2 c.2, fun a b => hf.hash a.2 b.2⟩

/-- The map in memory `s` represents `m`, whose items carry their addresses; `h0` is the memory before the map was made. -/
structure Mem (h0 : Heap (K × V)) (s : St K V) (m : CMap.HashMap (Nat × K) V) : Prop where
  rep : Rep s.h s.buckets m.buckets
  size : s.size = m.size
  initSize : s.initSize = m.initSize
  load : s.load = m.load
  maxT : s.maxT = m.maxThreshold
  minT : s.minT = m.minThreshold
  out : ∀ x, x ∉ s.buckets :: addrs m.buckets → s.h x = h0 x
  fresh : ∀ x ∈ s.buckets :: addrs m.buckets, h0 x = none

theorem le_sum {l : List Nat} {a : Nat} (ha : a ∈ l) : a ≤ l.sum := by
  induction l with
  | nil => cases ha
  | cons b l ih =>
    rw [List.sum_cons]
    rcases List.mem_cons.mp ha with rfl | ha
    · omega
    · have := ih ha; omega

theorem Mem.finite (M : Mem h0 s m) (hf : Finite h0) : Finite s.h := by
  obtain ⟨N, hN⟩ := hf
  refine ⟨N + (s.buckets :: addrs m.buckets).sum + 1, fun a ha => ?_⟩
  rw [M.out a ?_, hN a (by omega)]
  intro hx
  have := le_sum hx
  omega

theorem alloc_spec (hm : Allocator malloc) (hf : Finite h) : h (malloc (alive h)) = none ∧ malloc (alive h) ≠ 0 := by
  obtain ⟨N, hN⟩ := hf
  obtain ⟨h1, h2⟩ := hm (alive h) ⟨N, fun a ha => by simp [alive, hN a ha]⟩
  exact ⟨by simpa [alive] using h1, h2⟩

theorem resize_sim (hm : Allocator malloc) (hf : Finite h0) (M : Mem h0 s m) {n : Nat} (hn : ∃ i, n = 2 ^ i)
    (hlen : m.buckets.length = m.size) (hload : m.load = m.buckets.flatten.length) (e : CMap.resize (lift f) m n = some m') :
    ∃ s', resize malloc f s n = some s' ∧ Mem h0 s' m' := by
  obtain ⟨hfr, hnz⟩ := alloc_spec hm (M.finite hf)
  simp only [CMap.resize, Option.bind_eq_bind, Option.bind_eq_some_iff] at e
  obtain ⟨D', e1, e2⟩ := e
  simp only [Option.some.injEq] at e2
  subst e2
  let nb := malloc (alive s.h)
  have hnbB : nb ≠ s.buckets := fun e => by
    obtain ⟨x, hx⟩ := M.rep.alive (a := s.buckets) (by simp)
    rw [← e] at hx; simp only [nb] at hx; rw [hfr] at hx; cases hx
  have hnbA : nb ∉ addrs m.buckets := fun e => by
    obtain ⟨x, hx⟩ := M.rep.alive (List.mem_cons_of_mem _ e)
    simp only [nb] at hx; rw [hfr] at hx; cases hx
  let g : Heap (K × V) := upd s.h nb (some (.arr (List.replicate n 0)))
  have hg : ∀ x, x ≠ nb → g x = s.h x := fun x hx => upd_ne _ hx
  have R0 : Rep g nb (List.replicate n ([] : List (DItem K V))) := by
    refine ⟨?_, ?_, ?_, ?_⟩
    · simp [g, upd_same, hd]
    · intro c hc; rw [List.eq_of_mem_replicate hc]; trivial
    · simp [addrs]
    · simp [addrs]
  have nd := List.nodup_cons.mp M.rep.nd
  have hfresh0 : h0 nb = none := by
    rw [← M.out nb]
    · exact hfr
    · simp only [List.mem_cons, not_or]; exact ⟨hnbB, hnbA⟩
  obtain ⟨g', e', R', ⟨y, hy⟩, out⟩ := moveAll_sim (f := f) (B := s.buckets) (NB := nb) (load := s.load) hn m.buckets g
    (List.replicate n []) D' 0 R0 (by simp) (CMap.placed_empty _ _ _)
    (by rw [hg _ hnbB.symm]; simpa using M.rep.arr)
    (fun c hc => (M.rep.ok c hc).mono fun a ha => hg a fun e => hnbA (by
      obtain ⟨p, hp, rfl⟩ := List.mem_map.mp ha
      exact e ▸ mem_addrs.mpr ⟨c, hc, p, hp, rfl⟩))
    (by
      rw [List.nodup_cons, List.nodup_cons]
      simp only [addrs, List.flatten_replicate_nil, List.map_nil, List.nil_append]
      exact ⟨by simp only [List.mem_cons, not_or]; exact ⟨hnbB.symm, nd.1⟩, hnbA, nd.2⟩)
    M.rep.nz
    (fun c hc => by
      rw [M.load, hload]
      exact (List.sublist_flatten_of_mem hc).length_le)
    e1
  obtain ⟨nb2, q1, q2, q3, q4⟩ := CMap.moveAll_spec (f := lift f) hn m.buckets (List.replicate n []) (by simp) (CMap.placed_empty _ _ _)
  rw [e1] at q1
  cases q1
  have perm : (addrs D').Perm (addrs m.buckets) := by
    have := q4.map adr; simpa [addrs] using this
  have hBD : s.buckets ∉ addrs D' := fun hx => nd.1 (perm.mem_iff.mp hx)
  refine ⟨{ s with h := upd g' s.buckets none, buckets := nb, size := n, maxT := maxThr n, minT := minThr n }, ?_, ?_⟩
  · simp only [resize, Option.bind_eq_bind]
    rw [M.size, ← hlen, show malloc (alive s.h) = nb from rfl, e', Option.bind_some]
    simp [free, hy]
  · refine ⟨?_, rfl, M.initSize, M.load, rfl, rfl, ?_, ?_⟩
    · refine ⟨by show upd g' s.buckets none nb = _; rw [upd_ne _ hnbB]; exact R'.arr, fun c hc => (R'.ok c hc).mono fun a ha => ?_, R'.nd, R'.nz⟩
      refine upd_ne _ fun e => hBD (e ▸ ?_)
      obtain ⟨p, hp, rfl⟩ := List.mem_map.mp ha
      exact mem_addrs.mpr ⟨c, hc, p, hp, rfl⟩
    · intro x hx
      simp only [List.mem_cons, not_or] at hx
      show upd g' s.buckets none x = _
      by_cases hxB : x = s.buckets
      · subst hxB; rw [upd_same, M.fresh _ (by simp)]
      · have hxm : x ∉ addrs m.buckets := fun h => hx.2 (perm.mem_iff.mpr h)
        rw [upd_ne _ hxB, out x hxB hx.1 hxm, hg x hx.1, M.out x (by simp only [List.mem_cons, not_or]; exact ⟨hxB, hxm⟩)]
    · intro x hx
      rcases List.mem_cons.mp hx with rfl | hx
      · exact hfresh0
      · exact M.fresh x (List.mem_cons_of_mem _ (perm.mem_iff.mp hx))

/-! ## Get -/

theorem chain_facts (H : HInv (lift f) m) (k : K) (hf : Lawful f) :
    ∃ hb : f.hash k % m.size < m.buckets.length,
      m.buckets.flatten.find? (hit (lift f) (0, k)) = m.buckets[f.hash k % m.size].find? (hit (lift f) (0, k)) ∧
      m.buckets[f.hash k % m.size].length ≤ m.load ∧ NoDup (lift f) m.buckets[f.hash k % m.size] := by
  have hb : f.hash k % m.size < m.buckets.length := by rw [H.len]; exact Nat.mod_lt _ (pow_pos' H.pow)
  obtain ⟨o1, o2⟩ := CMap.hit_other (lift_lawful hf) H.placed (0, k) hb
  refine ⟨hb, ?_, ?_, CMap.chain_nodup H _ hb⟩
  · have := CMap.find_split (c := m.buckets[f.hash k % m.size]) o1 o2
    rwa [show (lift f).hash (0, k) = f.hash k from rfl, ← flatten_split] at this
  · rw [H.load]
    exact (List.sublist_flatten_of_mem (List.getElem_mem hb)).length_le

theorem bucket_mem {b : Nat} (hb : b < D.length) : ∀ a ∈ D[b].map adr, a ∈ addrs D := by
  intro a ha; obtain ⟨p, hp, rfl⟩ := List.mem_map.mp ha; exact mem_addrs.mpr ⟨_, List.getElem_mem hb, p, hp, rfl⟩

theorem bucket_nodup {b : Nat} (R : Rep h B D) (hb : b < D.length) : (D[b].map adr).Nodup := by
  have := (List.nodup_cons.mp R.nd).2
  rw [addrs_split hb, List.nodup_append, List.nodup_append] at this
  exact this.2.1.1

theorem get_sim (hf : Lawful f) (M : Mem h0 s m) (H : HInv (lift f) m) (k : K) :
    get f s k = some (((m.buckets.flatten.find? (hit (lift f) (0, k))).map adr).getD 0) := by
  obtain ⟨hb, hfind, hle, -⟩ := chain_facts H k hf
  simp only [get, M.size, getBucket_spec f H.pow, Option.bind_eq_bind, Option.bind_some]
  rw [M.rep.slot hb, Option.bind_some, hfind]
  refine findLoop_sim k _ _ (M.rep.ok _ (List.getElem_mem hb)) (fun a ha => M.rep.nz a (bucket_mem hb a ha)) ?_
  rw [M.load]; omega

/-! ## Insert -/

theorem chainReplace_split {K V : Type} {f : Fns K} {k : K} {v : V} : ∀ {c : List (K × V)} {old : K × V} {c' : List (K × V)},
    CMap.chainReplace f k v c = some (old, c') →
    ∃ pre post, c = pre ++ old :: post ∧ c' = pre ++ (k, v) :: post ∧ c.find? (hit f k) = some old := by
  intro c
  induction c with
  | nil => intro old c' e; simp [CMap.chainReplace] at e
  | cons p c ih =>
    intro old c' e
    simp only [CMap.chainReplace] at e
    by_cases h : f.eq p.1 k = true
    · simp only [h, if_true, Option.some.injEq, Prod.mk.injEq] at e
      obtain ⟨rfl, rfl⟩ := e
      exact ⟨[], c, rfl, rfl, by simp [hit, h]⟩
    · rw [if_neg h] at e
      cases e1 : CMap.chainReplace f k v c with
      | none => simp [e1] at e
      | some r =>
        obtain ⟨o, c1⟩ := r
        simp only [e1, Option.some.injEq, Prod.mk.injEq] at e
        obtain ⟨rfl, rfl⟩ := e
        obtain ⟨pre, post, rfl, rfl, h3⟩ := ih e1
        exact ⟨p :: pre, post, rfl, rfl, by rw [List.find?_cons_of_neg (by simpa [hit] using h)]; exact h3⟩

theorem chainReplace_none {K V : Type} {f : Fns K} {k : K} {v : V} : ∀ {c : List (K × V)},
    CMap.chainReplace f k v c = none → c.find? (hit f k) = none := by
  intro c
  induction c with
  | nil => intro _; rfl
  | cons p c ih =>
    intro e
    simp only [CMap.chainReplace] at e
    by_cases h : f.eq p.1 k = true
    · simp [h] at e
    · rw [if_neg h] at e
      cases e1 : CMap.chainReplace f k v c with
      | none => simp [List.find?_cons, hit, h]; simpa [hit] using ih e1
      | some r => simp [e1] at e

/-- The address the item of `k` has after an insert of `k`. -/
def spot (malloc : (Nat → Bool) → Nat) (f : Fns K) (s : St K V) (m : CMap.HashMap (Nat × K) V) (k : K) : Nat :=
  match m.buckets.flatten.find? (hit (lift f) (0, k)) with
  | some p => adr p
  | none => malloc (alive s.h)

/-- Forgetting addresses. -/
def dstrip (d : Destroyed (Nat × K) V) : Destroyed K V := ⟨d.keys.map (·.2), d.vals⟩

theorem upd_replace {pre post : List (DItem K V)} {old new : DItem K V} (hs : Seg h (pre ++ old :: post) 0)
    (hn : ((pre ++ old :: post).map adr).Nodup) (ha : adr new = adr old) :
    Seg (upd h (adr old) (some (.item (hd post 0) (some (bare new))))) (pre ++ new :: post) 0 := by
  rw [seg_append] at hs ⊢
  simp only [List.map_append, List.map_cons, List.nodup_append, List.nodup_cons] at hn
  refine ⟨?_, ?_, ?_⟩
  · rw [show hd (new :: post) 0 = hd (old :: post) 0 from ha]
    exact hs.1.mono fun a hx => upd_ne _ fun e => hn.2.2 a hx (adr old) (by simp) e
  · rw [ha, upd_same]
  · exact hs.2.2.mono fun a hx => upd_ne _ fun e => hn.2.1.1 (e ▸ hx)

theorem hit_zero (a : Nat) (k : K) : hit (V := V) (lift f) (a, k) = hit (lift f) (0, k) := rfl

theorem insert_sim (hm : Allocator malloc) (hfin : Finite h0) (hf : Lawful f) (M : Mem h0 s m) (H : HInv (lift f) m) (k : K) (v : V)
    {r : Bool} {d : Destroyed (Nat × K) V} (e : CMap.hashInsert (lift f) m (spot malloc f s m k, k) v = some (m', r, d)) :
    ∃ s', insert malloc f s k v = some (s', r, dstrip d) ∧ Mem h0 s' m' := by
  obtain ⟨hb, hfind, hle, hndup⟩ := chain_facts H k hf
  have hget := get_sim hf M H k
  simp only [get, M.size, getBucket_spec f H.pow, Option.bind_eq_bind, Option.bind_some] at hget
  rw [M.rep.slot hb, Option.bind_some] at hget
  simp only [CMap.hashInsert, getBucket_spec (lift f) H.pow, Option.bind_eq_bind, Option.bind_some] at e
  rw [show (lift f).hash (spot malloc f s m k, k) = f.hash k from rfl, read_eq hb, Option.bind_some] at e
  simp only [insert, M.size, getBucket_spec f H.pow, Option.bind_eq_bind, Option.bind_some]
  rw [M.rep.slot hb, Option.bind_some, hget, Option.bind_some]
  have nd := List.nodup_cons.mp M.rep.nd
  cases e1 : CMap.chainReplace (lift f) (spot malloc f s m k, k) v m.buckets[f.hash k % m.size] with
  | some r1 =>
    obtain ⟨old, c'⟩ := r1
    obtain ⟨pre, post, hc, hc', hfo⟩ := chainReplace_split e1
    rw [hit_zero] at hfo
    rw [hfo] at hfind
    have hspot : spot malloc f s m k = adr old := by simp [spot, hfind]
    rw [hspot] at hc'
    have hold : adr old ∈ addrs m.buckets := bucket_mem hb _ (by rw [hc]; simp)
    have hnz := M.rep.nz _ hold
    have hBo : s.buckets ≠ adr old := fun e => nd.1 (e ▸ hold)
    simp only [e1, write_eq hb, Option.bind_some, Option.some.injEq, Prod.mk.injEq] at e
    obtain ⟨rfl, rfl, rfl⟩ := e
    simp only [hfind, Option.map_some, Option.getD_some, if_pos hnz]
    have hseg := M.rep.ok _ (List.getElem_mem hb)
    rw [hc] at hseg
    have hcell := ((seg_append _ _ _).mp hseg).2.1
    have hbn := bucket_nodup M.rep hb
    rw [hc] at hbn
    have hseg' := upd_replace (new := ((adr old, k), v)) hseg hbn rfl
    have hmap : c'.map adr = m.buckets[f.hash k % m.size].map adr := by rw [hc, hc']; simp [adr]
    have hR : Rep (upd s.h (adr old) (some (.item (hd post 0) (some (k, v))))) s.buckets (m.buckets.set (f.hash k % m.size) c') := by
      refine M.rep.set hb ?_ ?_ ?_ ?_ ?_ ?_
      · rw [upd_ne _ hBo, M.rep.arr]
        congr 2
        symm
        rw [show hd c' 0 = (m.buckets.map fun c => hd c 0)[f.hash k % m.size]'(by simpa using hb) from ?_]
        · exact List.set_getElem_self _
        · rw [List.getElem_map, hc, hc', hd_append, hd_append]; rfl
      · rw [hc']; exact hseg'
      · intro x h1 h2 h3
        exact upd_ne _ fun e => h2 (by rw [e, hc]; simp)
      · rw [hmap, hc]; exact hbn
      · intro a ha; rw [hmap] at ha; exact Or.inl ha
      · intro a ha; rw [hmap] at ha; exact M.rep.nz a (bucket_mem hb a ha)
    have haddr : addrs (m.buckets.set (f.hash k % m.size) c') = addrs m.buckets := by
      rw [addrs_set hb, addrs_split hb, hmap]
    refine ⟨_, by simp [getPay, setPay, hcell]; exact ⟨rfl, by simp [dstrip, bare]⟩, ?_⟩
    refine ⟨hR, rfl, M.initSize, M.load, M.maxT, M.minT, ?_, ?_⟩
    · intro x hx
      show upd s.h (adr old) _ x = h0 x
      rw [haddr] at hx
      rw [upd_ne _ (fun e => hx (List.mem_cons_of_mem _ (by rw [e]; exact hold))), M.out x hx]
    · intro x hx; rw [haddr] at hx; exact M.fresh x hx
  | none =>
    have hn := chainReplace_none e1
    rw [hit_zero] at hn
    rw [hn] at hfind
    have hspot : spot malloc f s m k = malloc (alive s.h) := by simp [spot, hfind]
    rw [hspot] at e
    obtain ⟨hfr, hnz⟩ := alloc_spec hm (M.finite hfin)
    generalize malloc (alive s.h) = a at *
    have haB : a ≠ s.buckets := fun e => by
      obtain ⟨x, hx⟩ := M.rep.alive (a := s.buckets) (by simp)
      rw [← e, hfr] at hx; cases hx
    have haA : a ∉ addrs m.buckets := fun e => by
      obtain ⟨x, hx⟩ := M.rep.alive (List.mem_cons_of_mem _ e)
      rw [hfr] at hx; cases hx
    have h0a : h0 a = none := by
      rw [← M.out a (by simp only [List.mem_cons, not_or]; exact ⟨haB, haA⟩)]; exact hfr
    rw [hspot] at e1
    simp only [e1, write_eq hb, Option.bind_some] at e
    simp only [hfind, Option.map_none, Option.getD_none, ne_eq, not_true, if_false, Option.bind_some, setPay, upd_same, setNext]
    let g : Heap (K × V) := upd (upd (upd (upd s.h a (some (.item 0 none))) a (some (.item 0 (some (k, v))))) a
      (some (.item (hd m.buckets[f.hash k % m.size] 0) (some (k, v))))) s.buckets
      (some (.arr ((m.buckets.map fun c => hd c 0).set (f.hash k % m.size) a)))
    have hg : ∀ x, x ≠ s.buckets → x ≠ a → g x = s.h x := fun x h1 h2 => by
      simp only [g]; rw [upd_ne _ h1, upd_ne _ h2, upd_ne _ h2, upd_ne _ h2]
    have hga : g a = some (.item (hd m.buckets[f.hash k % m.size] 0) (some (k, v))) := by
      simp only [g]; rw [upd_ne _ haB, upd_same]
    have hgB : g s.buckets = some (.arr ((m.buckets.map fun c => hd c 0).set (f.hash k % m.size) a)) := by simp only [g, upd_same]
    let m1 : CMap.HashMap (Nat × K) V := { m with
      buckets := m.buckets.set (f.hash k % m.size) (((a, k), v) :: m.buckets[f.hash k % m.size]), load := m.load + 1 }
    let s1 : St K V := { s with h := g, load := s.load + 1, size := m.size }
    have haddr : (addrs m1.buckets).Perm (a :: addrs m.buckets) := by
      show (addrs (m.buckets.set _ _)).Perm _
      rw [addrs_set hb, addrs_split hb]
      exact List.perm_middle
    have M1 : Mem h0 s1 m1 := by
      refine ⟨?_, rfl, M.initSize, by show s.load + 1 = _; rw [M.load], M.maxT, M.minT, ?_, ?_⟩
      · refine M.rep.set hb hgB ?_ ?_ ?_ ?_ ?_
        · refine ⟨hga, (M.rep.ok _ (List.getElem_mem hb)).mono fun x hx => ?_⟩
          exact hg x (fun e => nd.1 (e ▸ bucket_mem hb x hx)) (fun e => haA (e ▸ bucket_mem hb x hx))
        · intro x h1 h2 h3; exact hg x h1 (fun e => haA (e ▸ h3))
        · rw [List.map_cons, List.nodup_cons]
          exact ⟨fun hx => haA (bucket_mem hb _ hx), bucket_nodup M.rep hb⟩
        · intro x hx
          rcases List.mem_cons.mp hx with rfl | hx
          · exact Or.inr ⟨haB, haA⟩
          · exact Or.inl hx
        · intro x hx
          rcases List.mem_cons.mp hx with rfl | hx
          · exact hnz
          · exact M.rep.nz x (bucket_mem hb x hx)
      · intro x hx
        simp only [List.mem_cons, haddr.mem_iff, not_or] at hx
        show g x = _
        rw [hg x hx.1 hx.2.1, M.out x (by simp only [List.mem_cons, not_or]; exact ⟨hx.1, hx.2.2⟩)]
      · intro x hx
        simp only [List.mem_cons, haddr.mem_iff] at hx
        rcases hx with hx | rfl | hx
        · exact M.fresh _ (by rw [hx]; exact List.mem_cons_self)
        · exact h0a
        · exact M.fresh _ (List.mem_cons_of_mem _ hx)
    have hsl : getSlot (upd (upd s.h a (some (.item 0 none))) a (some (.item 0 (some (k, v))))) s.buckets (f.hash k % m.size) =
        some (hd m.buckets[f.hash k % m.size] 0) := by
      rw [← M.rep.slot hb]
      simp only [getSlot]
      rw [upd_ne _ haB.symm, upd_ne _ haB.symm]
    have hset : setSlot (upd (upd (upd s.h a (some (.item 0 none))) a (some (.item 0 (some (k, v))))) a
      (some (.item (hd m.buckets[f.hash k % m.size] 0) (some (k, v))))) s.buckets (f.hash k % m.size) a = some g := by
      rw [setSlot_eq (sl := m.buckets.map fun c => hd c 0) ?_ (by simpa using hb)]
      rw [upd_ne _ haB.symm, upd_ne _ haB.symm, upd_ne _ haB.symm, M.rep.arr]
    rw [hsl, Option.bind_some, hset, Option.bind_some]
    by_cases hgrow : m.load + 1 > m.maxThreshold ∧ m.size < MAX_BUCKETS
    · rw [if_pos hgrow] at e
      rw [if_pos (by rw [M.load, M.maxT]; exact hgrow)]
      simp only [Option.bind_eq_some_iff] at e
      obtain ⟨m2, e2, e3⟩ := e
      simp only [Option.some.injEq, Prod.mk.injEq] at e3
      obtain ⟨rfl, rfl, rfl⟩ := e3
      obtain ⟨s2, es, M2⟩ := resize_sim (malloc := malloc) (f := f) hm hfin M1 (n := m.size * 2)
        (by obtain ⟨i, hi⟩ := H.pow; exact ⟨i + 1, by rw [hi, Nat.pow_succ]⟩)
        (by show (m.buckets.set _ _).length = _; rw [List.length_set]; exact H.len)
        (by
          have := haddr.length_eq
          simp only [addrs, List.length_map, List.length_cons] at this
          show m.load + 1 = _
          rw [this, H.load])
        e2
      refine ⟨s2, ?_, M2⟩
      show (resize malloc f s1 (m.size * 2)).bind _ = _
      rw [es]; rfl
    · rw [if_neg hgrow] at e
      rw [if_neg (by rw [M.load, M.maxT]; exact hgrow)]
      simp only [Option.some.injEq, Prod.mk.injEq] at e
      obtain ⟨rfl, rfl, rfl⟩ := e
      exact ⟨s1, rfl, M1⟩

end HashPtr
