import Verif.Lemmas.HashPtrOps
import Verif.Props.Misc
/-! # Removing, clearing and destroying the hash map in memory -/
namespace HashPtr
open CMap (Fns Destroyed getBucket maxThr minThr MAX_BUCKETS HInv Placed hit NoDup flatten_set flatten_split getBucket_spec pow_pos')
open CMem HashPtrSpec
open MapSpec (Lawful)

variable {K V : Type} {h h' h0 : Heap (K × V)} {f : Fns K} {B : Nat} {D : List (List (DItem K V))} {c c' : List (DItem K V)}
  {malloc : (Nat → Bool) → Nat} {s s' : St K V} {m m' : CMap.HashMap (Nat × K) V}

/-- Where a reference lies. -/
def loc (B : Nat) : Ref → Nat
  | .slot _ => B
  | .nextOf a => a

/-- `g'` differs from `g` at the reference: it holds `n`. -/
def Patched (g g' : Heap (K × V)) (B : Nat) (n : Nat) : Ref → Prop
  | .slot i => ∀ sl, g B = some (.arr sl) → g' B = some (.arr (sl.set i n))
  | .nextOf a => ∀ x p, g a = some (.item x p) → g' a = some (.item n p)

theorem assign_spec {g : Heap (K × V)} {prev : Ref} {n x : Nat} (hd : deref g B prev = some x) :
    ∃ g', assign g B prev n = some g' ∧ Patched g g' B n prev ∧ ∀ y, y ≠ loc B prev → g' y = g y := by
  cases prev with
  | slot i =>
    simp only [deref, getSlot] at hd
    split at hd
    · rename_i sl e
      have hi : i < sl.length := by
        simp only [CMem.read] at hd
        exact (List.getElem?_eq_some_iff.mp hd).1
      refine ⟨upd g B (some (.arr (sl.set i n))), by rw [assign, setSlot_eq e hi], ?_, fun y hy => upd_ne _ hy⟩
      intro sl' e'
      rw [e] at e'; cases e'
      exact upd_same _ _
    · cases hd
  | nextOf a =>
    simp only [deref, getNext] at hd
    split at hd
    · rename_i n' p e
      refine ⟨upd g a (some (.item n p)), by simp [assign, setNext, e], ?_, fun y hy => upd_ne _ hy⟩
      intro x' p' e'
      rw [e] at e'; cases e'
      exact upd_same _ _
    · cases hd

theorem patched_self {g : Heap (K × V)} {prev : Ref} {x : Nat} {g' : Heap (K × V)} (hd : deref g B prev = some x)
    (hs : g' (loc B prev) = g (loc B prev)) : Patched g g' B x prev := by
  cases prev with
  | slot i =>
    intro sl e
    simp only [loc] at hs
    rw [hs, e]
    simp only [deref, getSlot, e, CMem.read] at hd
    obtain ⟨hi, hx⟩ := List.getElem?_eq_some_iff.mp hd
    subst hx
    rw [List.set_getElem_self]
  | nextOf a =>
    intro x' p e
    simp only [loc] at hs
    rw [hs, e]
    simp only [deref, getNext, e, Option.some.injEq] at hd
    rw [hd]

theorem removeLoop_sim (key : K) : ∀ (c : List (DItem K V)) (n : Nat) (prev : Ref), Seg h c 0 → (∀ a ∈ c.map adr, a ≠ 0) →
    (c.map adr).Nodup → loc B prev ∉ c.map adr → deref h B prev = some (hd c 0) → c.length < n →
    (CMap.chainRemove (lift f) (0, key) c = none → removeLoop f key B h n prev = some none) ∧
    (∀ old c', CMap.chainRemove (lift f) (0, key) c = some (old, c') →
      ∃ g', removeLoop f key B h n prev = some (some (g', bare old)) ∧ old ∈ c ∧ c'.Sublist c ∧ adr old ∉ c'.map adr ∧ Seg g' c' 0 ∧ Patched h g' B (hd c' 0) prev ∧
        g' (adr old) = none ∧ ∀ x, x ≠ loc B prev → x ∉ c.map adr → g' x = h x) := by
  intro c
  induction c with
  | nil =>
    intro n prev _ _ _ _ hdr hn
    cases n with
    | zero => omega
    | succ n =>
      refine ⟨fun _ => by simp [removeLoop, hdr, hd], fun old c' e => by simp [CMap.chainRemove] at e⟩
  | cons p c ih =>
    intro n prev hs hz hnd hloc hdr hn
    cases n with
    | zero => omega
    | succ n =>
      simp only [List.map_cons, List.mem_cons, forall_eq_or_imp] at hz
      simp only [List.map_cons, List.nodup_cons] at hnd
      simp only [List.map_cons, List.mem_cons, not_or] at hloc
      have hcell := hs.1
      by_cases he : f.eq p.1.2 key = true
      · refine ⟨fun e => by simp [CMap.chainRemove, lift, he] at e, fun old c' e => ?_⟩
        simp only [CMap.chainRemove, lift, he, if_true, Option.some.injEq, Prod.mk.injEq] at e
        obtain ⟨rfl, rfl⟩ := e
        obtain ⟨g1, ea, hp, hout⟩ := assign_spec (n := hd c 0) hdr
        have hg1 : g1 (adr p) = h (adr p) := hout _ fun e => hloc.1 e.symm
        refine ⟨upd g1 (adr p) none, ?_, by simp, by simp, hnd.1, ?_, ?_, upd_same _ _, ?_⟩
        · simp only [removeLoop, hdr, Option.bind_eq_bind, Option.bind_some]
          rw [show hd (p :: c) 0 = adr p from rfl, if_neg hz.1]
          simp only [getPay, hcell, Option.bind_some, bare, he, if_true, getNext, ea, free, hg1]
        · exact hs.2.mono fun a ha => by
            rw [upd_ne none (show a ≠ adr p from fun e => hnd.1 (e ▸ ha))]
            exact hout a fun e => hloc.2 (e ▸ ha)
        · cases prev with
          | slot i => intro sl e; rw [upd_ne _ (show B ≠ adr p from hloc.1)]; exact hp sl e
          | nextOf a => intro x q e; rw [upd_ne _ (show a ≠ adr p from hloc.1)]; exact hp x q e
        · intro x h1 h2
          simp only [List.map_cons, List.mem_cons, not_or] at h2
          rw [upd_ne _ h2.1]; exact hout x h1
      · have hd' : deref h B (.nextOf (adr p)) = some (hd c 0) := by simp [deref, getNext, hcell]
        obtain ⟨i1, i2⟩ := ih n (.nextOf (adr p)) hs.2 hz.2 hnd.2 hnd.1 hd' (by simpa using hn)
        have hstep : removeLoop f key B h (n + 1) prev = removeLoop f key B h n (.nextOf (adr p)) := by
          simp only [removeLoop, hdr, Option.bind_eq_bind, Option.bind_some]
          rw [show hd (p :: c) 0 = adr p from rfl, if_neg hz.1]
          simp only [getPay, hcell, Option.bind_some, bare, he]
          simp
        have hcr : CMap.chainRemove (lift f) (0, key) (p :: c) =
            (match CMap.chainRemove (lift f) (0, key) c with
            | some (old, rest') => some (old, p :: rest')
            | none => none) := by
          rw [CMap.chainRemove, if_neg (by simpa [lift] using he)]
          cases CMap.chainRemove (lift f) (0, key) c <;> rfl
        rw [hstep, hcr]
        cases e1 : CMap.chainRemove (lift f) (0, key) c with
        | none => exact ⟨fun _ => i1 e1, fun old c' e => by simp at e⟩
        | some r =>
          obtain ⟨o, c1⟩ := r
          refine ⟨fun e => by simp at e, fun old c' e => ?_⟩
          simp only [Option.some.injEq, Prod.mk.injEq] at e
          obtain ⟨rfl, rfl⟩ := e
          obtain ⟨g', g1, g2, g3, g4, g5, g6, g7, g8⟩ := i2 o c1 e1
          have hop : adr o ≠ adr p := fun e => hnd.1 (e ▸ List.mem_map_of_mem g2)
          refine ⟨g', g1, List.mem_cons_of_mem _ g2, g3.cons_cons p, ?_, ?_, ?_, g7, ?_⟩
          · simp only [List.map_cons, List.mem_cons, not_or]; exact ⟨hop, g4⟩
          · exact ⟨g6 _ _ hcell, g5⟩
          · refine patched_self hdr (g8 _ hloc.1 hloc.2)
          · intro x h1 h2
            simp only [List.map_cons, List.mem_cons, not_or] at h2
            exact g8 x h2.1 h2.2

theorem chainRemove_perm {K V : Type} {f : Fns K} {k : K} : ∀ {c : List (K × V)} {old : K × V} {c' : List (K × V)},
    CMap.chainRemove f k c = some (old, c') → c.Perm (old :: c') := by
  intro c
  induction c with
  | nil => intro old c' e; simp [CMap.chainRemove] at e
  | cons p c ih =>
    intro old c' e
    simp only [CMap.chainRemove] at e
    by_cases h : f.eq p.1 k = true
    · simp only [h, if_true, Option.some.injEq, Prod.mk.injEq] at e
      obtain ⟨rfl, rfl⟩ := e
      exact List.Perm.refl _
    · rw [if_neg h] at e
      cases e1 : CMap.chainRemove f k c with
      | none => simp [e1] at e
      | some r =>
        obtain ⟨o, c1⟩ := r
        simp only [e1, Option.some.injEq, Prod.mk.injEq] at e
        obtain ⟨rfl, rfl⟩ := e
        exact ((ih e1).cons p).trans (List.Perm.swap _ _ _)

/-- Removing without looking at the thresholds. -/
theorem unlink_sim (hf : Lawful f) (M : Mem h0 s m) (H : HInv (lift f) m) (k : K) {old : DItem K V} {c' : List (DItem K V)}
    (hb : f.hash k % m.size < m.buckets.length)
    (e1 : CMap.chainRemove (lift f) (0, k) m.buckets[f.hash k % m.size] = some (old, c')) :
    ∃ g, removeLoop f k s.buckets s.h (s.load + 1) (.slot (f.hash k % m.size)) = some (some (g, bare old)) ∧
      Mem h0 { s with h := g, load := s.load - 1, size := m.size }
        { m with buckets := m.buckets.set (f.hash k % m.size) c', load := m.load - 1 } ∧
      (addrs m.buckets).Perm (adr old :: addrs (m.buckets.set (f.hash k % m.size) c')) := by
  obtain ⟨_, hfind, hle, hndup⟩ := chain_facts H k hf
  have nd := List.nodup_cons.mp M.rep.nd
  have hbn := bucket_nodup M.rep hb
  obtain ⟨-, i2⟩ := removeLoop_sim (f := f) (B := s.buckets) k m.buckets[f.hash k % m.size] (s.load + 1) (.slot (f.hash k % m.size))
    (M.rep.ok _ (List.getElem_mem hb)) (fun a ha => M.rep.nz a (bucket_mem hb a ha)) hbn
    (fun hx => nd.1 (bucket_mem hb _ hx)) (M.rep.slot hb) (by rw [M.load]; exact Nat.lt_succ_of_le hle)
  obtain ⟨g, g1, g2, g3, g4, g5, g6, g7, g8⟩ := i2 old c' e1
  have perm : (addrs m.buckets).Perm (adr old :: addrs (m.buckets.set (f.hash k % m.size) c')) := by
    rw [addrs_set hb, addrs_split hb]
    refine List.Perm.trans ?_ List.perm_middle
    refine List.Perm.append_left _ ?_
    have := (chainRemove_perm e1).map adr
    simp only [List.map_cons] at this
    exact (List.Perm.append_right _ this)
  have hold : adr old ∈ addrs m.buckets := bucket_mem hb _ (List.mem_map_of_mem g2)
  refine ⟨g, g1, ⟨?_, rfl, M.initSize, by show s.load - 1 = m.load - 1; rw [M.load], M.maxT, M.minT, ?_, ?_⟩, perm⟩
  · refine M.rep.set hb (g6 _ M.rep.arr) g5 ?_ ?_ ?_ ?_
    · intro x h1 h2 _; exact g8 x h1 h2
    · exact hbn.sublist (g3.map adr)
    · intro a ha; exact Or.inl ((g3.map adr).subset ha)
    · intro a ha; exact M.rep.nz a (bucket_mem hb a ((g3.map adr).subset ha))
  · intro x hx
    simp only [List.mem_cons, not_or] at hx
    by_cases ho : x = adr old
    · rw [ho]; show g (adr old) = _; rw [g7, M.fresh _ (List.mem_cons_of_mem _ hold)]
    · have hxm : x ∉ addrs m.buckets := fun h => by
        rcases List.mem_cons.mp (perm.mem_iff.mp h) with h | h
        · exact ho h
        · exact hx.2 h
      show g x = _
      rw [g8 x hx.1 (fun h => hxm (bucket_mem hb _ h)), M.out x (by simp only [List.mem_cons, not_or]; exact ⟨hx.1, hxm⟩)]
  · intro x hx
    rcases List.mem_cons.mp hx with rfl | hx
    · exact M.fresh _ (by simp)
    · exact M.fresh _ (List.mem_cons_of_mem _ (perm.mem_iff.mpr (List.mem_cons_of_mem _ hx)))

theorem remove_sim (hm : Allocator malloc) (hfin : Finite h0) (hf : Lawful f) (M : Mem h0 s m) (H : HInv (lift f) m) (k : K)
    {r : Bool} {d : Destroyed (Nat × K) V} (e : CMap.hashRemove (lift f) m (0, k) = some (m', r, d)) :
    ∃ s', remove malloc f s k = some (s', r, dstrip d) ∧ Mem h0 s' m' := by
  obtain ⟨hb, hfind, hle, hndup⟩ := chain_facts H k hf
  have nd := List.nodup_cons.mp M.rep.nd
  simp only [CMap.hashRemove, getBucket_spec (lift f) H.pow, Option.bind_eq_bind, Option.bind_some] at e
  rw [show (lift f).hash (0, k) = f.hash k from rfl, read_eq hb, Option.bind_some] at e
  simp only [remove, M.size, getBucket_spec f H.pow, Option.bind_eq_bind, Option.bind_some]
  cases e1 : CMap.chainRemove (lift f) (0, k) m.buckets[f.hash k % m.size] with
  | none =>
    obtain ⟨i1, -⟩ := removeLoop_sim (f := f) (B := s.buckets) k m.buckets[f.hash k % m.size] (s.load + 1) (.slot (f.hash k % m.size))
      (M.rep.ok _ (List.getElem_mem hb)) (fun a ha => M.rep.nz a (bucket_mem hb a ha)) (bucket_nodup M.rep hb)
      (fun hx => nd.1 (bucket_mem hb _ hx)) (M.rep.slot hb) (by rw [M.load]; omega)
    simp only [e1, Option.some.injEq, Prod.mk.injEq] at e
    obtain ⟨rfl, rfl, rfl⟩ := e
    exact ⟨s, by simp [i1 e1]; rfl, M⟩
  | some r1 =>
    obtain ⟨old, c'⟩ := r1
    obtain ⟨g, g1, M1, perm⟩ := unlink_sim hf M H k hb e1
    simp only [e1, write_eq hb, Option.bind_some] at e
    by_cases hl : m.load = 0
    · simp [hl] at e
    · rw [if_neg hl] at e
      rw [g1]
      simp only [Option.bind_some]
      rw [if_neg (by rw [M.load]; exact hl)]
      by_cases hshrink : m.load - 1 < m.minThreshold ∧ m.size > m.initSize
      · rw [if_pos hshrink] at e
        rw [if_pos (by rw [M.load, M.minT, M.initSize]; exact hshrink)]
        simp only [Option.bind_eq_some_iff] at e
        obtain ⟨m2, e2, e3⟩ := e
        simp only [Option.some.injEq, Prod.mk.injEq] at e3
        obtain ⟨rfl, rfl, rfl⟩ := e3
        obtain ⟨s2, es, M2⟩ := resize_sim (malloc := malloc) (f := f) hm hfin M1 (n := m.size / 2)
          (by
            obtain ⟨i, hi⟩ := H.pow
            obtain ⟨j, hj⟩ := H.initPow
            cases i with
            | zero => have := pow_pos' H.initPow; omega
            | succ i => exact ⟨i, by rw [hi, Nat.pow_succ, Nat.mul_div_cancel _ (by omega)]⟩)
          (by show (m.buckets.set _ _).length = _; rw [List.length_set]; exact H.len)
          (by
            have := perm.length_eq
            simp only [addrs, List.length_map, List.length_cons] at this
            show m.load - 1 = _
            rw [H.load, this]; rfl)
          e2
        refine ⟨s2, ?_, M2⟩
        rw [es]; rfl
      · rw [if_neg hshrink] at e
        rw [if_neg (by rw [M.load, M.minT, M.initSize]; exact hshrink)]
        simp only [Option.some.injEq, Prod.mk.injEq] at e
        obtain ⟨rfl, rfl, rfl⟩ := e
        exact ⟨_, rfl, M1⟩

/-! ## Clearing -/

theorem freeItem_sim : ∀ (c : List (DItem K V)) (p : DItem K V) (n load : Nat), Seg h (p :: c) 0 → (∀ a ∈ (p :: c).map adr, a ≠ 0) →
    ((p :: c).map adr).Nodup → (p :: c).length ≤ n → (p :: c).length ≤ load →
    ∃ g, freeItem n h load (adr p) = some (g, load - (p :: c).length, ⟨(p :: c).reverse.map (·.1.2), (p :: c).reverse.map (·.2)⟩) ∧
      ∀ x, g x = if x ∈ (p :: c).map adr then none else h x := by
  intro c
  induction c with
  | nil =>
    intro p n load hs hz hnd hn hl
    cases n with
    | zero => simp at hn
    | succ n =>
      have hcell := hs.1
      simp only [List.length_cons, List.length_nil] at hl
      refine ⟨upd h (adr p) none, ?_, ?_⟩
      · simp only [freeItem, getNext, hcell, hd, getPay, free, Option.bind_eq_bind, Option.bind_some]
        simp only [ne_eq, not_true, if_false, Option.bind_some]
        rw [if_neg (by omega)]
        simp [Destroyed.append, bare]
      · intro x; simp [upd]
  | cons q c ih =>
    intro p n load hs hz hnd hn hl
    cases n with
    | zero => simp at hn
    | succ n =>
      have hcell := hs.1
      have hz' : ∀ a ∈ (q :: c).map adr, a ≠ 0 := fun a ha => hz a (by rw [List.map_cons]; exact List.mem_cons_of_mem _ ha)
      rw [List.map_cons, List.nodup_cons] at hnd
      obtain ⟨g, e, hg⟩ := ih q n load hs.2 hz' hnd.2 (by simpa using hn) (by simp only [List.length_cons] at *; omega)
      have hgp : g (adr p) = h (adr p) := by rw [hg, if_neg hnd.1]
      refine ⟨upd g (adr p) none, ?_, ?_⟩
      · simp only [freeItem, getNext, hcell, Option.bind_eq_bind, Option.bind_some]
        rw [show hd (q :: c) 0 = adr q from rfl, if_pos (hz' _ (by simp)), e]
        simp only [Option.bind_some, getPay, free, hgp, hcell]
        simp only [List.length_cons] at hl ⊢
        rw [if_neg (by omega)]
        simp only [Destroyed.append, bare, List.reverse_cons, List.map_append, List.map_cons, List.map_nil, Option.some.injEq, Prod.mk.injEq, true_and]
        exact ⟨by omega, trivial⟩
      · intro x
        by_cases hx : x = adr p
        · subst hx; rw [upd_same, if_pos (by simp)]
        · rw [upd_ne _ hx, hg]
          have : (x ∈ (p :: q :: c).map adr) ↔ x ∈ (q :: c).map adr := by
            rw [List.map_cons (l := q :: c), List.mem_cons]; simp [hx]
          simp only [this]

theorem clearLoop_sim : ∀ (cs : List (List (DItem K V))) (g : Heap (K × V)) (i load : Nat),
    g B = some (.arr (List.replicate i 0 ++ cs.map fun c => hd c 0)) → (∀ c ∈ cs, Seg g c 0) → (B :: addrs cs).Nodup →
    (∀ a ∈ addrs cs, a ≠ 0) → cs.flatten.length ≤ load →
    ∃ (g' : Heap (K × V)) (l : List (DItem K V)), l.Perm cs.flatten ∧
      clearLoop B cs.length i g load = some (g', load - cs.flatten.length, ⟨l.map (·.1.2), l.map (·.2)⟩) ∧
      CMap.freeAll load cs = some (load - cs.flatten.length, ⟨l.map (·.1), l.map (·.2)⟩) ∧
      g' B = some (.arr (List.replicate (i + cs.length) 0)) ∧ ∀ x, x ≠ B → g' x = if x ∈ addrs cs then none else g x := by
  intro cs
  induction cs with
  | nil =>
    intro g i load hB _ _ _ _
    exact ⟨g, [], by simp, by simp [clearLoop], by simp [CMap.freeAll], by simpa using hB, fun x _ => by simp [addrs]⟩
  | cons c cs ih =>
    intro g i load hB hs hnd hz hl
    have acs : addrs (c :: cs) = c.map adr ++ addrs cs := by simp [addrs]
    rw [acs] at hnd hz
    rw [List.nodup_cons, List.nodup_append] at hnd
    simp only [List.mem_append, not_or] at hnd
    simp only [List.flatten_cons, List.length_append] at hl
    -- the chain
    obtain ⟨g1, e1, hg1⟩ : ∃ g1, (if hd c 0 ≠ 0 then freeItem (load + 1) g load (hd c 0) else some (g, load, {})) =
        some (g1, load - c.length, ⟨c.reverse.map (·.1.2), c.reverse.map (·.2)⟩) ∧ ∀ x, g1 x = if x ∈ c.map adr then none else g x := by
      cases c with
      | nil => exact ⟨g, by simp [hd], fun x => by simp⟩
      | cons p c =>
        have hp : adr p ≠ 0 := hz _ (by simp)
        obtain ⟨g1, e1, h1⟩ := freeItem_sim c p (load + 1) load (hs _ (by simp)) (fun a ha => hz a (List.mem_append_left _ ha)) hnd.2.1 (by omega) (by omega)
        exact ⟨g1, by rw [show hd (p :: c) 0 = adr p from rfl, if_pos hp]; exact e1, h1⟩
    have hg1B : g1 B = g B := by rw [hg1, if_neg hnd.1.1]
    have hsl : getSlot g B i = some (hd c 0) := by
      rw [getSlot_eq hB (by simp)]
      simp
    let g2 : Heap (K × V) := upd g1 B (some (.arr (List.replicate (i + 1) 0 ++ cs.map fun c => hd c 0)))
    have hset : setSlot g1 B i 0 = some g2 := by
      rw [setSlot_eq (hg1B.trans hB) (by simp)]
      simp only [List.map_cons, set_replicate, g2]
    obtain ⟨g3, l, hp, e3, e4, hB3, out3⟩ := ih g2 (i + 1) (load - c.length) (by simp only [g2, upd_same])
      (fun d hd => (hs d (List.mem_cons_of_mem _ hd)).mono fun a ha => by
        have had : a ∈ addrs cs := by
          obtain ⟨p, hp, rfl⟩ := List.mem_map.mp ha
          exact mem_addrs.mpr ⟨d, hd, p, hp, rfl⟩
        simp only [g2]
        rw [upd_ne _ (show a ≠ B from fun e => hnd.1.2 (e ▸ had)), hg1, if_neg (fun hx => hnd.2.2.2 a hx a had rfl)])
      (List.nodup_cons.mpr ⟨hnd.1.2, hnd.2.2.1⟩) (fun a ha => hz a (List.mem_append_right _ ha)) (by omega)
    refine ⟨g3, c.reverse ++ l, ?_, ?_, ?_, ?_, ?_⟩
    · simp only [List.flatten_cons]; exact List.Perm.append (List.reverse_perm c) hp
    · simp only [List.length_cons, clearLoop, hsl, Option.bind_eq_bind, Option.bind_some]
      have e5 : ∀ (F : Heap (K × V) × Nat × Destroyed K V → Option (Heap (K × V) × Nat × Destroyed K V)),
          (if hd c 0 ≠ 0 then (freeItem (load + 1) g load (hd c 0)).bind F else F (g, load, {})) =
          F (g1, load - c.length, ⟨c.reverse.map (·.1.2), c.reverse.map (·.2)⟩) := by
        intro F
        by_cases h0 : hd c 0 = 0
        · simp only [h0, ne_eq, not_true, if_false, Option.some.injEq] at e1 ⊢; rw [e1]
        · simp only [h0, ne_eq, not_false_eq_true, if_true] at e1 ⊢; rw [e1]; rfl
      refine (e5 fun x => (setSlot x.1 B i 0).bind fun h => (clearLoop B cs.length (i + 1) h x.2.1).bind fun y =>
        some (y.1, y.2.1, x.2.2.append y.2.2)).trans ?_
      simp only [Option.bind_some, hset, e3, Destroyed.append, List.map_append, List.flatten_cons, List.length_append, Nat.sub_sub]
    · simp only [CMap.freeAll, CMap.freeChain_spec c load (by omega), e4, Option.bind_eq_bind, Option.bind_some, Destroyed.append,
        List.map_append, List.flatten_cons, List.length_append, Nat.sub_sub]
    · rw [hB3]; simp only [List.length_cons]; congr 3; omega
    · intro x hx
      rw [out3 x hx, acs]
      simp only [g2, List.mem_append]
      rw [upd_ne _ hx, hg1]
      by_cases h1 : x ∈ addrs cs <;> by_cases h2 : x ∈ c.map adr <;> simp [h1, h2]

theorem clear_sim (M : Mem h0 s m) (H : HInv (lift f) m) {d : Destroyed (Nat × K) V} (e : CMap.hashClear m = some (m', d)) :
    ∃ s', clear s = some (s', dstrip d) ∧ Mem h0 s' m' := by
  obtain ⟨g, l, hp, e1, e2, hB, out⟩ := clearLoop_sim m.buckets s.h 0 s.load (by simpa using M.rep.arr) M.rep.ok M.rep.nd M.rep.nz
    (by rw [M.load, H.load]; exact Nat.le_refl _)
  have hl : s.load - m.buckets.flatten.length = 0 := by rw [M.load, H.load]; omega
  rw [hl] at e1 e2
  rw [M.load] at e2
  simp only [CMap.hashClear, e2, Option.bind_eq_bind, Option.bind_some, if_true, Option.some.injEq, Prod.mk.injEq] at e
  obtain ⟨rfl, rfl⟩ := e
  refine ⟨{ s with h := g, load := 0 }, ?_, ?_⟩
  · simp only [clear, M.size, ← H.len, e1, Option.bind_eq_bind, Option.bind_some, if_true]
    simp [dstrip]
  · have hadd : addrs (List.replicate m.buckets.length ([] : List (DItem K V))) = [] := by simp [addrs]
    refine ⟨⟨?_, ?_, ?_, ?_⟩, M.size, M.initSize, rfl, M.maxT, M.minT, ?_, ?_⟩
    · show g s.buckets = _; rw [hB]; simp [hd]
    · intro c hc; rw [List.eq_of_mem_replicate hc]; trivial
    · show (_ :: addrs (List.replicate _ _)).Nodup
      rw [hadd]; simp
    · intro a ha; simp only [hadd] at ha; cases ha
    · intro x hx
      simp only [hadd, List.mem_singleton] at hx
      show g x = _
      rw [out x hx]
      split
      · rename_i h1; rw [M.fresh x (List.mem_cons_of_mem _ h1)]
      · rename_i h1; exact M.out x (by simp only [List.mem_cons, not_or]; exact ⟨hx, h1⟩)
    · intro x hx
      simp only [hadd, List.mem_singleton] at hx
      rw [hx]; exact M.fresh _ (by simp)

/-- Destroying the map gives all its memory back and calls the destructors on every pair. -/
theorem destroy_sim (M : Mem h0 s m) (H : HInv (lift f) m) :
    ∃ l : List (DItem K V), l.Perm m.buckets.flatten ∧ destroy s = some (h0, ⟨l.map (·.1.2), l.map (·.2)⟩) ∧
      softDestroy s = some (h0, ⟨l.map (·.1.2), []⟩) := by
  obtain ⟨g, l, hp, e1, e2, hB, out⟩ := clearLoop_sim m.buckets s.h 0 s.load (by simpa using M.rep.arr) M.rep.ok M.rep.nd M.rep.nz
    (by rw [M.load, H.load]; exact Nat.le_refl _)
  have hl : s.load - m.buckets.flatten.length = 0 := by rw [M.load, H.load]; omega
  rw [hl] at e1
  have hfin : upd g s.buckets none = h0 := by
    funext x
    by_cases hx : x = s.buckets
    · rw [hx, upd_same, M.fresh _ (by simp)]
    · rw [upd_ne _ hx, out x hx]
      split
      · rename_i h1; rw [M.fresh x (List.mem_cons_of_mem _ h1)]
      · rename_i h1; exact M.out x (by simp only [List.mem_cons, not_or]; exact ⟨hx, h1⟩)
  refine ⟨l, hp, ?_, ?_⟩
  · simp only [destroy, clear, M.size, ← H.len, e1, Option.bind_eq_bind, Option.bind_some, if_true, free, hB, hfin]
  · simp only [softDestroy, M.size, ← H.len, e1, Option.bind_eq_bind, Option.bind_some, free, hB, hfin]

/-! ## Creating -/

theorem startSize_pow (n : Nat) : ∃ i, startSize n = 2 ^ i := by
  unfold startSize
  have h1 : 2 ^ 5 ≤ min (max n CMap.MIN_BUCKETS) MAX_BUCKETS := by simp only [CMap.MIN_BUCKETS, MAX_BUCKETS]; omega
  have h2 : min (max n CMap.MIN_BUCKETS) MAX_BUCKETS ≤ 2 ^ 30 := by simp only [CMap.MIN_BUCKETS, MAX_BUCKETS]; omega
  generalize min (max n CMap.MIN_BUCKETS) MAX_BUCKETS = k at *
  simp only
  split
  · rename_i h; exact (C36_ispow2 k).mp h
  · have hk : (BitVec.ofNat 64 k).toNat = k := by rw [BitVec.toNat_ofNat, Nat.mod_eq_of_lt (by omega)]
    obtain ⟨i, hi, -⟩ := C36_upperPowerOfTwo_partial (BitVec.ofNat 64 k) (by rw [hk]; omega) (by rw [hk]; omega)
    exact ⟨i, hi⟩

theorem new_sim (hm : Allocator malloc) (hfin : Finite h0) (n : Nat) :
    Mem h0 (new malloc h0 n : St K V) (CMap.hashNew n) ∧ HInv (lift f) (CMap.hashNew n : CMap.HashMap (Nat × K) V) := by
  obtain ⟨hfr, hnz⟩ := alloc_spec hm hfin
  have hadd : addrs (List.replicate (startSize n) ([] : List (DItem K V))) = [] := by simp [addrs]
  have hN : (CMap.hashNew n : CMap.HashMap (Nat × K) V) =
      ⟨List.replicate (startSize n) [], startSize n, startSize n, 0, maxThr (startSize n), minThr (startSize n)⟩ := rfl
  rw [hN]
  refine ⟨⟨⟨?_, ?_, ?_, ?_⟩, rfl, rfl, rfl, rfl, rfl, ?_, ?_⟩, ?_⟩
  · simp [new, upd_same, hd]
  · intro c hc; rw [List.eq_of_mem_replicate hc]; trivial
  · show (_ :: addrs (List.replicate _ _)).Nodup
    rw [hadd]; simp
  · intro a ha; simp only [hadd] at ha; cases ha
  · intro x hx
    simp only [hadd, List.mem_singleton] at hx
    exact upd_ne _ hx
  · intro x hx
    simp only [hadd, List.mem_singleton] at hx
    rw [hx]; exact hfr
  · exact ⟨startSize_pow n, startSize_pow n, Nat.le_refl _, by simp, CMap.placed_empty _ _ _, by simp, by simp [NoDup]⟩

end HashPtr
