import Verif.Lemmas.SeqSort
import Verif.Spec.SeqHeap
import Mathlib.Data.List.Perm.Basic
/-! # Lemmas: sequences on the heap refine the sequences of `Verif.Model.Seq` -/
namespace SeqHeap
open Seqn SeqSpec

/-- A sequence on the heap: address of the structure, of the array, and the value. -/
structure Obj where
  p : Nat
  q : Nat
  s : Seq Nat

def Obj.hdr (o : Obj) : Hdr := ⟨o.q, o.s.length, o.s.capacity, o.s.hasDestroy⟩
def Obj.blocks (o : Obj) : List Nat := [o.p, o.q]
def blocks (os : List Obj) : List Nat := os.flatMap Obj.blocks

structure Inv (h : Heap) (os : List Obj) : Prop where
  isHdr : ∀ o ∈ os, h.mem o.p = some (.hdr o.hdr)
  isCells : ∀ o ∈ os, h.mem o.q = some (.cells o.s.data)
  nodup : (blocks os).Nodup
  only : ∀ a, h.mem a ≠ none → a ∈ blocks os
  lt : ∀ a ∈ blocks os, a < h.next

theorem blocks_perm {a b : List Obj} (h : a.Perm b) : (blocks a).Perm (blocks b) := h.flatMap_right _

theorem Inv.perm {h : Heap} {a b : List Obj} (i : Inv h a) (e : a.Perm b) : Inv h b where
  isHdr o ho := i.isHdr o (e.mem_iff.mpr ho)
  isCells o ho := i.isCells o (e.mem_iff.mpr ho)
  nodup := (blocks_perm e).nodup_iff.mp i.nodup
  only x hx := (blocks_perm e).mem_iff.mp (i.only x hx)
  lt x hx := i.lt x ((blocks_perm e).mem_iff.mpr hx)

theorem Inv.destr {h : Heap} {a : List Obj} (i : Inv h a) (d : List Nat) : Inv { h with destroyed := d } a :=
  ⟨i.isHdr, i.isCells, i.nodup, i.only, i.lt⟩

theorem mem_blocks {os : List Obj} {o : Obj} (h : o ∈ os) : o.p ∈ blocks os ∧ o.q ∈ blocks os := by
  simp only [blocks, List.mem_flatMap, Obj.blocks]
  exact ⟨⟨o, h, by simp⟩, ⟨o, h, by simp⟩⟩

theorem Inv.apart {h : Heap} {o : Obj} {r : List Obj} (i : Inv h (o :: r)) :
    o.p ≠ o.q ∧ (∀ x ∈ blocks r, x ≠ o.p ∧ x ≠ o.q) ∧ (blocks r).Nodup := by
  have := i.nodup
  simp only [blocks, List.flatMap_cons, Obj.blocks, List.cons_append, List.nil_append, List.nodup_cons, List.mem_cons, not_or] at this
  refine ⟨this.1.1, fun x hx => ⟨fun e => this.1.2 (by subst e; exact hx), fun e => this.2.1 (by subst e; exact hx)⟩, this.2.2⟩

theorem hdr_eq {h : Heap} {o : Obj} {r : List Obj} (i : Inv h (o :: r)) : hdr h o.p = some o.hdr := by
  simp [hdr, i.isHdr o List.mem_cons_self]

theorem cells_eq {h : Heap} {o : Obj} {r : List Obj} (i : Inv h (o :: r)) : cells h o.q = some o.s.data := by
  simp [cells, i.isCells o List.mem_cons_self]

theorem load_eq {h : Heap} {o : Obj} {r : List Obj} (i : Inv h (o :: r)) : load h o.p = some o.s := by
  simp [load, hdr_eq i, Obj.hdr, cells_eq i]

/-- Both blocks of the first sequence rewritten in place. -/
theorem Inv.rewrite {h : Heap} {o : Obj} {r : List Obj} (i : Inv h (o :: r)) (s' : Seq Nat) (m : Nat → Option Block) (d : List Nat)
    (hp : m o.p = some (.hdr (⟨o.p, o.q, s'⟩ : Obj).hdr)) (hq : m o.q = some (.cells s'.data))
    (ho : ∀ a, a ≠ o.p → a ≠ o.q → m a = h.mem a) : Inv ⟨m, h.next, d⟩ (⟨o.p, o.q, s'⟩ :: r) := by
  obtain ⟨h1, h2, h3⟩ := i.apart
  have hb : blocks (⟨o.p, o.q, s'⟩ :: r) = blocks (o :: r) := rfl
  refine ⟨?_, ?_, hb ▸ i.nodup, ?_, hb ▸ i.lt⟩
  · intro x hx
    rcases List.mem_cons.mp hx with rfl | hx
    · exact hp
    · have := h2 _ (mem_blocks hx).1
      show m x.p = _
      rw [ho _ this.1 this.2]; exact i.isHdr x (List.mem_cons_of_mem _ hx)
  · intro x hx
    rcases List.mem_cons.mp hx with rfl | hx
    · exact hq
    · have := h2 _ (mem_blocks hx).2
      show m x.q = _
      rw [ho _ this.1 this.2]; exact i.isCells x (List.mem_cons_of_mem _ hx)
  · intro a ha
    rw [hb]
    by_cases e1 : a = o.p
    · exact e1 ▸ (mem_blocks List.mem_cons_self).1
    · by_cases e2 : a = o.q
      · exact e2 ▸ (mem_blocks List.mem_cons_self).2
      · exact i.only a (by rw [← ho a e1 e2]; exact ha)

theorem inPlace_eq {h : Heap} {o : Obj} {r : List Obj} (i : Inv h (o :: r)) (f : Seq Nat → Option (Seq Nat × List Nat)) {s' : Seq Nat} {d : List Nat}
    (hf : f o.s = some (s', d)) (hc : s'.capacity = o.s.capacity) (hd : s'.hasDestroy = o.s.hasDestroy) :
    ∃ h', inPlace h o.p f = some h' ∧ Inv h' (⟨o.p, o.q, s'⟩ :: r) ∧ h'.destroyed = h.destroyed ++ d := by
  have hn := i.apart.1
  have e1 : setCells h o.q s'.data = some { h with mem := upd h.mem o.q (some (.cells s'.data)) } := by
    simp [setCells, cells_eq i]
  have e2 : hdr { h with mem := upd h.mem o.q (some (.cells s'.data)) } o.p = some o.hdr := by
    simp [hdr, upd, hn, i.isHdr o List.mem_cons_self]
  refine ⟨⟨upd (upd h.mem o.q (some (.cells s'.data))) o.p (some (.hdr { o.hdr with length := s'.length })), h.next, h.destroyed ++ d⟩, ?_, ?_, rfl⟩
  · simp only [inPlace, load_eq i, hf, hdr_eq i, Option.bind_eq_bind, Option.bind_some]
    rw [show o.hdr.data = o.q from rfl, e1]
    simp [setHdr, e2]
  · refine i.rewrite s' _ _ ?_ ?_ ?_
    · simp [upd, Obj.hdr, hc, hd]
    · simp [upd, Ne.symm hn]
    · intro a h1 h2; simp [upd, h1, h2]

theorem new_eq {h : Heap} {r : List Obj} (i : Inv h r) (c : Nat) (hd : Bool) :
    ∃ h' q, new h c hd = some (h', h.next) ∧ Inv h' (⟨h.next, q, Seqn.new c hd⟩ :: r) ∧ h'.destroyed = h.destroyed := by
  let cap := if c ≤ 0 then 1 else c
  refine ⟨⟨upd (upd (upd h.mem h.next (some (.hdr ⟨0, 0, 0, false⟩))) (h.next + 1) (some (.cells (List.replicate cap none)))) h.next
    (some (.hdr ⟨h.next + 1, 0, cap, hd⟩)), h.next + 2, h.destroyed⟩, h.next + 1, ?_, ?_, rfl⟩
  · simp [new, alloc, setHdr, hdr, upd, cap]
  · have hlt := i.lt
    constructor
    · intro o ho
      rcases List.mem_cons.mp ho with rfl | ho
      · simp [upd, Obj.hdr, Seqn.new, cap]
      · have := hlt _ (mem_blocks ho).1
        have a : o.p ≠ h.next := by omega
        have b : o.p ≠ h.next + 1 := by omega
        simp [upd, a, b, i.isHdr o ho]
    · intro o ho
      rcases List.mem_cons.mp ho with rfl | ho
      · simp [upd, Seqn.new, cap]
      · have := hlt _ (mem_blocks ho).2
        have a : o.q ≠ h.next := by omega
        have b : o.q ≠ h.next + 1 := by omega
        simp [upd, a, b, i.isCells o ho]
    · show (h.next :: (h.next + 1) :: blocks r).Nodup
      refine List.nodup_cons.mpr ⟨?_, List.nodup_cons.mpr ⟨?_, i.nodup⟩⟩
      · intro hm
        rcases List.mem_cons.mp hm with e | hm
        · omega
        · have := hlt _ hm; omega
      · intro hm; have := hlt _ hm; omega
    · intro a ha
      show a ∈ h.next :: (h.next + 1) :: blocks r
      by_cases e1 : a = h.next
      · simp [e1]
      · by_cases e2 : a = h.next + 1
        · simp [e2]
        · have : a ∈ blocks r := i.only a (by simpa [upd, e1, e2] using ha)
          simp [this]
    · intro a ha
      have ha : a ∈ h.next :: (h.next + 1) :: blocks r := ha
      show a < h.next + 2
      rcases List.mem_cons.mp ha with rfl | ha
      · omega
      · rcases List.mem_cons.mp ha with rfl | ha
        · omega
        · have := hlt _ ha; omega

theorem softDestroy_eq {h : Heap} {o : Obj} {r : List Obj} (i : Inv h (o :: r)) :
    ∃ h', softDestroy h o.p = some h' ∧ Inv h' r ∧ h'.destroyed = h.destroyed := by
  obtain ⟨h1, h2, h3⟩ := i.apart
  refine ⟨{ h with mem := upd (upd h.mem o.q none) o.p none }, ?_, ?_, rfl⟩
  · simp only [softDestroy, hdr_eq i, Option.bind_eq_bind, Option.bind_some, Obj.hdr, free, i.isCells o List.mem_cons_self]
    simp [upd, h1, i.isHdr o List.mem_cons_self]
  · refine ⟨?_, ?_, h3, ?_, fun a ha => i.lt a (by simp only [blocks, List.flatMap_cons, List.mem_append]; exact Or.inr ha)⟩
    · intro x hx
      have := h2 _ (mem_blocks hx).1
      simp [upd, this.1, this.2, i.isHdr x (List.mem_cons_of_mem _ hx)]
    · intro x hx
      have := h2 _ (mem_blocks hx).2
      simp [upd, this.1, this.2, i.isCells x (List.mem_cons_of_mem _ hx)]
    · intro a ha
      have e1 : a ≠ o.p := by rintro rfl; simp [upd] at ha
      have e2 : a ≠ o.q := by rintro rfl; simp [upd] at ha
      have := i.only a (by simpa [upd, e1, e2] using ha)
      simpa [blocks, Obj.blocks, e1, e2] using this

theorem destroy_eq {h : Heap} {o : Obj} {r : List Obj} (i : Inv h (o :: r)) {l : List Nat} (hl : Has o.s l) :
    ∃ h', destroy h o.p = some h' ∧ Inv h' r ∧ h'.destroyed = h.destroyed ++ (if o.s.hasDestroy then l else []) := by
  obtain ⟨h', e, i', d⟩ := softDestroy_eq (i.destr (h.destroyed ++ (if o.s.hasDestroy then l else [])))
  exact ⟨h', by simp [destroy, load_eq i, destroy_spec hl, e], i', d⟩

/-- `ExpandIfNeccessary`. -/
theorem expand_eq {h : Heap} {o : Obj} {r : List Obj} (i : Inv h (o :: r)) {s' : Seq Nat} (hs : Seqn.expand o.s = some s') :
    ∃ h' q, expand h o.p = some h' ∧ Inv h' (⟨o.p, q, s'⟩ :: r) ∧ h'.destroyed = h.destroyed := by
  unfold Seqn.expand at hs
  split at hs
  case isFalse => cases hs
  rename_i hle
  split at hs
  · rename_i heq
    obtain ⟨h1, h2, h3⟩ := i.apart
    simp only [Option.some.injEq] at hs
    have hp := i.lt _ (mem_blocks List.mem_cons_self).1
    have hq := i.lt _ (mem_blocks (o := o) List.mem_cons_self).2
    have n1 : o.p ≠ h.next := by omega
    have n2 : o.q ≠ h.next := by omega
    refine ⟨⟨upd (upd (upd h.mem h.next (some (.cells (CMem.realloc o.s.data (o.s.capacity * 2))))) o.q none) o.p
      (some (.hdr ⟨h.next, o.s.length, o.s.capacity * 2, o.s.hasDestroy⟩)), h.next + 1, h.destroyed⟩, h.next, ?_, ?_, rfl⟩
    · simp only [expand, hdr_eq i, Option.bind_eq_bind, Option.bind_some]
      rw [if_pos (show o.hdr.length ≤ o.hdr.capacity from hle), if_pos (show o.hdr.length = o.hdr.capacity from heq)]
      rw [show o.hdr.data = o.q from rfl, cells_eq i]
      have hpm := i.isHdr o List.mem_cons_self
      simp [alloc, free, setHdr, hdr, upd, n1, n2, h1, hpm, i.isCells o List.mem_cons_self]
      simp [Obj.hdr]
    · subst hs
      have hnp : h.next ≠ o.p := Ne.symm n1
      have hnq : h.next ≠ o.q := Ne.symm n2
      have hlt : ∀ a ∈ blocks r, a < h.next := fun a ha => i.lt a (by simp only [blocks, List.flatMap_cons, List.mem_append]; exact Or.inr ha)
      constructor
      · intro x hx
        rcases List.mem_cons.mp hx with rfl | hx
        · simp [upd, Obj.hdr]
        · have hb := h2 _ (mem_blocks hx).1
          have := hlt _ (mem_blocks hx).1
          have n : x.p ≠ h.next := by omega
          simp [upd, hb.1, hb.2, n, i.isHdr x (List.mem_cons_of_mem _ hx)]
      · intro x hx
        rcases List.mem_cons.mp hx with rfl | hx
        · simp [upd, hnp, hnq]
        · have hb := h2 _ (mem_blocks hx).2
          have := hlt _ (mem_blocks hx).2
          have n : x.q ≠ h.next := by omega
          simp [upd, hb.1, hb.2, n, i.isCells x (List.mem_cons_of_mem _ hx)]
      · show (o.p :: h.next :: blocks r).Nodup
        refine List.nodup_cons.mpr ⟨?_, List.nodup_cons.mpr ⟨?_, h3⟩⟩
        · intro hm
          rcases List.mem_cons.mp hm with e | hm
          · exact n1 e
          · exact (h2 _ hm).1 rfl
        · intro hm; have := hlt _ hm; omega
      · intro a ha
        show a ∈ o.p :: h.next :: blocks r
        by_cases e1 : a = o.p
        · simp [e1]
        · by_cases e2 : a = h.next
          · simp [e2]
          · have e3 : a ≠ o.q := by rintro rfl; simp [upd, e1] at ha
            have := i.only a (by simpa [upd, e1, e2, e3] using ha)
            have : a ∈ o.p :: o.q :: blocks r := this
            simpa [e1, e2, e3] using this
      · intro a ha
        have ha : a ∈ o.p :: h.next :: blocks r := ha
        show a < h.next + 1
        rcases List.mem_cons.mp ha with rfl | ha
        · omega
        · rcases List.mem_cons.mp ha with rfl | ha
          · omega
          · have := hlt _ ha; omega
  · rename_i hne
    simp only [Option.some.injEq] at hs
    subst hs
    refine ⟨h, o.q, ?_, i, rfl⟩
    simp only [expand, hdr_eq i, Option.bind_eq_bind, Option.bind_some]
    rw [if_pos (show o.hdr.length ≤ o.hdr.capacity from hle), if_neg (show ¬o.hdr.length = o.hdr.capacity from hne)]

theorem append_eq {h : Heap} {o : Obj} {r : List Obj} (i : Inv h (o :: r)) (x : Nat) {s' : Seq Nat} (hs : Seqn.append o.s x = some s') :
    ∃ h' q, append h o.p x = some h' ∧ Inv h' (⟨o.p, q, s'⟩ :: r) ∧ h'.destroyed = h.destroyed := by
  simp only [Seqn.append, Option.bind_eq_bind, Option.bind_eq_some_iff] at hs
  obtain ⟨s1, e1, c, e2, e3⟩ := hs
  simp only [Option.some.injEq] at e3
  obtain ⟨h1, q, f1, i1, d1⟩ := expand_eq i e1
  have hn := i1.apart.1
  have g1 := hdr_eq i1
  have g2 := cells_eq i1
  simp only at hn g1 g2
  refine ⟨⟨upd (upd h1.mem q (some (.cells c))) o.p (some (.hdr ⟨q, s1.length + 1, s1.capacity, s1.hasDestroy⟩)), h1.next, h1.destroyed⟩, q, ?_, ?_, d1⟩
  · simp only [append, f1, g1, Option.bind_eq_bind, Option.bind_some]
    rw [show (⟨o.p, q, s1⟩ : Obj).hdr.data = q from rfl, g2]
    simp only [Option.bind_some]
    rw [show (⟨o.p, q, s1⟩ : Obj).hdr.length = s1.length from rfl, e2]
    have := i1.isHdr _ List.mem_cons_self
    simp only at this
    simp [setCells, g2, setHdr, hdr, upd, hn, this, Obj.hdr]
  · subst e3
    refine Inv.rewrite i1 { s1 with data := c, length := s1.length + 1 } _ _ ?_ ?_ ?_
    · simp [upd, Obj.hdr]
    · simp [upd, Ne.symm hn]
    · intro a h1 h2; simp [upd, h1, h2]

theorem appendOnce_eq (cmp : Cmp Nat) {h : Heap} {o : Obj} {r : List Obj} (i : Inv h (o :: r)) (x : Nat) {l : List Nat} (hl : Has o.s l) :
    match l.find? fun y => decide (cmp x y = 0) with
    | none | some 0 => ∃ h' q s', appendOnce cmp h o.p x = some h' ∧ Inv h' (⟨o.p, q, s'⟩ :: r) ∧ h'.destroyed = h.destroyed ∧ Has s' (l ++ [x]) ∧
        s'.hasDestroy = o.s.hasDestroy
    | some (_ + 1) => ∃ h', appendOnce cmp h o.p x = some h' ∧ Inv h' (o :: r) ∧ h'.destroyed = h.destroyed ++ (if o.s.hasDestroy then [x] else []) := by
  obtain ⟨s', e, r', d⟩ := append_spec hl x
  obtain ⟨h', q, f, i', d'⟩ := append_eq i x e
  have base : appendOnce cmp h o.p x = (match l.find? fun y => decide (cmp x y = 0) with
    | none => append h o.p x
    | some 0 => append h o.p x
    | some (_ + 1) => some (if o.s.hasDestroy then { h with destroyed := h.destroyed ++ [x] } else h)) := by
    simp only [appendOnce, load_eq i, lookup_spec cmp x hl, Option.bind_eq_bind, Option.bind_some]
    rfl
  rw [base]
  cases l.find? fun y => decide (cmp x y = 0) with
  | none => exact ⟨h', q, s', f, i', d', r', d⟩
  | some y =>
    cases y with
    | zero => exact ⟨h', q, s', f, i', d', r', d⟩
    | succ y =>
      cases ho : o.s.hasDestroy with
      | true => exact ⟨_, rfl, i.destr _, by simp⟩
      | false => exact ⟨_, rfl, i, by simp⟩

theorem getRangeLoop_eq {o : Obj} {r : List Obj} : ∀ n k (h : Heap) (sub : Obj) (s' : Seq Nat), Inv h (sub :: o :: r) →
    Seqn.getRangeLoop o.s sub.s k n = some s' →
    ∃ h' q, getRangeLoop o.p sub.p h k n = some h' ∧ Inv h' (⟨sub.p, q, s'⟩ :: o :: r) ∧ h'.destroyed = h.destroyed := by
  intro n
  induction n with
  | zero =>
    intro k h sub s' i e
    simp only [Seqn.getRangeLoop, Option.some.injEq] at e
    subst e
    exact ⟨h, sub.q, rfl, i, rfl⟩
  | succ n ih =>
    intro k h sub s' i e
    simp only [Seqn.getRangeLoop] at e
    split at e
    case isFalse => cases e
    rename_i hk
    simp only [Option.bind_eq_bind, Option.bind_eq_some_iff] at e
    obtain ⟨x, ex, s1, e1, e2⟩ := e
    obtain ⟨h1, q, f1, i1, d1⟩ := append_eq i x e1
    obtain ⟨h2, q2, f2, i2, d2⟩ := ih (k + 1) h1 ⟨sub.p, q, s1⟩ s' i1 e2
    refine ⟨h2, q2, ?_, i2, d2.trans d1⟩
    have hld := load_eq (i.perm (List.Perm.swap _ _ _))
    simp [getRangeLoop, hld, hk, ex, f1, f2]

theorem getRange_eq {h : Heap} {o : Obj} {r : List Obj} (i : Inv h (o :: r)) (a b : Nat) {t : Option (Seq Nat)}
    (e : Seqn.getRange o.s a b = some t) :
    match t with
    | none => getRange h o.p a b = some (h, none)
    | some s' => ∃ h' p q, getRange h o.p a b = some (h', some p) ∧ Inv h' (⟨p, q, s'⟩ :: o :: r) ∧ h'.destroyed = h.destroyed := by
  unfold Seqn.getRange at e
  split at e
  · rename_i hc
    simp only [Option.some.injEq] at e
    subst e
    simp [getRange, load_eq i, hc]
  · rename_i hc
    simp only [Option.map_eq_some_iff] at e
    obtain ⟨s', e1, e2⟩ := e
    subst e2
    obtain ⟨h1, q, f1, i1, d1⟩ := new_eq i (b - a + 1) o.s.hasDestroy
    obtain ⟨h2, q2, f2, i2, d2⟩ := getRangeLoop_eq _ _ h1 _ s' i1 e1
    refine ⟨h2, h.next, q2, ?_, i2, d2.trans d1⟩
    simp only at f2
    simp [getRange, load_eq i, hc, f1, f2]

theorem appendSeqLoop_eq {t : Obj} {r : List Obj} {m : List Nat} (hm : Has t.s m) : ∀ fuel k (h : Heap) (o : Obj) (l : List Nat), Inv h (o :: t :: r) → Has o.s l →
    k + fuel = m.length + 1 →
    ∃ h' q s', appendSeqLoop o.p t.p fuel h k = some (some h') ∧ Inv h' (⟨o.p, q, s'⟩ :: t :: r) ∧ h'.destroyed = h.destroyed ∧ Has s' (l ++ m.drop k) ∧
      s'.hasDestroy = o.s.hasDestroy ∨ fuel = 0 := by
  intro fuel
  induction fuel with
  | zero => intro k h o l i ho hk; exact ⟨h, 0, o.s, Or.inr rfl⟩
  | succ fuel ih =>
    intro k h o l i ho hk
    have hld := load_eq (i.perm (List.Perm.swap _ _ _))
    have hlen := hm.2.1
    by_cases hlt : k < m.length
    · have hlt' : k < t.s.length := by omega
      have hat : at_ t.s k = some m[k] := by
        rw [hm.2.2 k hlt']; simp [hlt]
      obtain ⟨s1, e1, r1, d1⟩ := append_spec ho m[k]
      obtain ⟨h1, q, f1, i1, d2⟩ := append_eq i m[k] e1
      obtain ⟨h2, q2, s2, hc | hc⟩ := ih (k + 1) h1 ⟨o.p, q, s1⟩ _ i1 r1 (by omega)
      · obtain ⟨f2, i2, d3, r2, d4⟩ := hc
        refine ⟨h2, q2, s2, Or.inl ⟨?_, i2, d3.trans d2, ?_, d4.trans d1⟩⟩
        · simp only at f2
          simp [appendSeqLoop, hld, hlt', hat, f1, f2]
        · rw [List.drop_eq_getElem_cons hlt]; simpa using r2
      · omega
    · have hlt' : ¬k < t.s.length := by omega
      exact ⟨h, o.q, o.s, Or.inl ⟨by simp [appendSeqLoop, hld, hlt'], i, rfl, by rw [List.drop_eq_nil_of_le (by omega)]; simpa using ho, rfl⟩⟩

/-- Appending a sequence to itself never ends. -/
theorem appendSelf {r : List Obj} : ∀ fuel k (h : Heap) (o : Obj) (l : List Nat), Inv h (o :: r) → Has o.s l → k < l.length →
    appendSeqLoop o.p o.p fuel h k = some none := by
  intro fuel
  induction fuel with
  | zero => intros; rfl
  | succ fuel ih =>
    intro k h o l i ho hk
    have hk' : k < o.s.length := by rw [ho.2.1]; exact hk
    have hat : at_ o.s k = some l[k] := by rw [ho.2.2 k hk']; simp [hk]
    obtain ⟨s1, e1, r1, d1⟩ := append_spec ho l[k]
    obtain ⟨h1, q, f1, i1, d2⟩ := append_eq i l[k] e1
    have := ih (k + 1) h1 ⟨o.p, q, s1⟩ _ i1 r1 (by simp; omega)
    simp only at this
    simp [appendSeqLoop, load_eq i, hk', hat, f1, this]

/-! ## Capacities -/

theorem set_cap {s s' : Seq Nat} {k x : Nat} {d : List Nat} (h : Seqn.set s k x = some (s', d)) : s'.capacity = s.capacity := by
  unfold Seqn.set at h
  split at h
  case isFalse => cases h
  simp only [Option.bind_eq_bind] at h
  split at h <;> simp only [Option.bind_eq_some_iff, Option.bind_some, Option.some.injEq, Prod.mk.injEq] at h <;> grind

theorem removeRange_cap {s s' : Seq Nat} {a b : Nat} {d : List Nat} (h : Seqn.removeRange s a b = some (s', d)) : s'.capacity = s.capacity := by
  unfold Seqn.removeRange at h
  split at h
  case isFalse => cases h
  simp only [Option.bind_eq_bind] at h
  split at h <;> simp only [Option.bind_eq_some_iff, Option.bind_some, Option.some.injEq, Prod.mk.injEq] at h <;> grind

theorem softRemoveRange_cap {s s' : Seq Nat} {a b : Nat} (h : Seqn.softRemoveRange s a b = some s') : s'.capacity = s.capacity := by
  unfold Seqn.softRemoveRange at h
  split at h
  case isFalse => cases h
  simp only [Option.bind_eq_bind] at h
  split at h <;> simp only [Option.bind_eq_some_iff, Option.bind_some, Option.some.injEq, Prod.mk.injEq] at h <;> grind

theorem clear_cap {s s' : Seq Nat} {d : List Nat} (h : Seqn.clear s = some (s', d)) : s'.capacity = s.capacity := by
  unfold Seqn.clear at h
  split at h
  · exact removeRange_cap h
  · simp only [Option.some.injEq, Prod.mk.injEq] at h
    rw [← h.1]

theorem sort_cap {cmp : Cmp Nat} {s s' : Seq Nat} (h : Seqn.sort cmp s = some s') : s'.capacity = s.capacity := by
  simp only [Seqn.sort, Option.bind_eq_bind, Option.bind_eq_some_iff] at h
  obtain ⟨_, _, e⟩ := h
  simp only [Option.some.injEq] at e
  rw [← e]

theorem reverse_cap {s s' : Seq Nat} (h : Seqn.reverse s = some s') : s'.capacity = s.capacity := by
  simp only [Seqn.reverse, Option.bind_eq_bind, Option.bind_eq_some_iff] at h
  obtain ⟨_, _, e⟩ := h
  simp only [Option.some.injEq] at e
  rw [← e]

theorem removeNulls_cap {s s' : Seq Nat} {f : Nat → Bool} (h : Seqn.removeNulls f s = some s') : s'.capacity = s.capacity := by
  simp only [Seqn.removeNulls, Option.bind_eq_bind, Option.bind_eq_some_iff] at h
  obtain ⟨_, _, e⟩ := h
  simp only [Option.some.injEq] at e
  rw [← e]

end SeqHeap
