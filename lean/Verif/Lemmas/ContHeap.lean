import Verif.Spec.ContHeap
import Verif.Lemmas.Stack
import Verif.Lemmas.RingBuffer
/-! # Memory of stacks, queues, ring buffers and iterators: the invariant and each call -/
namespace ContHeap

/-- The nodes of a queue from a point on. -/
def Nodes (m : Nat → Option Block) : Option Nat → List (Nat × Nat) → Prop
  | _, [] => True
  | prev, (a, x) :: l => m a = some (.node x (l.head?.map Prod.fst) prev) ∧ Nodes m (some a) l

inductive Obj
  | gone
  | stack (p d : Nat) (s : Stack.S Nat)
  | queue (p : Nat) (o : Bool) (ns : List (Nat × Nat))
  | ring (p d : Nat) (s : List Nat) (c e l : Nat) (o : Bool)
  | iter (p b n : Nat)

def Obj.blocks : Obj → List Nat
  | .gone => []
  | .stack p d _ => [p, d]
  | .queue p _ ns => p :: ns.map Prod.fst
  | .ring p d .. => [p, d]
  | .iter p .. => [p]

def Good (m : Nat → Option Block) : Obj → Prop
  | .gone => True
  | .stack p d s => m p = some (.stack d s.size s.capacity s.hasDestroy) ∧ m d = some (.cells s.data)
  | .queue p o ns => m p = some (.queue ns.length o (ns.head?.map Prod.fst) (ns.getLast?.map Prod.fst)) ∧ Nodes m none ns
  | .ring p d s c e l o => m p = some (.ring d c e l o) ∧ m d = some (.slots s)
  | .iter p b n => m p = some (.iter b n)

def blocks (os : List Obj) : List Nat := os.flatMap Obj.blocks

@[simp] theorem blocks_nil : blocks [] = [] := rfl
@[simp] theorem blocks_cons (o : Obj) (os : List Obj) : blocks (o :: os) = o.blocks ++ blocks os := rfl
@[simp] theorem blocks_append (a b : List Obj) : blocks (a ++ b) = blocks a ++ blocks b := by simp [blocks]

structure Inv (h : Heap) (os : List Obj) : Prop where
  good : ∀ o ∈ os, Good h.mem o
  nodup : (blocks os).Nodup
  only : ∀ a, h.mem a ≠ none → a ∈ blocks os
  lt : ∀ a ∈ blocks os, a < h.next

theorem Nodes.congr {m m' : Nat → Option Block} : ∀ {l : List (Nat × Nat)} {prev : Option Nat}, (∀ a ∈ l.map Prod.fst, m' a = m a) → Nodes m prev l → Nodes m' prev l := by
  intro l
  induction l with
  | nil => intros; trivial
  | cons y l ih =>
    intro prev h hn
    obtain ⟨a, x⟩ := y
    exact ⟨by rw [h a (by simp)]; exact hn.1, ih (fun b hb => h b (by simp only [List.map_cons, List.mem_cons]; exact .inr hb)) hn.2⟩

theorem Good.congr {m m' : Nat → Option Block} {o : Obj} (h : ∀ a ∈ o.blocks, m' a = m a) (g : Good m o) : Good m' o := by
  cases o with
  | gone => trivial
  | stack p d s => exact ⟨by rw [h p (by simp [Obj.blocks])]; exact g.1, by rw [h d (by simp [Obj.blocks])]; exact g.2⟩
  | queue p o ns => exact ⟨by rw [h p (by simp [Obj.blocks])]; exact g.1, Nodes.congr (fun a ha => h a (by simp only [Obj.blocks, List.mem_cons]; exact .inr ha)) g.2⟩
  | ring p d s c e l o => exact ⟨by rw [h p (by simp [Obj.blocks])]; exact g.1, by rw [h d (by simp [Obj.blocks])]; exact g.2⟩
  | iter p b n => exact (h p (by simp [Obj.blocks])).trans g

theorem Nodes.alloc {m : Nat → Option Block} : ∀ {l : List (Nat × Nat)} {prev : Option Nat}, Nodes m prev l → ∀ a ∈ l.map Prod.fst, m a ≠ none := by
  intro l
  induction l with
  | nil => intro _ _ a ha; simp at ha
  | cons y l ih =>
    obtain ⟨b, x⟩ := y
    intro prev h a ha
    simp only [List.map_cons, List.mem_cons] at ha
    rcases ha with rfl | ha
    · rw [h.1]; simp
    · exact ih h.2 a ha

theorem Good.alloc {m : Nat → Option Block} {o : Obj} (g : Good m o) : ∀ a ∈ o.blocks, m a ≠ none := by
  intro a ha
  cases o with
  | gone => simp [Obj.blocks] at ha
  | stack p d s => simp only [Obj.blocks, List.mem_cons, List.not_mem_nil, or_false] at ha; rcases ha with rfl | rfl <;> simp [g.1, g.2]
  | queue p o ns =>
    simp only [Obj.blocks, List.mem_cons] at ha
    rcases ha with rfl | ha
    · rw [g.1]; simp
    · exact Nodes.alloc g.2 a ha
  | ring p d s c e l o => simp only [Obj.blocks, List.mem_cons, List.not_mem_nil, or_false] at ha; rcases ha with rfl | rfl <;> simp [g.1, g.2]
  | iter p b n =>
    simp only [Obj.blocks, List.mem_cons, List.not_mem_nil, or_false] at ha
    subst ha
    have : m a = some (.iter b n) := g
    rw [this]; simp

theorem mem_blocks {os : List Obj} {o : Obj} (h : o ∈ os) {a : Nat} (ha : a ∈ o.blocks) : a ∈ blocks os :=
  List.mem_flatMap.mpr ⟨o, h, ha⟩

/-- Allocated is exactly what the objects are made of. -/
theorem Inv.iff {h : Heap} {os : List Obj} (i : Inv h os) (a : Nat) : h.mem a ≠ none ↔ a ∈ blocks os := by
  refine ⟨i.only a, fun ha => ?_⟩
  obtain ⟨o, ho, ha⟩ := List.mem_flatMap.mp ha
  exact (i.good o ho).alloc a ha

theorem Inv.perm {h : Heap} {a b : List Obj} (i : Inv h a) (e : a.Perm b) : Inv h b where
  good o ho := i.good o (e.mem_iff.mpr ho)
  nodup := (e.flatMap_right Obj.blocks).nodup_iff.mp i.nodup
  only x hx := (e.flatMap_right Obj.blocks).mem_iff.mp (i.only x hx)
  lt x hx := i.lt x ((e.flatMap_right Obj.blocks).mem_iff.mpr hx)

/-- Some objects are replaced by others. -/
theorem Inv.change {h : Heap} {A r : List Obj} (i : Inv h (A ++ r)) (B : List Obj) (m : Nat → Option Block) (n : Nat) (d : List Nat)
    (hm : ∀ a, a ∉ blocks A → a < h.next → m a = h.mem a) (hn : h.next ≤ n) (hg : ∀ o ∈ B, Good m o) (hnd : (blocks B).Nodup)
    (hb : ∀ a ∈ blocks B, a < n ∧ (a ∈ blocks A ∨ h.next ≤ a)) (ho : ∀ a, m a ≠ none → a ∈ blocks B ∨ (a ∉ blocks A ∧ a < h.next)) : Inv ⟨m, n, d⟩ (B ++ r) := by
  have hnd' := i.nodup
  rw [blocks_append, List.nodup_append] at hnd'
  have hr : ∀ a ∈ blocks r, a ∉ blocks A ∧ a < h.next := fun a ha => ⟨fun hA => hnd'.2.2 a hA a ha rfl, i.lt a (by simp [ha])⟩
  refine ⟨?_, ?_, ?_, ?_⟩
  · intro o hoB
    rcases List.mem_append.mp hoB with h1 | h1
    · exact hg o h1
    · exact (i.good o (by simp [h1])).congr fun a ha => hm a (hr a (mem_blocks h1 ha)).1 (hr a (mem_blocks h1 ha)).2
  · rw [blocks_append, List.nodup_append]
    refine ⟨hnd, hnd'.2.1, ?_⟩
    rintro a ha b hb' rfl
    rcases (hb a ha).2 with h1 | h1
    · exact (hr a hb').1 h1
    · have := (hr a hb').2; omega
  · intro a ha
    rw [blocks_append, List.mem_append]
    rcases ho a ha with h1 | ⟨h1, h2⟩
    · exact .inl h1
    · have : a ∈ blocks (A ++ r) := i.only a (by rw [← hm a h1 h2]; exact ha)
      rw [blocks_append, List.mem_append] at this
      exact .inr (this.resolve_left h1)
  · intro a ha
    rw [blocks_append, List.mem_append] at ha
    rcases ha with h1 | h1
    · exact (hb a h1).1
    · have : a < h.next := (hr a h1).2
      exact Nat.lt_of_lt_of_le this hn

theorem Inv.destr {h : Heap} {a : List Obj} (i : Inv h a) (d : List Nat) : Inv { h with destroyed := d } a := ⟨i.good, i.nodup, i.only, i.lt⟩

@[simp] theorem upd_same (m : Nat → Option Block) (a : Nat) (b : Option Block) : upd m a b a = b := by simp [upd]
theorem upd_ne (m : Nat → Option Block) {a x : Nat} (b : Option Block) (h : x ≠ a) : upd m a b x = m x := by simp [upd, h]

theorem store_eq {h : Heap} {a : Nat} {x : Block} (e : h.mem a = some x) (b : Block) : store h a b = some { h with mem := upd h.mem a (some b) } := by simp [store, e]
theorem free_eq {h : Heap} {a : Nat} {x : Block} (e : h.mem a = some x) : free h a = some { h with mem := upd h.mem a none } := by simp [free, e]

/-! ## Stacks -/

theorem stackNew_eq {h : Heap} {r : List Obj} (i : Inv h r) (c : Nat) (o : Bool) :
    ∃ h', stackNew h c o = some (h', h.next) ∧ Inv h' (.stack h.next (h.next + 1) (Stack.new c o) :: r) ∧ h'.destroyed = h.destroyed := by
  let cap := if c = 0 then 16 else c
  refine ⟨⟨upd (upd (upd h.mem h.next (some (.stack 0 0 0 false))) (h.next + 1) (some (.cells (List.replicate cap none)))) h.next (some (.stack (h.next + 1) 0 cap o)), h.next + 2, h.destroyed⟩, ?_, ?_, rfl⟩
  · simp only [stackNew, alloc]
    rw [store_eq (x := .stack 0 0 0 false) (by simp [upd])]
    rfl
  · have := Inv.change (A := []) (r := r) (h := h) (by simpa using i) [.stack h.next (h.next + 1) (Stack.new c o)]
      (upd (upd (upd h.mem h.next (some (.stack 0 0 0 false))) (h.next + 1) (some (.cells (List.replicate cap none)))) h.next (some (.stack (h.next + 1) 0 cap o))) (h.next + 2) h.destroyed
      (by intro a _ ha; simp [upd, show a ≠ h.next by omega, show a ≠ h.next + 1 by omega]) (by omega)
      (by simp [Good, Stack.new, upd, cap]) (by simp [Obj.blocks])
      (by intro a ha; simp [Obj.blocks] at ha; omega)
      (by
        intro a ha
        by_cases h1 : a = h.next
        · simp [Obj.blocks, h1]
        · by_cases h2 : a = h.next + 1
          · simp [Obj.blocks, h2]
          · right
            simp only [upd, h1, h2, if_false] at ha
            exact ⟨by simp, i.lt a (i.only a ha)⟩)
    exact this

theorem apart2 {p d : Nat} {h : Heap} {o : Obj} {r : List Obj} (i : Inv h (o :: r)) (e : o.blocks = [p, d]) : p ≠ d ∧ p < h.next ∧ d < h.next := by
  have h1 := i.nodup
  have h2 := i.lt p (by simp [e])
  have h3 := i.lt d (by simp [e])
  simp only [blocks_cons, e, List.cons_append, List.nil_append, List.nodup_cons, List.mem_cons, not_or] at h1
  exact ⟨h1.1.1, h2, h3⟩

/-- An object of two blocks rewritten in place. -/
theorem Inv.rewrite2 {h : Heap} {o o' : Obj} {r : List Obj} {p d : Nat} (i : Inv h (o :: r)) (e : o.blocks = [p, d]) (e' : o'.blocks = [p, d]) (b1 b2 : Block) (ds : List Nat)
    (hg : ∀ m, m p = some b1 → m d = some b2 → Good m o') : Inv ⟨upd (upd h.mem d (some b2)) p (some b1), h.next, ds⟩ (o' :: r) := by
  obtain ⟨h1, h2, h3⟩ := apart2 i e
  refine Inv.change (A := [o]) (r := r) (h := h) i [o'] _ h.next ds ?_ (Nat.le_refl _) ?_ ?_ ?_ ?_
  · intro a ha _
    simp only [blocks_cons, blocks_nil, List.append_nil, e, List.mem_cons, List.not_mem_nil, or_false, not_or] at ha
    simp [upd, ha.1, ha.2]
  · intro x hx
    rw [List.mem_singleton] at hx
    subst hx
    exact hg _ (by simp [upd]) (by simp [upd, h1.symm])
  · simp [e', h1]
  · intro a ha
    simp [e'] at ha
    simp [e]
    omega
  · intro a ha
    by_cases h4 : a = p
    · simp [e', h4]
    · by_cases h5 : a = d
      · simp [e', h5]
      · right
        simp only [upd, h4, h5, if_false] at ha
        exact ⟨by simp [e, h4, h5], i.lt a (i.only a ha)⟩

theorem stackAt_eq {h : Heap} {p d : Nat} {s : Stack.S Nat} (g : Good h.mem (.stack p d s)) : stackAt h p = some (d, s.size, s.capacity, s.hasDestroy) := by simp [stackAt, g.1]
theorem cellsAt_eq {h : Heap} {p d : Nat} {s : Stack.S Nat} (g : Good h.mem (.stack p d s)) : cellsAt h d = some s.data := by simp [cellsAt, g.2]

theorem stackSoftDestroy_eq {h : Heap} {p d : Nat} {s : Stack.S Nat} {r : List Obj} (i : Inv h (.stack p d s :: r)) :
    ∃ h', stackSoftDestroy h p = some h' ∧ Inv h' (.gone :: r) ∧ h'.destroyed = h.destroyed := by
  have g := i.good _ List.mem_cons_self
  obtain ⟨h1, h2, h3⟩ := apart2 i rfl
  refine ⟨⟨upd (upd h.mem d none) p none, h.next, h.destroyed⟩, ?_, ?_, rfl⟩
  · rw [stackSoftDestroy, stackAt_eq g]
    simp only [Option.bind_eq_bind, Option.bind_some]
    rw [free_eq g.2]
    simp only [Option.bind_some]
    rw [free_eq (x := .stack d s.size s.capacity s.hasDestroy) (by simp only [upd_ne _ _ h1]; exact g.1)]
  · refine Inv.change (A := [.stack p d s]) (r := r) (h := h) i [.gone] _ h.next _ ?_ (Nat.le_refl _) (by simp [Good]) (by simp [Obj.blocks]) (by simp [Obj.blocks]) ?_
    · intro a ha _
      simp [Obj.blocks] at ha
      simp [upd, ha.1, ha.2]
    · intro a ha
      by_cases h4 : a = p
      · simp [upd, h4] at ha
      · by_cases h5 : a = d
        · simp [upd, h5] at ha
        · right
          simp only [upd, h4, h5, if_false] at ha
          exact ⟨by simp [Obj.blocks, h4, h5], i.lt a (i.only a ha)⟩

theorem destroyCells_eq {d : Nat} {c : List (Option Nat)} : ∀ (n k : Nat) (h : Heap) (l : List Nat), h.mem d = some (.cells c) → CMem.getRange c k n = some l →
    destroyCells d h k n = some { h with destroyed := h.destroyed ++ l } := by
  intro n
  induction n with
  | zero => intro k h l _ e; simp only [CMem.getRange, Option.some.injEq] at e; subst e; simp [destroyCells]
  | succ n ih =>
    intro k h l hm e
    simp only [CMem.getRange, Option.bind_eq_bind, Option.bind_eq_some_iff] at e
    obtain ⟨x, e1, l', e2, e3⟩ := e
    simp only [Option.some.injEq] at e3
    subst e3
    simp only [destroyCells, cellsAt, hm, e1, Option.bind_eq_bind, Option.bind_some]
    rw [ih (k + 1) (kill h x) l' hm e2]
    simp [kill]

theorem stackDestroy_eq {h : Heap} {p d : Nat} {s : Stack.S Nat} {r : List Obj} (i : Inv h (.stack p d s :: r)) {l : List Nat} (hl : Stack.Rep s l) :
    ∃ h', stackDestroy h p = some h' ∧ Inv h' (.gone :: r) ∧ h'.destroyed = h.destroyed ++ ContHeapSpec.kill s.hasDestroy l.reverse := by
  have g := i.good _ List.mem_cons_self
  have hd := Stack.destroy_spec hl
  have hle := hl.le
  have hs := hl.size
  obtain ⟨h', e, i', e'⟩ := stackSoftDestroy_eq (i.destr (h.destroyed ++ ContHeapSpec.kill s.hasDestroy l.reverse))
  refine ⟨h', ?_, i', e'⟩
  rw [stackDestroy, stackAt_eq g]
  simp only [Option.bind_eq_bind, Option.bind_some]
  rw [if_neg (by omega)]
  by_cases ho : s.hasDestroy = true
  · simp only [Stack.destroy, Stack.destroyRange, ho, if_true, Nat.sub_zero] at hd
    rw [if_neg (by omega)] at hd
    rw [if_pos ho, destroyCells_eq _ _ h _ g.2 hd]
    simp only [Option.bind_some]
    simpa [ContHeapSpec.kill, ho] using e
  · rw [if_neg ho]
    simpa [ContHeapSpec.kill, ho] using e

theorem stackPop_eq {h : Heap} {p d : Nat} {s : Stack.S Nat} {r : List Obj} (i : Inv h (.stack p d s :: r)) {s' : Stack.S Nat} {x : Option Nat} (hs : Stack.pop s = some (s', x)) :
    ∃ h', stackPop h p = some (h', x.getD 0) ∧ Inv h' (.stack p d s' :: r) ∧ h'.destroyed = h.destroyed := by
  have g := i.good _ List.mem_cons_self
  obtain ⟨h1, h2, h3⟩ := apart2 i rfl
  unfold Stack.pop at hs
  rw [stackPop, stackAt_eq g]
  simp only [Option.bind_eq_bind, Option.bind_some]
  split at hs
  · rename_i h0
    simp only [Option.bind_eq_bind, Option.bind_eq_some_iff] at hs
    obtain ⟨y, e1, c, e2, e3⟩ := hs
    simp only [Option.some.injEq, Prod.mk.injEq] at e3
    obtain ⟨rfl, rfl⟩ := e3
    rw [if_pos h0, cellsAt_eq g]
    simp only [Option.bind_some, e1, e2]
    rw [store_eq g.2]
    simp only [Option.bind_some]
    rw [store_eq (x := .stack d s.size s.capacity s.hasDestroy) (by simp only [upd_ne _ _ h1]; exact g.1)]
    refine ⟨_, rfl, ?_, rfl⟩
    exact Inv.rewrite2 i rfl rfl _ _ _ fun m a b => ⟨a, b⟩
  · rename_i h0
    simp only [Option.some.injEq, Prod.mk.injEq] at hs
    obtain ⟨rfl, rfl⟩ := hs
    rw [if_neg h0]
    exact ⟨h, rfl, i, rfl⟩

theorem stackTop_eq {h : Heap} {p d : Nat} {s : Stack.S Nat} {r : List Obj} (i : Inv h (.stack p d s :: r)) {x : Option Nat} (hs : Stack.top s = some x) :
    stackTop h p = some (x.getD 0) := by
  have g := i.good _ List.mem_cons_self
  unfold Stack.top at hs
  rw [stackTop, stackAt_eq g]
  simp only [Option.bind_eq_bind, Option.bind_some, cellsAt_eq g]
  split at hs
  · rename_i h0
    rw [if_pos h0]
    simp only [Option.map_eq_some_iff] at hs
    obtain ⟨y, e, rfl⟩ := hs
    simp [e]
  · rename_i h0
    simp only [Option.some.injEq] at hs
    subst hs
    rw [if_neg h0]; rfl

theorem stackExpand_eq {h : Heap} {p d : Nat} {s : Stack.S Nat} {r : List Obj} (i : Inv h (.stack p d s :: r)) (hle : s.size ≤ s.capacity) :
    ∃ h' d', stackExpand h p = some h' ∧ Inv h' (.stack p d' (Stack.expand s) :: r) ∧ h'.destroyed = h.destroyed := by
  have g := i.good _ List.mem_cons_self
  obtain ⟨h1, h2, h3⟩ := apart2 i rfl
  rw [stackExpand, stackAt_eq g]
  simp only [Option.bind_eq_bind, Option.bind_some]
  rw [if_pos hle]
  by_cases hf : s.size = s.capacity
  · rw [if_pos hf, cellsAt_eq g]
    simp only [Option.bind_some, alloc]
    rw [free_eq (x := .cells s.data) (by simp only [upd_ne _ _ (show d ≠ h.next by omega)]; exact g.2)]
    simp only [Option.bind_some]
    rw [store_eq (x := .stack d s.size s.capacity s.hasDestroy) (by simp only [upd_ne _ _ h1, upd_ne _ _ (show p ≠ h.next by omega)]; exact g.1)]
    refine ⟨_, h.next, rfl, ?_, rfl⟩
    refine Inv.change (A := [.stack p d s]) (r := r) (h := h) i [_] _ (h.next + 1) _ ?_ (by omega) ?_ ?_ ?_ ?_
    · intro a ha ha'
      simp [Obj.blocks] at ha
      simp [upd, ha.1, ha.2, show a ≠ h.next by omega]
    · intro x hx
      rw [List.mem_singleton] at hx
      subst hx
      simp [Good, upd, Stack.expand, hf, show h.next ≠ p by omega, show h.next ≠ d by omega]
    · simp [Obj.blocks]; omega
    · intro a ha
      simp [Obj.blocks] at ha ⊢
      omega
    · intro a ha
      by_cases h4 : a = p
      · simp [Obj.blocks, h4]
      · by_cases h5 : a = d
        · simp [upd, h5, h1.symm] at ha
        · by_cases h6 : a = h.next
          · simp [Obj.blocks, h6]
          · right
            simp only [upd, h4, h5, h6, if_false] at ha
            exact ⟨by simp [Obj.blocks, h4, h5], i.lt a (i.only a ha)⟩
  · rw [if_neg hf]
    exact ⟨h, d, rfl, by rwa [show Stack.expand s = s by simp [Stack.expand, hf]], rfl⟩

theorem stackPush_eq {h : Heap} {p d : Nat} {s : Stack.S Nat} {r : List Obj} (i : Inv h (.stack p d s :: r)) (hle : s.size ≤ s.capacity) (x : Nat) {s' : Stack.S Nat}
    (hs : Stack.push s x = some s') : ∃ h' d', stackPush h p x = some (h', s'.size) ∧ Inv h' (.stack p d' s' :: r) ∧ h'.destroyed = h.destroyed := by
  obtain ⟨h0, d', e0, i0, k0⟩ := stackExpand_eq i hle
  have g := i0.good _ List.mem_cons_self
  obtain ⟨h1, h2, h3⟩ := apart2 i0 rfl
  simp only [Stack.push, Option.bind_eq_bind, Option.bind_eq_some_iff] at hs
  obtain ⟨c, e2, e3⟩ := hs
  simp only [Option.some.injEq] at e3
  subst e3
  simp only [stackPush, e0, Option.bind_eq_bind, Option.bind_some, stackAt_eq g, cellsAt_eq g, e2]
  rw [store_eq g.2]
  simp only [Option.bind_some]
  rw [store_eq (x := .stack d' (Stack.expand s).size (Stack.expand s).capacity (Stack.expand s).hasDestroy) (by simp only [upd_ne _ _ h1]; exact g.1)]
  exact ⟨_, d', rfl, Inv.rewrite2 i0 rfl rfl _ _ _ fun m a b => ⟨a, b⟩, k0⟩

theorem stackCopy_eq {h : Heap} {p d : Nat} {s : Stack.S Nat} {r : List Obj} (i : Inv h (.stack p d s :: r)) {s' : Stack.S Nat} (hs : Stack.copy s = some s') :
    ∃ h' p' d', stackCopy h p = some (h', p') ∧ Inv h' (.stack p' d' s' :: .stack p d s :: r) ∧ h'.destroyed = h.destroyed := by
  have g := i.good _ List.mem_cons_self
  obtain ⟨h1, h2, h3⟩ := apart2 i rfl
  simp only [Stack.copy, Option.bind_eq_bind, Option.bind_eq_some_iff] at hs
  obtain ⟨c, e2, e3⟩ := hs
  simp only [Option.some.injEq] at e3
  subst e3
  rw [stackCopy, stackAt_eq g]
  simp only [Option.bind_eq_bind, Option.bind_some, alloc]
  rw [store_eq (x := .stack d s.size s.capacity s.hasDestroy) (by simp [upd])]
  simp only [Option.bind_some, cellsAt]
  have hc : (upd (upd (upd h.mem h.next (some (.stack d s.size s.capacity s.hasDestroy))) (h.next + 1) (some (.cells (List.replicate s.capacity none)))) h.next
      (some (.stack (h.next + 1) s.size s.capacity s.hasDestroy))) d = some (.cells s.data) := by
    simp only [upd_ne _ _ (show d ≠ h.next by omega), upd_ne _ _ (show d ≠ h.next + 1 by omega)]
    exact g.2
  simp only [hc, Option.bind_some, e2]
  rw [store_eq (x := .cells (List.replicate s.capacity none)) (by simp [upd])]
  refine ⟨_, h.next, h.next + 1, rfl, ?_, rfl⟩
  refine Inv.change (A := []) (r := .stack p d s :: r) (h := h) i [_] _ (h.next + 2) _ ?_ (by omega) ?_ ?_ ?_ ?_
  · intro a _ ha'
    simp [upd, show a ≠ h.next by omega, show a ≠ h.next + 1 by omega]
  · intro x hx
    rw [List.mem_singleton] at hx
    subst hx
    simp [Good, upd]
  · simp [Obj.blocks]
  · intro a ha
    simp [Obj.blocks] at ha ⊢
    omega
  · intro a ha
    by_cases h4 : a = h.next
    · simp [Obj.blocks, h4]
    · by_cases h5 : a = h.next + 1
      · simp [Obj.blocks, h5]
      · right
        simp only [upd, h4, h5, if_false] at ha
        exact ⟨by simp, i.lt a (i.only a ha)⟩

/-! ## Queues -/

theorem queueNew_eq {h : Heap} {r : List Obj} (i : Inv h r) (o : Bool) :
    (queueNew h o).2 = h.next ∧ Inv (queueNew h o).1 (.queue h.next o [] :: r) ∧ (queueNew h o).1.destroyed = h.destroyed := by
  refine ⟨rfl, ?_, rfl⟩
  refine Inv.change (A := []) (r := r) (h := h) i [_] _ (h.next + 1) _ ?_ (by omega) ?_ ?_ ?_ ?_
  · intro a _ ha'
    simp [upd, show a ≠ h.next by omega]
  · intro x hx
    rw [List.mem_singleton] at hx
    subst hx
    simp [Good, upd, Nodes]
  · simp [Obj.blocks]
  · intro a ha
    simp [Obj.blocks] at ha ⊢
    omega
  · intro a ha
    by_cases h4 : a = h.next
    · simp [Obj.blocks, h4]
    · right
      simp only [upd, h4, if_false] at ha
      exact ⟨by simp, i.lt a (i.only a ha)⟩

theorem nodes_snoc {m : Nat → Option Block} {t y : Nat} : ∀ {l : List (Nat × Nat)} {prev : Option Nat}, Nodes m prev (l ++ [(t, y)]) →
    ∃ b, m t = some (.node y none b) ∧ ∀ m' a x, m' t = some (.node y (some a) b) → m' a = some (.node x none (some t)) → (∀ c ∈ l.map Prod.fst, m' c = m c) →
      Nodes m' prev (l ++ [(t, y), (a, x)]) := by
  intro l
  induction l with
  | nil =>
    intro prev h
    exact ⟨prev, h.1, fun m' a x h1 h2 _ => ⟨h1, h2, trivial⟩⟩
  | cons z l ih =>
    obtain ⟨c, z⟩ := z
    intro prev h
    obtain ⟨b, h1, h2⟩ := ih h.2
    refine ⟨b, h1, fun m' a x g1 g2 g3 => ⟨?_, h2 m' a x g1 g2 fun c hc => g3 c (by simp only [List.map_cons, List.mem_cons]; exact .inr hc)⟩⟩
    rw [g3 c (by simp), h.1]
    cases l <;> rfl

theorem queueAt_eq {h : Heap} {p : Nat} {o : Bool} {ns : List (Nat × Nat)} (g : Good h.mem (.queue p o ns)) :
    queueAt h p = some (ns.length, o, ns.head?.map Prod.fst, ns.getLast?.map Prod.fst) := by simp [queueAt, g.1]

theorem queue_apart {h : Heap} {p : Nat} {o : Bool} {ns : List (Nat × Nat)} {r : List Obj} (i : Inv h (.queue p o ns :: r)) :
    p ∉ ns.map Prod.fst ∧ (ns.map Prod.fst).Nodup ∧ p < h.next ∧ ∀ a ∈ ns.map Prod.fst, a < h.next := by
  have h1 := i.nodup
  simp only [blocks_cons, Obj.blocks] at h1
  rw [List.nodup_append] at h1
  obtain ⟨h1, -, -⟩ := h1
  rw [List.nodup_cons] at h1
  exact ⟨h1.1, h1.2, i.lt p (by simp [Obj.blocks]), fun a ha => i.lt a (by simp only [blocks_cons, Obj.blocks, List.cons_append, List.mem_cons, List.mem_append]; exact .inr (.inl ha))⟩

theorem enqueue_eq {h : Heap} {p : Nat} {o : Bool} {ns : List (Nat × Nat)} {r : List Obj} (i : Inv h (.queue p o ns :: r)) (x : Nat) :
    ∃ h', enqueue h p x = some h' ∧ Inv h' (.queue p o (ns ++ [(h.next, x)]) :: r) ∧ h'.destroyed = h.destroyed := by
  have g := i.good _ List.mem_cons_self
  obtain ⟨h1, h2, h3, h4⟩ := queue_apart i
  simp only [enqueue, alloc]
  have hq : queueAt ⟨upd h.mem h.next (some (.node x none none)), h.next + 1, h.destroyed⟩ p = some (ns.length, o, ns.head?.map Prod.fst, ns.getLast?.map Prod.fst) := by
    simp [queueAt, upd_ne _ _ (show p ≠ h.next by omega), g.1]
  rw [hq]
  simp only [Option.bind_eq_bind, Option.bind_some]
  rcases List.eq_nil_or_concat ns with rfl | ⟨l, ⟨t, y⟩, e⟩
  · simp only [List.getLast?_nil, Option.map_none, List.length_nil, List.nil_append]
    rw [store_eq (x := .queue 0 o none none) (by simp only [upd_ne _ _ (show p ≠ h.next by omega)]; exact g.1)]
    refine ⟨_, rfl, ?_, rfl⟩
    refine Inv.change (A := [.queue p o []]) (r := r) (h := h) i [_] _ (h.next + 1) _ ?_ (by omega) ?_ ?_ ?_ ?_
    · intro a ha ha'
      simp [Obj.blocks] at ha
      simp [upd, ha, show a ≠ h.next by omega]
    · intro x hx
      rw [List.mem_singleton] at hx
      subst hx
      simp [Good, upd, Nodes, show h.next ≠ p by omega]
    · simp [Obj.blocks]; omega
    · intro a ha
      simp [Obj.blocks] at ha ⊢
      omega
    · intro a ha
      by_cases h5 : a = h.next
      · simp [Obj.blocks, h5]
      · by_cases h6 : a = p
        · simp [Obj.blocks, h6]
        · right
          simp only [upd, h5, h6, if_false] at ha
          exact ⟨by simp [Obj.blocks, h6], i.lt a (i.only a ha)⟩
  · rw [List.concat_eq_append] at e
    subst e
    have gn : Nodes h.mem none (l ++ [(t, y)]) := g.2
    obtain ⟨b, hb, hs⟩ := nodes_snoc gn
    have ht : t < h.next := h4 t (by simp)
    have htp : t ≠ p := fun e => h1 (by simp [e])
    have htl : t ∉ l.map Prod.fst := by
      intro hx
      rw [List.map_append, List.nodup_append] at h2
      exact h2.2.2 t hx t (by simp) rfl
    have hl : ∀ c ∈ l.map Prod.fst, c < h.next ∧ c ≠ p ∧ c ≠ t := fun c hc =>
      ⟨h4 c (by rw [List.map_append, List.mem_append]; exact .inl hc), fun e => h1 (by rw [List.map_append, List.mem_append, ← e]; exact .inl hc), fun e => htl (e ▸ hc)⟩
    simp only [List.getLast?_append, List.getLast?_singleton, Option.some_or, Option.map_some]
    have n1 : nodeAt ⟨upd h.mem h.next (some (.node x none none)), h.next + 1, h.destroyed⟩ t = some (y, none, b) := by
      simp [nodeAt, upd_ne _ _ (show t ≠ h.next by omega), hb]
    simp only [n1, Option.bind_some]
    rw [store_eq (x := .node y none b) (by simp only [upd_ne _ _ (show t ≠ h.next by omega)]; exact hb)]
    simp only [Option.bind_some, nodeAt, upd_ne _ _ (show h.next ≠ t by omega), upd_same]
    rw [store_eq (x := .node x none none) (by simp only [upd_ne _ _ (show h.next ≠ t by omega), upd_same])]
    simp only [Option.bind_some]
    rw [store_eq (x := .queue (l ++ [(t, y)]).length o ((l ++ [(t, y)]).head?.map Prod.fst) (some t))
      (by simp only [upd_ne _ _ (show p ≠ h.next by omega), upd_ne _ _ htp.symm]; simpa using g.1)]
    refine ⟨_, rfl, ?_, rfl⟩
    refine Inv.change (A := [.queue p o (l ++ [(t, y)])]) (r := r) (h := h) i [_] _ (h.next + 1) _ ?_ (by omega) ?_ ?_ ?_ ?_
    · intro a ha ha'
      simp only [blocks_cons, blocks_nil, Obj.blocks, List.append_nil, List.mem_cons, List.map_append, List.mem_append, List.map_cons, List.map_nil, List.not_mem_nil, or_false, not_or] at ha
      simp [upd, ha.1, ha.2.2, show a ≠ h.next by omega]
    · intro z hz
      rw [List.mem_singleton] at hz
      subst hz
      refine ⟨?_, ?_⟩
      · simp [upd, List.head?_append]
      · rw [List.append_assoc]
        refine hs _ _ _ ?_ ?_ ?_
        · simp [upd, htp, show t ≠ h.next by omega]
        · simp [upd, show h.next ≠ p by omega]
        · intro c hc
          obtain ⟨c1, c2, c3⟩ := hl c hc
          simp [upd, c2, c3, show c ≠ h.next by omega]
    · simp only [blocks_cons, blocks_nil, Obj.blocks, List.append_nil, List.map_append (l₁ := l ++ [(t, y)]), List.map_cons, List.map_nil, List.nodup_cons, List.mem_append, List.mem_singleton, not_or]
      refine ⟨⟨h1, by omega⟩, ?_⟩
      rw [List.nodup_append]
      refine ⟨h2, by simp, ?_⟩
      intro a ha c hc
      rw [List.mem_singleton] at hc
      have := h4 a ha
      omega
    · intro a ha
      simp only [blocks_cons, blocks_nil, Obj.blocks, List.append_nil, List.map_append (l₁ := l ++ [(t, y)]), List.map_cons, List.map_nil, List.mem_cons, List.mem_append, List.mem_singleton, List.not_mem_nil, or_false] at ha ⊢
      rcases ha with rfl | ha | rfl
      · exact ⟨by omega, by simp⟩
      · have := h4 a ha
        exact ⟨by omega, .inl (.inr ha)⟩
      · exact ⟨by omega, .inr (Nat.le_refl _)⟩
    · intro a ha
      simp only [blocks_cons, blocks_nil, Obj.blocks, List.append_nil, List.map_append, List.map_cons, List.map_nil, List.mem_cons, List.mem_append, List.mem_singleton, List.not_mem_nil, or_false, not_or]
      by_cases h5 : a = h.next
      · exact .inl (.inr (.inr h5))
      · by_cases h6 : a = p
        · exact .inl (.inl h6)
        · by_cases h7 : a = t
          · exact .inl (.inr (.inl (.inr h7)))
          · by_cases h8 : a ∈ l.map Prod.fst
            · exact .inl (.inr (.inl (.inl h8)))
            · right
              simp only [upd, h5, h6, h7, if_false] at ha
              exact ⟨⟨h6, h8, h7⟩, i.lt a (i.only a ha)⟩

theorem queueHead_eq {h : Heap} {p : Nat} {o : Bool} {a x : Nat} {ns : List (Nat × Nat)} {r : List Obj} (i : Inv h (.queue p o ((a, x) :: ns) :: r)) : queueHead h p = some x := by
  have g := i.good _ List.mem_cons_self
  rw [queueHead, queueAt_eq g]
  simp [nodeAt, g.2.1]

theorem dequeue_eq {h : Heap} {p : Nat} {o : Bool} {a x : Nat} {ns : List (Nat × Nat)} {r : List Obj} (i : Inv h (.queue p o ((a, x) :: ns) :: r)) :
    ∃ h', dequeue h p = some (h', x) ∧ Inv h' (.queue p o ns :: r) ∧ h'.destroyed = h.destroyed := by
  have g := i.good _ List.mem_cons_self
  obtain ⟨h1, h2, h3, h4⟩ := queue_apart i
  simp only [List.map_cons, List.mem_cons, not_or, List.nodup_cons] at h1 h2 h4
  have key : ∀ m', (∀ c, c ≠ p → c ∉ ((a, x) :: ns).map Prod.fst → m' c = h.mem c) → m' a = none → Good m' (.queue p o ns) → Inv ⟨m', h.next, h.destroyed⟩ (.queue p o ns :: r) := by
    intro m' k1 k2 k3
    refine Inv.change (A := [.queue p o ((a, x) :: ns)]) (r := r) (h := h) i [_] _ h.next _ ?_ (Nat.le_refl _) ?_ ?_ ?_ ?_
    · intro c hc _
      simp only [blocks_cons, blocks_nil, Obj.blocks, List.append_nil, List.mem_cons, not_or] at hc
      exact k1 c hc.1 hc.2
    · intro z hz
      rw [List.mem_singleton] at hz
      subst hz
      exact k3
    · simp only [blocks_cons, blocks_nil, Obj.blocks, List.append_nil, List.nodup_cons]
      exact ⟨h1.2, h2.2⟩
    · intro c hc
      simp only [blocks_cons, blocks_nil, Obj.blocks, List.append_nil, List.mem_cons, List.map_cons] at hc ⊢
      rcases hc with rfl | hc
      · exact ⟨h3, .inl (.inl rfl)⟩
      · exact ⟨h4 c (.inr hc), .inl (.inr (.inr hc))⟩
    · intro c hc
      simp only [blocks_cons, blocks_nil, Obj.blocks, List.append_nil, List.mem_cons, List.map_cons, not_or]
      by_cases e1 : c = p
      · exact .inl (.inl e1)
      · by_cases e2 : c ∈ ns.map Prod.fst
        · exact .inl (.inr e2)
        · by_cases e3 : c = a
          · exact absurd (e3 ▸ k2) hc
          · refine .inr ⟨⟨e1, e3, e2⟩, ?_⟩
            rw [k1 c e1 (by simp only [List.map_cons, List.mem_cons, not_or]; exact ⟨e3, e2⟩)] at hc
            exact i.lt c (i.only c hc)
  rw [dequeue, queueAt_eq g]
  simp only [Option.bind_eq_bind, Option.bind_some, List.head?_cons, Option.map_some]
  have na : nodeAt h a = some (x, ns.head?.map Prod.fst, none) := by simp [nodeAt, g.2.1]
  rw [na]
  simp only [Option.bind_some]
  cases ns with
  | nil =>
    simp only [List.head?_nil, Option.map_none]
    rw [store_eq g.1]
    simp only [Option.bind_some]
    rw [free_eq (x := .node x none none) (by simp only [upd_ne _ _ (show a ≠ p from fun e => h1.1 e.symm)]; exact g.2.1)]
    refine ⟨_, rfl, key _ ?_ (by simp [upd]) ⟨?_, trivial⟩, rfl⟩
    · intro c k1 k2
      simp at k2
      simp [upd, k1, k2]
    · simp [upd, h1.1]
  | cons z l =>
    obtain ⟨b, y⟩ := z
    simp only [List.map_cons, List.mem_cons, not_or, List.nodup_cons] at h1 h2 h4
    simp only [List.head?_cons, Option.map_some]
    have nb : nodeAt h b = some (y, l.head?.map Prod.fst, some a) := by simp [nodeAt, g.2.2.1]
    rw [nb]
    simp only [Option.bind_some]
    rw [store_eq g.2.2.1]
    simp only [Option.bind_some]
    rw [store_eq (by simp only [upd_ne _ _ h1.2.1]; exact g.1)]
    simp only [Option.bind_some]
    rw [free_eq (by simp only [upd_ne _ _ (show a ≠ p from fun e => h1.1 e.symm), upd_ne _ _ h2.1.1]; exact g.2.1)]
    refine ⟨_, rfl, key _ ?_ (by simp [upd]) ⟨?_, ?_, ?_⟩, rfl⟩
    · intro c k1 k2
      simp only [List.map_cons, List.mem_cons, not_or] at k2
      simp [upd, k1, k2.1, k2.2.1]
    · simp [upd, h1.1, List.getLast?_cons_cons]
    · simp [upd, Ne.symm h1.2.1, Ne.symm h2.1.1]
    · refine Nodes.congr ?_ g.2.2.2
      intro c hc
      have c1 : c ≠ p := fun e => h1.2.2 (e ▸ hc)
      have c2 : c ≠ a := fun e => h2.1.2 (e ▸ hc)
      have c3 : c ≠ b := fun e => h2.2.1 (e ▸ hc)
      simp [upd, c1, c2, c3]

theorem queueDestroyLoop_eq (o : Bool) : ∀ (ns : List (Nat × Nat)) (fuel : Nat) (h : Heap) (prev : Option Nat), Nodes h.mem prev ns → (ns.map Prod.fst).Nodup → ns.length ≤ fuel →
    ∃ h', queueDestroyLoop o fuel h (ns.head?.map Prod.fst) = some (some h') ∧ h'.destroyed = h.destroyed ++ ContHeapSpec.kill o (ns.map Prod.snd) ∧ h'.next = h.next ∧
      (∀ a ∈ ns.map Prod.fst, h'.mem a = none) ∧ ∀ a, a ∉ ns.map Prod.fst → h'.mem a = h.mem a := by
  intro ns
  induction ns with
  | nil =>
    intro fuel h prev _ _ _
    refine ⟨h, by cases fuel <;> rfl, ?_, rfl, by simp, by simp⟩
    simp [ContHeapSpec.kill]
  | cons z l ih =>
    obtain ⟨a, x⟩ := z
    intro fuel h prev hn hd hf
    simp only [List.length_cons] at hf
    obtain ⟨fuel, rfl⟩ : ∃ k, fuel = k + 1 := ⟨fuel - 1, by omega⟩
    simp only [List.map_cons, List.nodup_cons] at hd
    let h1 : Heap := if o then kill h x else h
    have hm : h1.mem = h.mem := by simp only [h1]; split <;> rfl
    have hx : h1.next = h.next := by simp only [h1]; split <;> rfl
    have hds : h1.destroyed = h.destroyed ++ ContHeapSpec.kill o [x] := by simp only [h1, ContHeapSpec.kill]; split <;> simp [kill]
    obtain ⟨h', e1, e2, e3, e4, e5⟩ := ih fuel { h1 with mem := upd h1.mem a none } (some a) (by
      refine Nodes.congr ?_ hn.2
      intro c hc
      rw [hm]
      exact upd_ne _ _ fun e => hd.1 (e ▸ hc)) hd.2 (by omega)
    refine ⟨h', ?_, ?_, e3.trans hx, ?_, ?_⟩
    · have na : nodeAt h a = some (x, l.head?.map Prod.fst, prev) := by simp [nodeAt, hn.1]
      simp only [List.head?_cons, Option.map_some, queueDestroyLoop, na, Option.bind_eq_bind, Option.bind_some]
      show (free h1 a >>= fun h => queueDestroyLoop o fuel h _) = _
      rw [free_eq (by rw [hm]; exact hn.1)]
      exact e1
    · rw [e2]
      show h1.destroyed ++ _ = _
      rw [hds]
      cases o <;> simp [ContHeapSpec.kill]
    · intro c hc
      simp only [List.map_cons, List.mem_cons] at hc
      by_cases h6 : c ∈ l.map Prod.fst
      · exact e4 c h6
      · rcases hc with rfl | hc
        · rw [e5 c h6]; simp
        · exact absurd hc h6
    · intro c hc
      simp only [List.map_cons, List.mem_cons, not_or] at hc
      rw [e5 c hc.2]
      show upd h1.mem a none c = _
      rw [upd_ne _ _ hc.1, hm]

theorem queueDestroy_eq {h : Heap} {p : Nat} {o : Bool} {ns : List (Nat × Nat)} {r : List Obj} (i : Inv h (.queue p o ns :: r)) :
    ∃ h', queueDestroy h p = some (some h') ∧ Inv h' (.gone :: r) ∧ h'.destroyed = h.destroyed ++ ContHeapSpec.kill o (ns.map Prod.snd) := by
  have g := i.good _ List.mem_cons_self
  obtain ⟨h1, h2, h3, h4⟩ := queue_apart i
  obtain ⟨h', e1, e2, e3, e4, e5⟩ := queueDestroyLoop_eq o ns (ns.length + 1) h none g.2 h2 (by omega)
  rw [queueDestroy, queueAt_eq g]
  simp only [Option.bind_eq_bind, Option.bind_some, e1]
  rw [free_eq (by rw [e5 p h1]; exact g.1)]
  refine ⟨_, rfl, ?_, e2⟩
  have := Inv.change (A := [.queue p o ns]) (r := r) (h := h) i [.gone] (upd h'.mem p none) h.next h'.destroyed ?_ (Nat.le_refl _) (by simp [Good]) (by simp [Obj.blocks]) (by simp [Obj.blocks]) ?_
  · rw [e3]; exact this
  · intro a ha _
    simp only [blocks_cons, blocks_nil, Obj.blocks, List.append_nil, List.mem_cons, not_or] at ha
    rw [upd_ne _ _ ha.1, e5 a ha.2]
  · intro a ha
    simp only [blocks_cons, blocks_nil, Obj.blocks, List.append_nil, List.mem_cons, List.not_mem_nil, not_or, false_or]
    by_cases h5 : a = p
    · simp [upd, h5] at ha
    · rw [upd_ne _ _ h5] at ha
      by_cases h6 : a ∈ ns.map Prod.fst
      · exact absurd (e4 a h6) ha
      · rw [e5 a h6] at ha
        exact ⟨⟨h5, h6⟩, i.lt a (i.only a ha)⟩

/-! ## Ring buffers -/

/-- A pointer that may be NULL. -/
def opt (x : Nat) : Option Nat := if x = 0 then none else some x

theorem opt_getD (x : Nat) : (opt x).getD 0 = x := by unfold opt; split <;> simp [*]
theorem opt_toList (x : Nat) : (opt x).toList = [x].filter (· ≠ 0) := by unfold opt; by_cases h : x = 0 <;> simp [h]
theorem filterMap_opt (l : List Nat) : (l.map opt).filterMap id = l.filter (· ≠ 0) := by
  induction l with
  | nil => rfl
  | cons x l ih => by_cases h : x = 0 <;> simp_all [opt]

def buf (s : List Nat) (c e l : Nat) (o : Bool) : RingBuffer.Buf Nat := ⟨o, id, s.map opt, c, e, l⟩

theorem ringAt_eq {h : Heap} {p d c e l : Nat} {s : List Nat} {o : Bool} (g : Good h.mem (.ring p d s c e l o)) : ringAt h p = some (d, c, e, l, o) := by simp [ringAt, g.1]
theorem slotsAt_eq {h : Heap} {p d c e l : Nat} {s : List Nat} {o : Bool} (g : Good h.mem (.ring p d s c e l o)) : slotsAt h d = some s := by simp [slotsAt, g.2]

theorem ringNew_eq {h : Heap} {r : List Obj} (i : Inv h r) (c : Nat) (hc : 0 < c) (o : Bool) :
    ∃ h', ringNew h c o = some (h', h.next) ∧ Inv h' (.ring h.next (h.next + 1) (List.replicate c 0) c 0 0 o :: r) ∧ h'.destroyed = h.destroyed := by
  have hmax : max c 1 = c := by omega
  refine ⟨⟨upd (upd (upd h.mem h.next (some (.ring 0 0 0 0 false))) (h.next + 1) (some (.slots (List.replicate c 0)))) h.next (some (.ring (h.next + 1) c 0 0 o)), h.next + 2, h.destroyed⟩, ?_, ?_, rfl⟩
  · simp only [ringNew, alloc]
    rw [if_pos hc, store_eq (x := .ring 0 0 0 0 false) (by simp [upd]), hmax]
    rfl
  · refine Inv.change (A := []) (r := r) (h := h) i [_] _ (h.next + 2) _ ?_ (by omega) ?_ ?_ ?_ ?_
    · intro a _ ha'
      simp [upd, show a ≠ h.next by omega, show a ≠ h.next + 1 by omega]
    · intro x hx
      rw [List.mem_singleton] at hx
      subst hx
      simp [Good, upd]
    · simp [Obj.blocks]
    · intro a ha
      simp [Obj.blocks] at ha ⊢
      omega
    · intro a ha
      by_cases h4 : a = h.next
      · simp [Obj.blocks, h4]
      · by_cases h5 : a = h.next + 1
        · simp [Obj.blocks, h5]
        · right
          simp only [upd, h4, h5, if_false] at ha
          exact ⟨by simp, i.lt a (i.only a ha)⟩

theorem ringAppend_eq {h : Heap} {p d c e l : Nat} {s : List Nat} {o : Bool} {r : List Obj} (i : Inv h (.ring p d s c e l o :: r)) (x : Nat) {b' : RingBuffer.Buf Nat} {ds : List Nat}
    (hb : RingBuffer.append (buf s c e l o) (opt x) = some (b', ds)) :
    ∃ h' s' e' l', ringAppend h p x = some h' ∧ b' = buf s' c e' l' o ∧ Inv h' (.ring p d s' c e' l' o :: r) ∧ h'.destroyed = h.destroyed ++ ds := by
  have g := i.good _ List.mem_cons_self
  obtain ⟨h1, h2, h3⟩ := apart2 i rfl
  simp only [RingBuffer.append, buf, CMem.read, CMem.write, List.length_map, List.getElem?_map, Option.bind_eq_bind, Option.bind_eq_some_iff, Option.map_eq_some_iff, id, Option.map_id_fun'] at hb
  obtain ⟨y, ⟨old, e1, rfl⟩, z, e2, e3⟩ := hb
  split at e2
  case isFalse => cases e2
  rename_i hlt
  simp only [Option.some.injEq, Prod.mk.injEq] at e2 e3
  obtain ⟨rfl, rfl⟩ := e3
  subst e2
  refine ⟨_, s.set e x, (e + 1) % c, if l < c then l + 1 else l, ?_, ?_, Inv.rewrite2 i rfl rfl (.ring d c ((e + 1) % c) (if l < c then l + 1 else l) o) (.slots (s.set e x)) (h.destroyed ++ if o then (opt old).toList else []) (fun m a b => ⟨a, b⟩), rfl⟩
  · simp only [ringAppend, ringAt_eq g, slotsAt_eq g, Option.bind_eq_bind, Option.bind_some, CMem.read, e1, CMem.write, hlt, if_true]
    have hm : ∀ (q : Prop) [Decidable q], (if q then kill h old else h).mem = h.mem := by intro q _; split <;> rfl
    rw [store_eq (x := .slots s) (by rw [hm]; exact g.2)]
    simp only [Option.bind_some]
    rw [store_eq (x := .ring d c e l o) (by simp only [hm, upd_ne _ _ h1]; exact g.1)]
    by_cases q1 : old = 0 <;> cases o <;> simp [opt, q1, kill]
  · simp [buf, List.map_set]
    rfl

theorem ringClearLoop_eq {d : Nat} : ∀ (n k : Nat) (h : Heap) (s : List Nat) (s' : List (Option Nat)) (ds : List Nat), h.mem d = some (.slots s) →
    RingBuffer.clearLoop (s.map opt) k n = some (s', ds) →
    ∃ h' t, ringClearLoop d h k n = some h' ∧ s' = t.map opt ∧ h'.mem d = some (.slots t) ∧ (∀ a, a ≠ d → h'.mem a = h.mem a) ∧ h'.next = h.next ∧ h'.destroyed = h.destroyed ++ ds := by
  intro n
  induction n with
  | zero =>
    intro k h s s' ds hm e
    simp only [RingBuffer.clearLoop, Option.some.injEq, Prod.mk.injEq] at e
    obtain ⟨rfl, rfl⟩ := e
    exact ⟨h, s, rfl, rfl, hm, fun _ _ => rfl, rfl, by simp⟩
  | succ n ih =>
    intro k h s s' ds hm e
    simp only [RingBuffer.clearLoop, CMem.read, CMem.write, List.length_map, List.getElem?_map, Option.bind_eq_bind, Option.bind_eq_some_iff, Option.map_eq_some_iff] at e
    obtain ⟨y, ⟨x, e1, rfl⟩, e2⟩ := e
    have hs : slotsAt h d = some s := by simp [slotsAt, hm]
    simp only [ringClearLoop, hs, Option.bind_eq_bind, Option.bind_some, CMem.read, e1]
    by_cases hx : x = 0
    · simp only [opt, hx, if_true] at e2
      rw [if_neg (by simp [hx])]
      exact ih (k + 1) h s s' ds hm e2
    · simp only [opt, hx, if_false, Option.bind_eq_some_iff] at e2
      obtain ⟨z, e3, e4⟩ := e2
      split at e3
      case isFalse => cases e3
      rename_i hlt
      simp only [Option.some.injEq] at e3
      subst e3
      obtain ⟨⟨s2, ds2⟩, e5, e6⟩ := e4
      simp only [Option.some.injEq, Prod.mk.injEq] at e6
      obtain ⟨rfl, rfl⟩ := e6
      have em : (s.map opt).set k none = (s.set k 0).map opt := by simp [List.map_set, opt]
      rw [em] at e5
      rw [if_pos hx]
      simp only [CMem.write, hlt, if_true, Option.bind_some]
      rw [store_eq (x := .slots s) (by exact hm)]
      simp only [Option.bind_some]
      obtain ⟨h', t, f1, f2, f3, f4, f5, f6⟩ := ih (k + 1) { (kill h x) with mem := upd (kill h x).mem d (some (.slots (s.set k 0))) } (s.set k 0) s2 ds2 (by simp) e5
      refine ⟨h', t, f1, f2, f3, ?_, f5, ?_⟩
      · intro a ha
        rw [f4 a ha]
        exact upd_ne _ _ ha
      · rw [f6]; simp [kill]

theorem ringClear_eq {h : Heap} {p d c e l : Nat} {s : List Nat} {o : Bool} {r : List Obj} (i : Inv h (.ring p d s c e l o :: r)) {b' : RingBuffer.Buf Nat} {ds : List Nat}
    (hb : RingBuffer.clear (buf s c e l o) = some (b', ds)) :
    ∃ h' s', ringClear h p = some h' ∧ b' = buf s' c 0 0 o ∧ Inv h' (.ring p d s' c 0 0 o :: r) ∧ h'.destroyed = h.destroyed ++ ds := by
  have g := i.good _ List.mem_cons_self
  obtain ⟨h1, h2, h3⟩ := apart2 i rfl
  have inv' : ∀ (s' : List Nat) (h' : Heap), h'.mem d = some (.slots s') → (∀ a, a ≠ d → h'.mem a = h.mem a) → h'.next = h.next →
      Inv { h' with mem := upd h'.mem p (some (.ring d c 0 0 o)) } (.ring p d s' c 0 0 o :: r) := by
    intro s' h' k1 k2 k3
    have e : upd h'.mem p (some (.ring d c 0 0 o)) = upd (upd h.mem d (some (.slots s'))) p (some (.ring d c 0 0 o)) := by
      funext a
      by_cases q1 : a = p
      · simp [upd, q1]
      · by_cases q2 : a = d
        · rw [q2, upd_ne _ _ h1.symm, upd_ne _ _ h1.symm, upd_same, k1]
        · rw [upd_ne _ _ q1, upd_ne _ _ q1, upd_ne _ _ q2, k2 a q2]
    have := Inv.rewrite2 (o' := .ring p d s' c 0 0 o) i rfl rfl (.ring d c 0 0 o) (.slots s') h'.destroyed (fun m a b => ⟨a, b⟩)
    rw [e, k3]
    exact this
  unfold RingBuffer.clear at hb
  rw [ringClear, ringAt_eq g]
  simp only [Option.bind_eq_bind, Option.bind_some]
  cases o with
  | true =>
    simp only [buf, if_true, Option.bind_eq_bind, Option.bind_eq_some_iff] at hb ⊢
    obtain ⟨⟨s2, d2⟩, e1, e2⟩ := hb
    simp only [Option.some.injEq, Prod.mk.injEq] at e2
    obtain ⟨rfl, rfl⟩ := e2
    obtain ⟨h', t, f1, rfl, f3, f4, f5, f6⟩ := ringClearLoop_eq c 0 h s s2 d2 g.2 e1
    have hs := store_eq (h := h') (a := p) (x := .ring d c e l true) (by rw [f4 p h1]; exact g.1) (.ring d c 0 0 true)
    exact ⟨_, t, ⟨_, f1, hs⟩, rfl, inv' t h' f3 f4 f5, f6⟩
  | false =>
    simp only [buf, Bool.false_eq_true, if_false, Option.some.injEq, Prod.mk.injEq] at hb ⊢
    obtain ⟨rfl, rfl⟩ := hb
    rw [store_eq g.1]
    exact ⟨_, s, rfl, rfl, inv' s h g.2 (fun _ _ => rfl) rfl, by simp⟩

theorem ringDestroy_eq {h : Heap} {p d c e l : Nat} {s : List Nat} {o : Bool} {r : List Obj} (i : Inv h (.ring p d s c e l o :: r)) {b' : RingBuffer.Buf Nat} {ds : List Nat}
    (hb : RingBuffer.clear (buf s c e l o) = some (b', ds)) :
    ∃ h', ringDestroy h p = some h' ∧ Inv h' (.gone :: r) ∧ h'.destroyed = h.destroyed ++ ds := by
  obtain ⟨h0, s', e0, -, i0, k0⟩ := ringClear_eq i hb
  have g := i0.good _ List.mem_cons_self
  obtain ⟨h1, h2, h3⟩ := apart2 i0 rfl
  refine ⟨⟨upd (upd h0.mem d none) p none, h0.next, h0.destroyed⟩, ?_, ?_, k0⟩
  · rw [ringDestroy, e0]
    simp only [Option.bind_eq_bind, Option.bind_some, ringAt_eq g]
    rw [free_eq g.2]
    simp only [Option.bind_some]
    rw [free_eq (x := .ring d c 0 0 o) (by simp only [upd_ne _ _ h1]; exact g.1)]
  · refine Inv.change (A := [.ring p d s' c 0 0 o]) (r := r) (h := h0) i0 [.gone] _ h0.next _ ?_ (Nat.le_refl _) (by simp [Good]) (by simp [Obj.blocks]) (by simp [Obj.blocks]) ?_
    · intro a ha _
      simp [Obj.blocks] at ha
      simp [upd, ha.1, ha.2]
    · intro a ha
      by_cases h4 : a = p
      · simp [upd, h4] at ha
      · by_cases h5 : a = d
        · simp [upd, h5] at ha
        · right
          simp only [upd, h4, h5, if_false] at ha
          exact ⟨by simp [Obj.blocks, h4, h5], i0.lt a (i0.only a ha)⟩

theorem ringHead_eq {h : Heap} {p d c e l : Nat} {s : List Nat} {o : Bool} (g : Good h.mem (.ring p d s c e l o)) {x : Option Nat}
    (hb : RingBuffer.head (buf s c e l o) = some x) : ringHead h p = some (x.getD 0) := by
  simp only [RingBuffer.head, RingBuffer.length, buf, CMem.read, List.getElem?_map] at hb
  simp only [ringHead, ringAt_eq g, slotsAt_eq g, Option.bind_eq_bind, Option.bind_some, CMem.read]
  by_cases h1 : l = 0
  · simp only [h1, if_true, Option.some.injEq] at hb ⊢
    subst hb; rfl
  · simp only [h1, if_false] at hb ⊢
    split at hb <;> rename_i h2
    · rw [if_pos h2]
      simp only [Option.map_eq_some_iff] at hb
      obtain ⟨y, e1, rfl⟩ := hb
      rw [e1, opt_getD]
    · rw [if_neg h2]
      simp only [Option.map_eq_some_iff] at hb
      obtain ⟨y, e1, rfl⟩ := hb
      rw [e1, opt_getD]

/-! ## Iterators -/

theorem iterNew_eq {h : Heap} {r : List Obj} (i : Inv h r) (b : Nat) :
    (iterNew h b).2 = h.next ∧ Inv (iterNew h b).1 (.iter h.next b 0 :: r) ∧ (iterNew h b).1.destroyed = h.destroyed := by
  refine ⟨rfl, ?_, rfl⟩
  refine Inv.change (A := []) (r := r) (h := h) i [_] _ (h.next + 1) _ ?_ (by omega) ?_ ?_ ?_ ?_
  · intro a _ ha'
    simp [upd, show a ≠ h.next by omega]
  · intro x hx
    rw [List.mem_singleton] at hx
    subst hx
    simp [Good, upd]
  · simp [Obj.blocks]
  · intro a ha
    simp [Obj.blocks] at ha ⊢
    omega
  · intro a ha
    by_cases h4 : a = h.next
    · simp [Obj.blocks, h4]
    · right
      simp only [upd, h4, if_false] at ha
      exact ⟨by simp, i.lt a (i.only a ha)⟩

theorem iterDestroy_eq {h : Heap} {p b n : Nat} {r : List Obj} (i : Inv h (.iter p b n :: r)) :
    ∃ h', iterDestroy h p = some h' ∧ Inv h' (.gone :: r) ∧ h'.destroyed = h.destroyed := by
  have g : h.mem p = some (.iter b n) := i.good _ List.mem_cons_self
  refine ⟨⟨upd h.mem p none, h.next, h.destroyed⟩, by rw [iterDestroy, free_eq g], ?_, rfl⟩
  refine Inv.change (A := [.iter p b n]) (r := r) (h := h) i [.gone] _ h.next _ ?_ (Nat.le_refl _) (by simp [Good]) (by simp [Obj.blocks]) (by simp [Obj.blocks]) ?_
  · intro a ha _
    simp [Obj.blocks] at ha
    simp [upd, ha]
  · intro a ha
    by_cases h4 : a = p
    · simp [upd, h4] at ha
    · right
      simp only [upd, h4, if_false] at ha
      exact ⟨by simp [Obj.blocks, h4], i.lt a (i.only a ha)⟩

theorem iterNext_eq {h : Heap} {p b n : Nat} {r : List Obj} (i : Inv h (.iter p b n :: r)) {d c e l : Nat} {s : List Nat} {o : Bool} (g2 : Good h.mem (.ring b d s c e l o)) {x : Option Nat} {n' : Nat}
    (hb : RingBuffer.iterNext (buf s c e l o) n = some (x, n')) :
    ∃ h', iterNext h p = some (h', x.getD 0) ∧ Inv h' (.iter p b n' :: r) ∧ h'.destroyed = h.destroyed := by
  have g : h.mem p = some (.iter b n) := i.good _ List.mem_cons_self
  have hi : iterAt h p = some (b, n) := by simp [iterAt, g]
  simp only [RingBuffer.iterNext, RingBuffer.isFull, buf, CMem.read, List.getElem?_map, Option.bind_eq_bind] at hb
  simp only [iterNext, hi, ringAt_eq g2, slotsAt_eq g2, Option.bind_eq_bind, Option.bind_some, CMem.read]
  by_cases h1 : l = n
  · rw [if_pos h1] at hb ⊢
    simp only [Option.some.injEq, Prod.mk.injEq] at hb
    obtain ⟨rfl, rfl⟩ := hb
    exact ⟨h, rfl, i, rfl⟩
  · rw [if_neg h1] at hb ⊢
    simp only [Option.bind_eq_some_iff, Option.map_eq_some_iff, Option.some.injEq, Prod.mk.injEq, beq_iff_eq] at hb
    obtain ⟨y, ⟨z, e1, rfl⟩, rfl, rfl⟩ := hb
    rw [e1]
    simp only [Option.bind_some]
    rw [store_eq g]
    refine ⟨⟨upd h.mem p (some (.iter b (n + 1))), h.next, h.destroyed⟩, by rw [opt_getD]; rfl, ?_, rfl⟩
    refine Inv.change (A := [.iter p b n]) (r := r) (h := h) i [_] _ h.next _ ?_ (Nat.le_refl _) ?_ (by simp [Obj.blocks]) ?_ ?_
    · intro a ha _
      simp [Obj.blocks] at ha
      simp [upd, ha]
    · intro x hx
      rw [List.mem_singleton] at hx
      subst hx
      simp [Good, upd]
    · intro a ha
      simp [Obj.blocks] at ha ⊢
      subst ha
      exact ⟨i.lt _ (by simp [Obj.blocks]), .inl rfl⟩
    · intro a ha
      by_cases h4 : a = p
      · simp [Obj.blocks, h4]
      · right
        simp only [upd, h4, if_false] at ha
        exact ⟨by simp [Obj.blocks, h4], i.lt a (i.only a ha)⟩

end ContHeap
