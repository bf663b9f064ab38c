import Verif.Model.Containers
import Verif.Spec.Containers
/-! # Property C147: threaded containers release what they take -/
open Containers ContainersSpec

namespace Containers

/-- A container the program holds. -/
inductive C where
  | q (q : Q)
  | s (s : S)

def C.kind : C → Kind
  | .q _ => .queue
  | .s _ => .stack

/-- The blocks it consists of. -/
def C.blocks : C → List Nat
  | .q x => [x.self, x.lock, x.nonEmpty, x.empty, x.data]
  | .s x => [x.self, x.lock, x.data]

/-- Its mutexes and conditions. -/
def C.syncs : C → List Nat
  | .q x => [x.lock, x.nonEmpty, x.empty]
  | .s x => [x.lock]

/-- A call: on the `i`-th container held. -/
inductive Op where
  | new (k : Kind) (ok : Ok)
  | copy (i : Nat) (ok : Ok)
  | destroy (i : Nat)

/-- The initialisation that fails first. -/
def failing (k : Kind) (ok : Ok) : Option Stage :=
  if ok.mutex = false then some .mutex
  else if k = .stack then none
  else if ok.nonEmpty = false then some .nonEmpty
  else if ok.empty = false then some .empty
  else none

/-- One call: the world, what is held (newest first) and what happened. Calls on containers not held do nothing. -/
def step (w : W) (held : List C) : Op → Option (W × List C × List Event)
  | .new .queue ok => do
    let (w, r) ← qNew w ok
    match r, failing .queue ok with
    | some q, none => some (w, .q q :: held, [.created .queue])
    | none, some s => some (w, held, [.notCreated .queue s])
    | _, _ => none
  | .new .stack ok => do
    let (w, r) ← sNew w ok.mutex
    match r, failing .stack ok with
    | some q, none => some (w, .s q :: held, [.created .stack])
    | none, some s => some (w, held, [.notCreated .stack s])
    | _, _ => none
  | .copy i ok =>
    match held[i]? with
    | none => some (w, held, [])
    | some (.q c) => do
      let (w, r) ← qCopy w c ok
      match r, failing .queue ok with
      | some q, none => some (w, .q q :: held, [.copied .queue])
      | none, some s => some (w, held, [.notCopied .queue s])
      | _, _ => none
    | some (.s c) => do
      let (w, r) ← sCopy w c ok.mutex
      match r, failing .stack ok with
      | some q, none => some (w, .s q :: held, [.copied .stack])
      | none, some s => some (w, held, [.notCopied .stack s])
      | _, _ => none
  | .destroy i =>
    match held[i]? with
    | none => some (w, held, [])
    | some (.q c) => do
      let w ← qDestroy w c
      some (w, held.eraseIdx i, [.destroyed .queue])
    | some (.s c) => do
      let w ← sDestroy w c
      some (w, held.eraseIdx i, [.destroyed .stack])

/-- A history of calls. -/
def run : W → List C → List Op → Option (W × List C × List Event)
  | w, held, [] => some (w, held, [])
  | w, held, o :: os => do
    let (w, held, e) ← step w held o
    let (w, held, es) ← run w held os
    some (w, held, e ++ es)

/-- The account: what is allocated and initialised is what the containers held consist of, and what was lost. -/
structure Account (w : W) (held : List C) (blocks syncs attrs : Nat) : Prop where
  live : ∃ lost, w.live.Perm (held.flatMap C.blocks ++ lost) ∧ lost.length = blocks
  sync : ∃ lost, w.sync.Perm (held.flatMap C.syncs ++ lost) ∧ lost.length = syncs
  attr : w.attrs = attrs

theorem free_perm {w : W} {p : Nat} {rest : List Nat} (h : w.live.Perm (p :: rest)) :
    ∃ l, free w p = some { w with live := l } ∧ l.Perm rest := by
  refine ⟨w.live.erase p, ?_, ?_⟩
  · have : p ∈ w.live := h.mem_iff.mpr List.mem_cons_self
    simp [free, this]
  · have := h.erase p
    rwa [List.erase_cons_head] at this

theorem syncDestroy_perm {w : W} {p : Nat} {rest : List Nat} (h : w.sync.Perm (p :: rest)) (hl : p ∈ w.live) :
    ∃ l, syncDestroy w p = some { w with sync := l } ∧ l.Perm rest := by
  refine ⟨w.sync.erase p, ?_, ?_⟩
  · have : p ∈ w.sync := h.mem_iff.mpr List.mem_cons_self
    simp [syncDestroy, this, hl]
  · have := h.erase p
    rwa [List.erase_cons_head] at this

theorem qDestroy_ok {w : W} {q : Q} {L S : List Nat} (hl : w.live.Perm ((C.q q).blocks ++ L)) (hs : w.sync.Perm ((C.q q).syncs ++ S)) :
    ∃ w', qDestroy w q = some w' ∧ w'.live.Perm L ∧ w'.sync.Perm S ∧ w'.attrs = w.attrs ∧ w'.next = w.next := by
  simp only [C.blocks, C.syncs, List.cons_append, List.nil_append] at hl hs
  have h1 : w.live.Perm (q.lock :: q.nonEmpty :: q.empty :: q.data :: q.self :: L) :=
    hl.trans ((List.Perm.swap _ _ _).trans (.cons _ ((List.Perm.swap _ _ _).trans (.cons _ ((List.Perm.swap _ _ _).trans (.cons _ (List.Perm.swap _ _ _)))))))
  obtain ⟨s1, e1, g1⟩ := syncDestroy_perm (p := q.lock) hs (h1.mem_iff.mpr (by simp))
  obtain ⟨l1, f1, h2⟩ := free_perm (w := { w with sync := s1 }) h1
  obtain ⟨s2, e2, g2⟩ := syncDestroy_perm (w := { w with sync := s1, live := l1 }) g1 (h2.mem_iff.mpr (by simp))
  obtain ⟨l2, f2, h3⟩ := free_perm (w := { w with sync := s2, live := l1 }) h2
  obtain ⟨s3, e3, g3⟩ := syncDestroy_perm (w := { w with sync := s2, live := l2 }) g2 (h3.mem_iff.mpr (by simp))
  obtain ⟨l3, f3, h4⟩ := free_perm (w := { w with sync := s3, live := l2 }) h3
  obtain ⟨l4, f4, h5⟩ := free_perm (w := { w with sync := s3, live := l3 }) h4
  obtain ⟨l5, f5, h6⟩ := free_perm (w := { w with sync := s3, live := l4 }) h5
  refine ⟨{ w with sync := s3, live := l5 }, ?_, h6, g3, rfl, rfl⟩
  simp only [qDestroy, bind, Option.bind, e1, f1, e2, f2, e3, f3, f4, f5]

theorem sDestroy_ok {w : W} {q : S} {L S' : List Nat} (hl : w.live.Perm ((C.s q).blocks ++ L)) (hs : w.sync.Perm ((C.s q).syncs ++ S')) :
    ∃ w', sDestroy w q = some w' ∧ w'.live.Perm L ∧ w'.sync.Perm S' ∧ w'.attrs = w.attrs ∧ w'.next = w.next := by
  simp only [C.blocks, C.syncs, List.cons_append, List.nil_append] at hl hs
  have h1 : w.live.Perm (q.lock :: q.data :: q.self :: L) :=
    hl.trans ((List.Perm.swap _ _ _).trans (.cons _ (List.Perm.swap _ _ _)))
  obtain ⟨s1, e1, g1⟩ := syncDestroy_perm (p := q.lock) hs (h1.mem_iff.mpr (by simp))
  obtain ⟨l1, f1, h2⟩ := free_perm (w := { w with sync := s1 }) h1
  obtain ⟨l4, f4, h5⟩ := free_perm (w := { w with sync := s1, live := l1 }) h2
  obtain ⟨l5, f5, h6⟩ := free_perm (w := { w with sync := s1, live := l4 }) h5
  refine ⟨{ w with sync := s1, live := l5 }, ?_, h6, g1, rfl, rfl⟩
  simp only [sDestroy, bind, Option.bind, e1, f1, f4, f5]

/-- Nothing initialised lies beyond the next block. -/
def Fresh (w : W) : Prop := ∀ p ∈ w.sync, p < w.next

theorem Fresh.ge {w : W} (h : Fresh w) (k : Nat) : w.next + k ∉ w.sync := fun hm => by have := h _ hm; omega

theorem perm_flat {f : C → List Nat} : ∀ (held : List C) (i : Nat) (c : C), held[i]? = some c →
    (held.flatMap f).Perm (f c ++ (held.eraseIdx i).flatMap f) := by
  intro held
  induction held with
  | nil => intro i c h; simp at h
  | cons x held ih =>
    intro i c h
    cases i with
    | zero => simp at h; subst h; simp
    | succ i =>
      simp only [List.getElem?_cons_succ] at h
      have := ih i c h
      simp only [List.flatMap_cons, List.eraseIdx_cons_succ]
      refine (List.Perm.append_left _ this).trans ?_
      rw [← List.append_assoc, ← List.append_assoc]
      exact List.Perm.append_right _ List.perm_append_comm

macro "fresh_tac" h:term : tactic => `(tactic| (have := $h; simp only [Fresh, List.mem_cons] at this ⊢; grind))

macro "perm_tac" h:term : tactic => `(tactic| (refine List.perm_iff_count.mpr fun x => ?_; have := ($h).count_eq x; simp only [List.flatMap_cons, C.blocks, C.syncs, List.count_cons, List.count_append, List.count_nil] at this ⊢; omega))

theorem step_ok {w : W} {held : List C} {b s a : Nat} (hf : Fresh w) (h : Account w held b s a) (o : Op) :
    ∃ w' held' e, step w held o = some (w', held', e) ∧ Fresh w' ∧
      Account w' held' (b + total Event.lostBlocks e) (s + total Event.lostSyncs e) (a + total Event.lostAttrs e) := by
  obtain ⟨⟨lb, hb, hbl⟩, ⟨ls, hs, hsl⟩, ha⟩ := h
  have f0 := hf.ge 0
  have f1 := hf.ge 1
  have f2 : w.next + 1 + 1 ∉ w.sync := hf.ge 2
  have f3 : w.next + 1 + 1 + 1 ∉ w.sync := hf.ge 3
  have f4 : w.next + 1 + 1 + 1 + 1 ∉ w.sync := hf.ge 4
  have n2 : w.next + 1 + 1 ≠ w.next := by omega
  have n3 : w.next + 1 + 1 + 1 ≠ w.next := by omega
  have n4 : w.next + 1 + 1 + 1 + 1 ≠ w.next := by omega
  have n2' : w.next ≠ w.next + 1 + 1 := by omega
  have n3' : w.next ≠ w.next + 1 + 1 + 1 := by omega
  have n4' : w.next ≠ w.next + 1 + 1 + 1 + 1 := by omega
  have m1 : ∀ (i : Nat) (c : C), held[i]? = some c → ∀ p ∈ c.syncs, p ∈ w.sync := by
    intro i c hi p hp
    exact hs.mem_iff.mpr (List.mem_append_left _ (List.mem_flatMap.mpr ⟨c, List.mem_of_getElem? hi, hp⟩))
  have m2 : ∀ (i : Nat) (c : C), held[i]? = some c → ∀ p ∈ c.blocks, p ∈ w.live := by
    intro i c hi p hp
    exact hb.mem_iff.mpr (List.mem_append_left _ (List.mem_flatMap.mpr ⟨c, List.mem_of_getElem? hi, hp⟩))
  obtain ⟨live, next, sync, attrs⟩ := w
  simp only [Nat.add_zero] at f0 f1 f2 f3 f4 n2 n3 n4 n2' n3' n4' hb hs ha m1 m2
  cases o with
  | new k ok =>
    obtain ⟨o1, o2, o3⟩ := ok
    cases k with
    | queue =>
      cases o1 <;> cases o2 <;> cases o3 <;>
        simp [step, qNew, alloc, attrInit, attrDestroy, syncInit, free, failing, f0, f1, f2, f3, f4, n2, n3, n4, n2', n3', n4', List.erase_cons, total,
          Event.lostBlocks, Event.lostSyncs, Event.lostAttrs]
      · exact ⟨by fresh_tac hf, ⟨lb, hb, hbl⟩, ⟨ls, hs, hsl⟩, ha⟩
      · exact ⟨by fresh_tac hf, ⟨lb, hb, hbl⟩, ⟨ls, hs, hsl⟩, ha⟩
      · exact ⟨by fresh_tac hf, ⟨lb, hb, hbl⟩, ⟨ls, hs, hsl⟩, ha⟩
      · exact ⟨by fresh_tac hf, ⟨lb, hb, hbl⟩, ⟨ls, hs, hsl⟩, ha⟩
      · exact ⟨by fresh_tac hf, ⟨lb, hb, hbl⟩, ⟨(next + 1) :: ls, by perm_tac hs, by simp [hsl]⟩, ha⟩
      · exact ⟨by fresh_tac hf, ⟨lb, hb, hbl⟩, ⟨(next + 1) :: ls, by perm_tac hs, by simp [hsl]⟩, ha⟩
      · exact ⟨by fresh_tac hf, ⟨lb, hb, hbl⟩, ⟨(next + 1) :: (next + 1 + 1) :: ls, by perm_tac hs, by simp [hsl]⟩, ha⟩
      · exact ⟨by fresh_tac hf, ⟨lb, by perm_tac hb, hbl⟩, ⟨ls, by perm_tac hs, hsl⟩, ha⟩
    | stack =>
      cases o1 <;>
        simp [step, sNew, alloc, attrInit, attrDestroy, syncInit, free, failing, f0, f1, f2, f3, f4, n2, n3, n4, n2', n3', n4', List.erase_cons, total,
          Event.lostBlocks, Event.lostSyncs, Event.lostAttrs]
      · exact ⟨by fresh_tac hf, ⟨(next + 1) :: lb, by perm_tac hb, by simp [hbl]⟩, ⟨ls, hs, hsl⟩, ha⟩
      · exact ⟨by fresh_tac hf, ⟨lb, by perm_tac hb, hbl⟩, ⟨ls, by perm_tac hs, hsl⟩, ha⟩
  | copy i ok =>
    obtain ⟨o1, o2, o3⟩ := ok
    cases hi : held[i]? with
    | none => exact ⟨_, _, [], by simp only [step, hi], hf, ⟨lb, hb, by simp [hbl, total]⟩, ⟨ls, hs, by simp [hsl, total]⟩, by simp [ha, total]⟩
    | some c =>
      have k1 := m1 i c hi
      have k2 := m2 i c hi
      cases c with
      | q c =>
        have k3 := k1 c.lock (by simp [C.syncs])
        have k4 := k2 c.lock (by simp [C.blocks])
        cases o1 <;> cases o2 <;> cases o3 <;>
          simp [step, hi, qCopy, useLock, k3, k4, alloc, attrInit, attrDestroy, syncInit, free, failing, f0, f1, f2, f3, f4, n2, n3, n4, n2', n3', n4', List.erase_cons, total,
            Event.lostBlocks, Event.lostSyncs, Event.lostAttrs]
        · exact ⟨by fresh_tac hf, ⟨(next + 1) :: lb, by perm_tac hb, by simp [hbl]⟩, ⟨ls, hs, hsl⟩, ha⟩
        · exact ⟨by fresh_tac hf, ⟨(next + 1) :: lb, by perm_tac hb, by simp [hbl]⟩, ⟨ls, hs, hsl⟩, ha⟩
        · exact ⟨by fresh_tac hf, ⟨(next + 1) :: lb, by perm_tac hb, by simp [hbl]⟩, ⟨ls, hs, hsl⟩, ha⟩
        · exact ⟨by fresh_tac hf, ⟨(next + 1) :: lb, by perm_tac hb, by simp [hbl]⟩, ⟨ls, hs, hsl⟩, ha⟩
        · exact ⟨by fresh_tac hf, ⟨(next + 1) :: lb, by perm_tac hb, by simp [hbl]⟩, ⟨(next + 1 + 1) :: ls, by perm_tac hs, by simp [hsl]⟩, by simp [ha]⟩
        · exact ⟨by fresh_tac hf, ⟨(next + 1) :: lb, by perm_tac hb, by simp [hbl]⟩, ⟨(next + 1 + 1) :: ls, by perm_tac hs, by simp [hsl]⟩, by simp [ha]⟩
        · exact ⟨by fresh_tac hf, ⟨(next + 1) :: lb, by perm_tac hb, by simp [hbl]⟩, ⟨(next + 1 + 1) :: (next + 1 + 1 + 1) :: ls, by perm_tac hs, by simp [hsl]⟩, by simp [ha]⟩
        · exact ⟨by fresh_tac hf, ⟨lb, by perm_tac hb, hbl⟩, ⟨ls, by perm_tac hs, hsl⟩, by simp [ha]⟩
      | s c =>
        have k3 := k1 c.lock (by simp [C.syncs])
        have k4 := k2 c.lock (by simp [C.blocks])
        cases o1 <;>
          simp [step, hi, sCopy, useLock, k3, k4, alloc, attrInit, attrDestroy, syncInit, free, failing, f0, f1, f2, f3, f4, n2, n3, n4, n2', n3', n4', List.erase_cons, total,
            Event.lostBlocks, Event.lostSyncs, Event.lostAttrs]
        · exact ⟨by fresh_tac hf, ⟨(next + 1) :: lb, by perm_tac hb, by simp [hbl]⟩, ⟨ls, hs, hsl⟩, ha⟩
        · exact ⟨by fresh_tac hf, ⟨lb, by perm_tac hb, hbl⟩, ⟨ls, by perm_tac hs, hsl⟩, by simp [ha]⟩
  | destroy i =>
    cases hi : held[i]? with
    | none => exact ⟨_, _, [], by simp only [step, hi], hf, ⟨lb, hb, by simp [hbl, total]⟩, ⟨ls, hs, by simp [hsl, total]⟩, by simp [ha, total]⟩
    | some c =>
      have p1 := hb.trans ((perm_flat (f := C.blocks) held i c hi).append_right lb)
      have p2 := hs.trans ((perm_flat (f := C.syncs) held i c hi).append_right ls)
      rw [List.append_assoc] at p1 p2
      cases c with
      | q c =>
        obtain ⟨w', d1, d2, d3, d4, d5⟩ := qDestroy_ok (w := ⟨live, next, sync, attrs⟩) p1 p2
        refine ⟨w', held.eraseIdx i, _, by simp only [step, hi, d1, bind, Option.bind]; rfl, ?_, ⟨lb, d2, by simp [hbl, total, Event.lostBlocks]⟩, ⟨ls, d3, by simp [hsl, total, Event.lostSyncs]⟩, by simp [d4, ha, total, Event.lostAttrs]⟩
        intro p hp
        rw [d5]
        exact hf p (p2.mem_iff.mpr (List.mem_append_right _ (d3.mem_iff.mp hp)))
      | s c =>
        obtain ⟨w', d1, d2, d3, d4, d5⟩ := sDestroy_ok (w := ⟨live, next, sync, attrs⟩) p1 p2
        refine ⟨w', held.eraseIdx i, _, by simp only [step, hi, d1, bind, Option.bind]; rfl, ?_, ⟨lb, d2, by simp [hbl, total, Event.lostBlocks]⟩, ⟨ls, d3, by simp [hsl, total, Event.lostSyncs]⟩, by simp [d4, ha, total, Event.lostAttrs]⟩
        intro p hp
        rw [d5]
        exact hf p (p2.mem_iff.mpr (List.mem_append_right _ (d3.mem_iff.mp hp)))

theorem run_ok : ∀ (ops : List Op) (w : W) (held : List C) (b s a : Nat), Fresh w → Account w held b s a →
    ∃ w' held' es, run w held ops = some (w', held', es) ∧
      Account w' held' (b + total Event.lostBlocks es) (s + total Event.lostSyncs es) (a + total Event.lostAttrs es) := by
  intro ops
  induction ops with
  | nil => intro w held b s a _ h; exact ⟨w, held, [], rfl, h⟩
  | cons o ops ih =>
    intro w held b s a hf h
    obtain ⟨w1, h1, e, q1, q2, q3⟩ := step_ok hf h o
    obtain ⟨w2, h2, es, r1, r2⟩ := ih w1 h1 _ _ _ q2 q3
    refine ⟨w2, h2, e ++ es, by simp only [run, q1, r1, bind, Option.bind], ?_⟩
    simpa [total, Nat.add_assoc] using r2

/-- No call of the history failed. -/
def NoFailure (es : List Event) : Prop := ∀ k s, Event.notCreated k s ∉ es ∧ Event.notCopied k s ∉ es

theorem total_zero (f : Event → Nat) (es : List Event) (h : ∀ e ∈ es, f e = 0) : total f es = 0 := by
  induction es with
  | nil => rfl
  | cons e es ih =>
    have h1 := ih fun x hx => h x (List.mem_cons_of_mem _ hx)
    have h2 := h e List.mem_cons_self
    simp only [total, List.map_cons, List.sum_cons] at h1 ⊢
    omega

end Containers

/-- C147. For every history of creating, copying and destroying queues, deques and stacks, whichever initialisations of mutexes and conditions fail:
nothing is freed twice or used after being freed, no mutex or condition is initialised or destroyed twice, and what is allocated and
initialised at the end is what the containers still held consist of, plus exactly what the failed calls lose (Spec). -/
theorem C147_account (ops : List Op) : ∃ w held es, run ⟨[], 0, [], 0⟩ [] ops = some (w, held, es) ∧
    (∃ lost, w.live.Perm (held.flatMap C.blocks ++ lost) ∧ lost.length = total Event.lostBlocks es) ∧
    (∃ lost, w.sync.Perm (held.flatMap C.syncs ++ lost) ∧ lost.length = total Event.lostSyncs es) ∧
    w.attrs = total Event.lostAttrs es := by
  obtain ⟨w, held, es, h1, h2, h3, h4⟩ := run_ok ops ⟨[], 0, [], 0⟩ [] 0 0 0 (by intro p hp; simp at hp)
    ⟨⟨[], by simp, rfl⟩, ⟨[], by simp, rfl⟩, rfl⟩
  exact ⟨w, held, es, h1, by simpa using h2, by simpa using h3, by simpa using h4⟩

/-- C147. When no initialisation fails and all containers were destroyed, all memory was returned and every mutex and condition destroyed. -/
theorem C147_all_returned (ops : List Op) (w : W) (es : List Event) (h : run ⟨[], 0, [], 0⟩ [] ops = some (w, [], es)) (hn : NoFailure es) :
    w.live = [] ∧ w.sync = [] := by
  obtain ⟨w', held, es', h1, ⟨l1, p1, q1⟩, ⟨l2, p2, q2⟩, -⟩ := C147_account ops
  rw [h] at h1
  obtain ⟨rfl, rfl, rfl⟩ : w = w' ∧ [] = held ∧ es = es' := by simpa using h1
  rw [total_zero _ _ ?_] at q1
  · rw [total_zero _ _ ?_] at q2
    · simp only [List.length_eq_zero_iff] at q1 q2
      subst q1 q2
      simpa using And.intro p1 p2
    · intro e he
      cases e with
      | notCreated k s => exact absurd he (hn k s).1
      | notCopied k s => exact absurd he (hn k s).2
      | _ => rfl
  · intro e he
    cases e with
    | notCreated k s => exact absurd he (hn k s).1
    | notCopied k s => exact absurd he (hn k s).2
    | _ => rfl

/-- A history of both kinds, with a copy, everything destroyed in another order. -/
def c147Sample : List Op :=
  [.new .queue ⟨true, true, true⟩, .new .stack ⟨true, true, true⟩, .copy 1 ⟨true, true, true⟩, .destroy 2, .destroy 0, .destroy 0]

example : ∃ w es, run ⟨[], 0, [], 0⟩ [] c147Sample = some (w, [], es) ∧ es.length = 6 ∧ NoFailure es := by
  refine ⟨_, _, rfl, rfl, ?_⟩
  intro k s
  constructor <;> simp

/-- Finding: a failed copy loses the copied array; a failed new stack loses its mutex block. -/
theorem C147_failed_copy_leaks_negated :
    (run ⟨[], 0, [], 0⟩ [] [.new .queue ⟨true, true, true⟩, .copy 0 ⟨false, true, true⟩, .destroy 0]).map (fun r => (r.1.live, r.2.1.length)) = some ([6], 0) ∧
    (run ⟨[], 0, [], 0⟩ [] [.new .stack ⟨false, true, true⟩]).map (fun r => (r.1.live, r.2.1.length)) = some ([1], 0) := by
  decide +kernel

/-- Finding: every copy of a queue or deque leaves a mutex attribute undestroyed; a condition that cannot be made leaves the mutex undestroyed in freed memory. -/
theorem C147_attributes_not_destroyed_negated :
    (run ⟨[], 0, [], 0⟩ [] [.new .queue ⟨true, true, true⟩, .copy 0 ⟨true, true, true⟩, .destroy 0, .destroy 0]).map (fun r => (r.1.live, r.1.attrs)) = some ([], 1) ∧
    (run ⟨[], 0, [], 0⟩ [] [.new .queue ⟨true, false, true⟩]).map (fun r => (r.1.live, r.1.sync)) = some ([], [1]) := by
  decide +kernel
