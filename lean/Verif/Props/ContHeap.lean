import Verif.Lemmas.ContHeap
/-! # C187: several stacks, queues, ring buffers and iterators in one memory -/
open ContHeap ContHeapSpec

namespace ContHeap

def Obj.held : Obj → Held
  | .gone => .gone
  | .stack p .. => .stack p
  | .queue p .. => .queue p
  | .ring p .. => .ring p
  | .iter p .. => .iter p

/-- The ring buffer at `b`, or what is left of it. -/
def Obj.refers : Obj → Nat → Prop
  | .gone, _ => True
  | .ring p .., b => p = b
  | _, _ => False

def Rel (os : List Obj) : Obj → Val → Prop
  | .gone, .gone => True
  | .stack _ _ s, .stack o l => Stack.Rep s l.reverse ∧ s.hasDestroy = o
  | .queue _ o ns, .queue o' l => o = o' ∧ ns.map Prod.snd = l
  | .ring _ _ s c e l o, .ring o' c' items => o = o' ∧ c = c' ∧ ∃ all : List Nat, RingBuffer.Inv (buf s c e l o) c (all.map opt) ∧ items = newest c all
  | .iter _ b n, .iter k n' => n = n' ∧ ∃ q, os[k]? = some q ∧ q.refers b
  | _, _ => False

structure R (w : World) (vs : List Val) (os : List Obj) : Prop where
  inv : Inv w.heap os
  held : w.held = os.map Obj.held
  len : os.length = vs.length
  rel : ∀ (i : Nat) (o : Obj) (v : Val), os[i]? = some o → vs[i]? = some v → Rel os o v

theorem focus {α : Type} {os : List α} {i : Nat} {o : α} (h : os[i]? = some o) : os.Perm (o :: os.eraseIdx i) ∧ ∀ o', (os.set i o').Perm (o' :: os.eraseIdx i) := by
  obtain ⟨hi, rfl⟩ := List.getElem?_eq_some_iff.mp h
  constructor
  · conv => lhs; rw [← List.take_append_drop i os, List.drop_eq_getElem_cons hi]
    rw [List.eraseIdx_eq_take_drop_succ]
    exact List.perm_middle
  · intro o'
    rw [List.set_eq_take_append_cons_drop, if_pos hi, List.eraseIdx_eq_take_drop_succ]
    exact List.perm_middle

theorem set_same {α : Type} {l : List α} {i : Nat} {a : α} (h : l[i]? = some a) : l.set i a = l := by
  obtain ⟨hi, rfl⟩ := List.getElem?_eq_some_iff.mp h
  simp

theorem R.get {w : World} {vs : List Val} {os : List Obj} (r : R w vs os) {i : Nat} {v : Val} (hv : vs[i]? = some v) :
    ∃ o, os[i]? = some o ∧ Rel os o v ∧ w.held[i]? = some o.held ∧ Inv w.heap (o :: os.eraseIdx i) := by
  have hi : i < vs.length := (List.getElem?_eq_some_iff.mp hv).1
  have hi2 : i < os.length := by rw [r.len]; exact hi
  have ho : os[i]? = some os[i] := by simp [hi2]
  exact ⟨_, ho, r.rel i _ v ho hv, by rw [r.held, List.getElem?_map, ho]; rfl, r.inv.perm (focus ho).1⟩

/-- Every object before is still there, as itself or gone. -/
theorem Rel.mono {os os' : List Obj} (h : ∀ (k : Nat) (q : Obj) (b : Nat), os[k]? = some q → q.refers b → ∃ q', os'[k]? = some q' ∧ q'.refers b) {o : Obj} {v : Val} (g : Rel os o v) : Rel os' o v := by
  cases o <;> cases v <;> try exact g
  obtain ⟨g1, q, g2, g3⟩ := g
  exact ⟨g1, h _ q _ g2 g3⟩

theorem R.set {w : World} {vs : List Val} {os : List Obj} (r : R w vs os) {i : Nat} {o : Obj} (ho : os[i]? = some o) {h' : Heap} {o' : Obj} {v' : Val}
    (hi : Inv h' (o' :: os.eraseIdx i)) (hb : ∀ b, o.refers b → o'.refers b) (hr : Rel os o' v') : R ⟨h', w.held.set i o'.held⟩ (vs.set i v') (os.set i o') := by
  have hlt : i < os.length := (List.getElem?_eq_some_iff.mp ho).1
  have hk : ∀ (k : Nat) (q : Obj) (b : Nat), os[k]? = some q → q.refers b → ∃ q', (os.set i o')[k]? = some q' ∧ q'.refers b := by
    intro k q b h1 h2
    by_cases e : i = k
    · subst e
      rw [ho] at h1
      simp only [Option.some.injEq] at h1
      subst h1
      exact ⟨o', by rw [List.getElem?_set_self hlt], hb b h2⟩
    · exact ⟨q, by rw [List.getElem?_set_ne e]; exact h1, h2⟩
  refine ⟨hi.perm ((focus ho).2 o').symm, by simp [r.held, List.map_set], by simp [r.len], ?_⟩
  intro k o1 v1 h1 h2
  by_cases e : i = k
  · subst e
    rw [List.getElem?_set_self hlt] at h1
    rw [List.getElem?_set_self (by rw [← r.len]; exact hlt)] at h2
    simp only [Option.some.injEq] at h1 h2
    subst h1 h2
    exact hr.mono hk
  · rw [List.getElem?_set_ne e] at h1 h2
    exact (r.rel k o1 v1 h1 h2).mono hk

/-- The same for a call that keeps the pointer. -/
theorem R.keep {w : World} {vs : List Val} {os : List Obj} (r : R w vs os) {i : Nat} {o : Obj} (ho : os[i]? = some o) {h' : Heap} {o' : Obj} {v' : Val}
    (hi : Inv h' (o' :: os.eraseIdx i)) (hp : o'.held = o.held) (hr : Rel os o' v') : R ⟨h', w.held⟩ (vs.set i v') (os.set i o') := by
  have e : w.held = w.held.set i o'.held := by
    rw [hp]
    refine (set_same ?_).symm
    rw [r.held, List.getElem?_map, ho]; rfl
  rw [e]
  refine r.set ho hi ?_ hr
  intro b
  cases o <;> cases o' <;> simp_all [Obj.held, Obj.refers]

theorem R.push {w : World} {vs : List Val} {os : List Obj} (r : R w vs os) {h' : Heap} {o' : Obj} {v' : Val}
    (hi : Inv h' (o' :: os)) (hr : Rel os o' v') : R ⟨h', w.held ++ [o'.held]⟩ (vs ++ [v']) (os ++ [o']) := by
  have hk : ∀ (k : Nat) (q : Obj) (b : Nat), os[k]? = some q → q.refers b → ∃ q', (os ++ [o'])[k]? = some q' ∧ q'.refers b :=
    fun k q b h1 h2 => ⟨q, by rw [List.getElem?_append_left (List.getElem?_eq_some_iff.mp h1).1]; exact h1, h2⟩
  refine ⟨hi.perm (List.perm_append_comm (l₁ := [o'])), by simp [r.held], by simp [r.len], ?_⟩
  intro k o1 v1 h1 h2
  rw [List.getElem?_append] at h1 h2
  rw [r.len] at h1
  split at h2
  · rename_i hk'; rw [if_pos hk'] at h1; exact (r.rel k o1 v1 h1 h2).mono hk
  · rename_i hk'; rw [if_neg hk'] at h1
    have : k - vs.length = 0 := by
      have := (List.getElem?_eq_some_iff.mp h2).1
      simp at this; omega
    rw [this] at h1 h2
    simp only [List.getElem?_cons_zero, Option.some.injEq] at h1 h2
    subst h1 h2
    exact hr.mono hk

theorem rel_stack {os : List Obj} {o : Obj} {ow : Bool} {l : List Nat} (h : Rel os o (.stack ow l)) : ∃ p d s, o = .stack p d s ∧ Stack.Rep s l.reverse ∧ s.hasDestroy = ow := by
  cases o <;> try exact h.elim
  exact ⟨_, _, _, rfl, h⟩

theorem rel_queue {os : List Obj} {o : Obj} {ow : Bool} {l : List Nat} (h : Rel os o (.queue ow l)) : ∃ p ns, o = .queue p ow ns ∧ ns.map Prod.snd = l := by
  cases o <;> try exact h.elim
  obtain ⟨rfl, h⟩ := h
  exact ⟨_, _, rfl, h⟩

theorem rel_ring {os : List Obj} {o : Obj} {ow : Bool} {c : Nat} {items : List Nat} (h : Rel os o (.ring ow c items)) :
    ∃ p d s e l all, o = .ring p d s c e l ow ∧ RingBuffer.Inv (buf s c e l ow) c (List.map opt all) ∧ items = newest c all := by
  cases o <;> try exact h.elim
  obtain ⟨rfl, rfl, all, h1, h2⟩ := h
  exact ⟨_, _, _, _, _, all, rfl, h1, h2⟩

theorem rel_iter {os : List Obj} {o : Obj} {k n : Nat} (h : Rel os o (.iter k n)) : ∃ p b, o = .iter p b n ∧ ∃ q, os[k]? = some q ∧ q.refers b := by
  cases o <;> try exact h.elim
  obtain ⟨rfl, h⟩ := h
  exact ⟨_, _, rfl, h⟩

theorem newest_length (c : Nat) (l : List Nat) : (newest c l).length = min c l.length := by simp [newest]; omega

theorem newest_snoc (c : Nat) (all : List Nat) (x : Nat) (hc : 0 < c) : newest c (newest c all ++ [x]) = newest c (all ++ [x]) := by
  have h1 : newest c all ++ [x] = (all ++ [x]).drop (all.length - c) := by
    rw [newest, List.drop_append_of_le_length (by omega)]
  rw [h1]
  simp only [newest, List.drop_drop, List.length_drop, List.length_append, List.length_singleton]
  congr 1
  omega

theorem overflow_snoc (c : Nat) (all : List Nat) (x : Nat) (hc : 0 < c) (o : Bool) :
    (if o = true ∧ c ≤ (all.map opt).length then ((RingBufferSpec.newest c (all.map opt)).head?.join).toList else []) = killR o (overflow c (newest c all ++ [x])) := by
  have hl := newest_length c all
  cases o with
  | false => simp [killR]
  | true =>
    simp only [List.length_map, true_and, killR, if_true, overflow, List.length_append, List.length_singleton, hl]
    by_cases h : c ≤ all.length
    · rw [if_pos h, show min c all.length + 1 - c = 1 by omega]
      have e : RingBufferSpec.newest c (all.map opt) = (newest c all).map opt := by simp [RingBufferSpec.newest, newest, List.map_drop]
      rw [e]
      cases hn : newest c all with
      | nil => rw [hn] at hl; simp at hl; omega
      | cons y l =>
        simp only [List.map_cons, List.head?_cons, Option.join_some, List.cons_append, List.take_succ_cons, List.take_zero]
        exact opt_toList y
    · rw [if_neg h, show min c all.length + 1 - c = 0 by omega]
      simp

theorem getLast_newest (c : Nat) (all : List Nat) (hc : 0 < c) : ((all.map opt).getLast?.join).getD 0 = (newest c all).getLast?.getD 0 := by
  rcases List.eq_nil_or_concat all with rfl | ⟨l, x, rfl⟩
  · simp [newest]
  · rw [List.concat_eq_append]
    have : newest c (l ++ [x]) = newest (c - 1) l ++ [x] := by
      simp only [newest, List.length_append, List.length_singleton]
      rw [List.drop_append_of_le_length (by omega)]
      congr 2
      omega
    rw [this]
    simp [opt_getD]

theorem iter_read {s : List Nat} {c e l : Nat} {o : Bool} {all : List Nat} (hi : RingBuffer.Inv (buf s c e l o) c (all.map opt)) (n : Nat) (hn : n ≤ (newest c all).length) :
    RingBuffer.iterNext (buf s c e l o) n = some (((newest c all)[n]?).bind opt, min (n + 1) (newest c all).length) := by
  have hl : (buf s c e l o).len = (newest c all).length := by rw [hi.hlen, newest_length]; simp
  have key := RingBuffer.iterCalls_spec hi 1 n (by rw [hl]; exact hn)
  by_cases h : (newest c all).length = n
  · simp only [RingBuffer.iterNext, hl, h, if_true, Option.some.injEq, Prod.mk.injEq]
    refine ⟨by rw [List.getElem?_eq_none (by omega)]; rfl, by omega⟩
  · cases hx : RingBuffer.iterNext (buf s c e l o) n with
    | none => simp [RingBuffer.iterCalls, hx] at key
    | some y =>
      obtain ⟨a, b⟩ := y
      have hb : b = n + 1 := by
        simp only [RingBuffer.iterNext, hl, h, if_false, Option.bind_eq_bind, Option.bind_eq_some_iff, Option.some.injEq, Prod.mk.injEq] at hx
        obtain ⟨_, _, _, e⟩ := hx
        exact e.symm
      simp only [RingBuffer.iterCalls, hx, Option.bind_eq_bind, Option.bind_some, Option.some.injEq] at key
      have e : RingBufferSpec.newest c (all.map opt) = (newest c all).map opt := by simp [RingBufferSpec.newest, newest, List.map_drop]
      have hlt : n < (newest c all).length := by omega
      rw [e, ← List.map_drop, List.drop_eq_getElem_cons hlt] at key
      simp only [List.map_cons, List.cons_append, List.take_succ_cons, List.take_zero, List.cons.injEq, and_true] at key
      subst hb
      rw [List.getElem?_eq_getElem hlt]
      simp only [Option.bind_some, Option.some.injEq, Prod.mk.injEq]
      refine ⟨?_, by omega⟩
      exact key

theorem step_ok {w : World} {vs : List Val} {os : List Obj} (rr : R w vs os) (op : Op) (hs : ∃ vs' d r, Step vs op vs' d r) :
    ∃ w' vs' d r os', step w op = some (w', r) ∧ Step vs op vs' d r ∧ R w' vs' os' ∧ w'.heap.destroyed = w.heap.destroyed ++ d := by
  obtain ⟨vs', d, r, hs⟩ := hs
  cases op with
  | stackNew c o =>
    obtain ⟨h', e, i', d'⟩ := stackNew_eq rr.inv c o
    exact ⟨_, _, [], 0, _, by simp [step, e]; rfl, ⟨rfl, rfl, rfl⟩, rr.push (v' := .stack o []) i' ⟨Stack.rep_new c o, rfl⟩, by simp [d']⟩
  | queueNew o =>
    obtain ⟨e, i', d'⟩ := queueNew_eq rr.inv o
    exact ⟨_, _, [], 0, _, by simp [step, e]; rfl, ⟨rfl, rfl, rfl⟩, rr.push (v' := .queue o []) i' ⟨rfl, rfl⟩, by simp [d']⟩
  | ringNew c o =>
    obtain ⟨hc, -⟩ := hs
    obtain ⟨h', e, i', d'⟩ := ringNew_eq rr.inv c hc o
    refine ⟨_, _, [], 0, _, by simp [step, e]; rfl, ⟨hc, rfl, rfl, rfl⟩, rr.push (v' := .ring o c []) i' ⟨rfl, rfl, [], ?_, by simp [newest]⟩, by simp [d']⟩
    exact ⟨hc, rfl, by simp [buf], by simp [buf], by simp [buf], by simp, by intro _ k _ hk; simp [buf, opt, List.getElem?_replicate, hk]⟩
  | iterNew i =>
    obtain ⟨⟨o, c, l, hv⟩, -⟩ := hs
    obtain ⟨ob, ho, hr, hp, hi⟩ := rr.get hv
    obtain ⟨p, dd, s, e, l', all, rfl, h1, rfl⟩ := rel_ring hr
    obtain ⟨e1, i', d'⟩ := iterNew_eq rr.inv p
    exact ⟨_, _, [], 0, _, by simp [step, hp, Obj.held]; rfl, ⟨⟨_, _, _, hv⟩, rfl, rfl, rfl⟩, rr.push (v' := .iter i 0) i' ⟨rfl, _, ho, rfl⟩, by simp [d']⟩
  | push i x =>
    obtain ⟨o, l, hv, -⟩ := hs
    obtain ⟨ob, ho, hr, hp, hi⟩ := rr.get hv
    obtain ⟨p, dd, s, rfl, h1, rfl⟩ := rel_stack hr
    obtain ⟨s', e1, h2, h3⟩ := Stack.push_spec h1 x
    have hle := h1.le
    have hsz := h1.size
    obtain ⟨h', d2, e2, i', d'⟩ := stackPush_eq hi (by omega) x e1
    refine ⟨_, _, [], l.length + 1, _, ?_, ⟨_, _, hv, rfl, rfl, rfl⟩, rr.keep ho i' rfl (v' := .stack s.hasDestroy (l ++ [x])) ⟨by simpa using h2, h3⟩, by simp [d']⟩
    have := h2.size
    simp at this
    simp [step, hp, Obj.held, e2, this]
  | pop i =>
    obtain ⟨o, l, hv, -⟩ := hs
    obtain ⟨ob, ho, hr, hp, hi⟩ := rr.get hv
    obtain ⟨p, dd, s, rfl, h1, rfl⟩ := rel_stack hr
    rcases List.eq_nil_or_concat l with rfl | ⟨l, x, rfl⟩
    · obtain ⟨h', e2, i', d'⟩ := stackPop_eq hi (Stack.pop_nil h1)
      exact ⟨_, _, [], 0, _, by simp [step, hp, Obj.held, e2], ⟨_, _, hv, rfl, rfl, rfl⟩, rr.keep ho i' rfl (v' := .stack s.hasDestroy []) ⟨h1, rfl⟩, by simp [d']⟩
    · rw [List.concat_eq_append] at hv h1
      rw [List.reverse_append, List.reverse_singleton, List.singleton_append] at h1
      obtain ⟨s', e1, h2, h3⟩ := Stack.pop_cons h1
      obtain ⟨h', e2, i', d'⟩ := stackPop_eq hi e1
      exact ⟨_, _, [], x, _, by simp [step, hp, Obj.held, e2], ⟨_, _, hv, rfl, rfl, by simp⟩, rr.keep ho i' rfl (v' := .stack s.hasDestroy (l ++ [x]).dropLast) ⟨by simpa using h2, h3⟩, by simp [d']⟩
  | top i =>
    obtain ⟨o, l, hv, -⟩ := hs
    obtain ⟨ob, ho, hr, hp, hi⟩ := rr.get hv
    obtain ⟨p, dd, s, rfl, h1, rfl⟩ := rel_stack hr
    have e2 := stackTop_eq hi (Stack.top_spec h1)
    exact ⟨w, vs, [], l.getLast?.getD 0, os, by simp [step, hp, Obj.held, e2], ⟨_, _, hv, rfl, rfl, rfl⟩, rr, by simp⟩
  | stackCopy i =>
    obtain ⟨o, l, hv, -⟩ := hs
    obtain ⟨ob, ho, hr, hp, hi⟩ := rr.get hv
    obtain ⟨p, dd, s, rfl, h1, rfl⟩ := rel_stack hr
    obtain ⟨s', e1, h2, h3, -⟩ := Stack.copy_spec h1
    obtain ⟨h', p', d2, e2, i', d'⟩ := stackCopy_eq hi e1
    exact ⟨_, _, [], 0, _, by simp [step, hp, Obj.held, e2], ⟨_, _, hv, rfl, rfl, rfl⟩,
      rr.push (o' := .stack p' d2 s') (v' := .stack s.hasDestroy l) (i'.perm (.cons _ (focus ho).1.symm)) ⟨h2, h3⟩, by simp [d']⟩
  | softDestroy i =>
    obtain ⟨o, l, hv, -⟩ := hs
    obtain ⟨ob, ho, hr, hp, hi⟩ := rr.get hv
    obtain ⟨p, dd, s, rfl, h1, rfl⟩ := rel_stack hr
    obtain ⟨h', e2, i', d'⟩ := stackSoftDestroy_eq hi
    exact ⟨_, _, [], 0, _, by simp [step, hp, Obj.held, e2], ⟨_, _, hv, rfl, rfl, rfl⟩, rr.set ho i' (fun _ _ => trivial) (v' := .gone) trivial, by simp [d']⟩
  | enqueue i x =>
    obtain ⟨o, l, hv, -⟩ := hs
    obtain ⟨ob, ho, hr, hp, hi⟩ := rr.get hv
    obtain ⟨p, ns, rfl, rfl⟩ := rel_queue hr
    obtain ⟨h', e2, i', d'⟩ := enqueue_eq hi x
    exact ⟨_, _, [], 0, _, by simp [step, hp, Obj.held, e2], ⟨_, _, hv, rfl, rfl, rfl⟩, rr.keep ho i' rfl (v' := .queue o (ns.map Prod.snd ++ [x])) ⟨rfl, by simp⟩, by simp [d']⟩
  | dequeue i =>
    obtain ⟨o, x, l, hv, -⟩ := hs
    obtain ⟨ob, ho, hr, hp, hi⟩ := rr.get hv
    obtain ⟨p, ns, rfl, h1⟩ := rel_queue hr
    match ns, h1 with
    | (a, y) :: ns, h1 =>
      simp only [List.map_cons, List.cons.injEq] at h1
      obtain ⟨rfl, rfl⟩ := h1
      obtain ⟨h', e2, i', d'⟩ := dequeue_eq hi
      exact ⟨_, _, [], y, _, by simp [step, hp, Obj.held, e2], ⟨_, _, _, hv, rfl, rfl, rfl⟩, rr.keep ho i' rfl (v' := .queue o (ns.map Prod.snd)) ⟨rfl, rfl⟩, by simp [d']⟩
  | queueHead i =>
    obtain ⟨o, x, l, hv, -⟩ := hs
    obtain ⟨ob, ho, hr, hp, hi⟩ := rr.get hv
    obtain ⟨p, ns, rfl, h1⟩ := rel_queue hr
    match ns, h1 with
    | (a, y) :: ns, h1 =>
      simp only [List.map_cons, List.cons.injEq] at h1
      obtain ⟨rfl, rfl⟩ := h1
      exact ⟨w, vs, [], y, os, by simp [step, hp, Obj.held, queueHead_eq hi], ⟨_, _, _, hv, rfl, rfl, rfl⟩, rr, by simp⟩
  | ringAppend i x =>
    obtain ⟨o, c, l, hv, -⟩ := hs
    obtain ⟨ob, ho, hr, hp, hi⟩ := rr.get hv
    obtain ⟨p, dd, s, e, l', all, rfl, h1, rfl⟩ := rel_ring hr
    obtain ⟨b', ds, e1, h2, -, -, h4⟩ := RingBuffer.append_spec h1 (opt x)
    obtain ⟨h', s', e', l2, e2, rfl, i', d'⟩ := ringAppend_eq hi x e1
    have hc := h1.pos
    refine ⟨_, _, _, 0, _, by simp [step, hp, Obj.held, e2], ⟨_, _, _, hv, rfl, rfl, rfl⟩, rr.keep ho i' rfl (v' := .ring o c (newest c (newest c all ++ [x]))) ⟨rfl, rfl, all ++ [x], ?_, ?_⟩, ?_⟩
    · simpa [buf] using h2
    · exact newest_snoc c all x hc
    · have h5 := overflow_snoc c all x hc o
      rw [d', h4, ← h5]
      rfl
  | ringClear i =>
    obtain ⟨o, c, l, hv, -⟩ := hs
    obtain ⟨ob, ho, hr, hp, hi⟩ := rr.get hv
    obtain ⟨p, dd, s, e, l', all, rfl, h1, rfl⟩ := rel_ring hr
    obtain ⟨b', ds, e1, h2, -, -, h4⟩ := RingBuffer.clear_spec h1
    obtain ⟨h', s', e2, rfl, i', d'⟩ := ringClear_eq hi e1
    refine ⟨_, _, ds, 0, _, by simp [step, hp, Obj.held, e2], ⟨_, _, _, hv, rfl, ?_, rfl⟩, rr.keep ho i' rfl (v' := .ring o c []) ⟨rfl, rfl, [], h2, by simp [newest]⟩, d'⟩
    have e : RingBufferSpec.newest c (all.map opt) = (newest c all).map opt := by simp [RingBufferSpec.newest, newest, List.map_drop]
    rw [e, filterMap_opt] at h4
    exact h4
  | ringHead i =>
    obtain ⟨o, c, l, hv, -⟩ := hs
    obtain ⟨ob, ho, hr, hp, hi⟩ := rr.get hv
    obtain ⟨p, dd, s, e, l', all, rfl, h1, rfl⟩ := rel_ring hr
    have e2 := ringHead_eq (hi.good _ List.mem_cons_self) (RingBuffer.head_spec h1)
    rw [getLast_newest c all h1.pos] at e2
    exact ⟨w, vs, [], _, os, by simp [step, hp, Obj.held, e2], ⟨_, _, _, hv, rfl, rfl, rfl⟩, rr, by simp⟩
  | iterNext i =>
    obtain ⟨k, n, o, c, l, hv, hv2, hn, -⟩ := hs
    obtain ⟨ob, ho, hr, hp, hi⟩ := rr.get hv
    obtain ⟨ob2, ho2, hr2, -, -⟩ := rr.get hv2
    obtain ⟨p, b, rfl, q, hq, hqr⟩ := rel_iter hr
    obtain ⟨p2, dd, s, e, l', all, rfl, h1, rfl⟩ := rel_ring hr2
    rw [ho2] at hq
    simp only [Option.some.injEq] at hq
    subst hq
    have hb : p2 = b := hqr
    subst hb
    obtain ⟨h', e2, i', d'⟩ := iterNext_eq hi (rr.inv.good _ (List.mem_of_getElem? ho2)) (iter_read h1 n hn)
    refine ⟨_, _, [], _, _, by simp [step, hp, Obj.held, e2]; rfl, ⟨_, _, _, _, _, hv, hv2, hn, rfl, rfl, ?_⟩, rr.keep ho i' rfl (v' := .iter k (min (n + 1) (newest c all).length)) ⟨rfl, _, ho2, rfl⟩, by simp [d']⟩
    cases (newest c all)[n]? with
    | none => rfl
    | some y => simp [opt_getD]
  | count i =>
    obtain ⟨-, -, ⟨o, l, hv, -⟩ | ⟨o, l, hv, -⟩ | ⟨o, c, l, hv, -⟩⟩ := hs
    · obtain ⟨ob, ho, hr, hp, hi⟩ := rr.get hv
      obtain ⟨p, dd, s, rfl, h1, rfl⟩ := rel_stack hr
      refine ⟨w, vs, [], l.length, os, ?_, ⟨rfl, rfl, .inl ⟨_, _, hv, rfl⟩⟩, rr, by simp⟩
      have := h1.size
      simp at this
      simp [step, hp, Obj.held, stackCount, stackAt_eq (hi.good _ List.mem_cons_self), this]
    · obtain ⟨ob, ho, hr, hp, hi⟩ := rr.get hv
      obtain ⟨p, ns, rfl, rfl⟩ := rel_queue hr
      refine ⟨w, vs, [], (ns.map Prod.snd).length, os, ?_, ⟨rfl, rfl, .inr (.inl ⟨_, _, hv, rfl⟩)⟩, rr, by simp⟩
      simp [step, hp, Obj.held, queueCount, queueAt_eq (hi.good _ List.mem_cons_self)]
    · obtain ⟨ob, ho, hr, hp, hi⟩ := rr.get hv
      obtain ⟨p, dd, s, e, l', all, rfl, h1, rfl⟩ := rel_ring hr
      refine ⟨w, vs, [], (newest c all).length, os, ?_, ⟨rfl, rfl, .inr (.inr ⟨_, _, _, hv, rfl⟩)⟩, rr, by simp⟩
      have := h1.hlen
      simp [buf] at this
      simp [step, hp, Obj.held, ringLength, ringAt_eq (hi.good _ List.mem_cons_self), newest_length, this]
  | destroy i =>
    obtain ⟨-, -, ⟨o, l, hv, -⟩ | ⟨o, l, hv, -⟩ | ⟨o, c, l, hv, -⟩ | ⟨k, n, hv, -⟩⟩ := hs
    · obtain ⟨ob, ho, hr, hp, hi⟩ := rr.get hv
      obtain ⟨p, dd, s, rfl, h1, rfl⟩ := rel_stack hr
      obtain ⟨h', e2, i', d'⟩ := stackDestroy_eq hi h1
      rw [List.reverse_reverse] at d'
      exact ⟨_, _, _, 0, _, by simp [step, hp, Obj.held, e2], ⟨rfl, rfl, .inl ⟨_, _, hv, rfl⟩⟩, rr.set ho i' (fun _ _ => trivial) (v' := .gone) trivial, d'⟩
    · obtain ⟨ob, ho, hr, hp, hi⟩ := rr.get hv
      obtain ⟨p, ns, rfl, rfl⟩ := rel_queue hr
      obtain ⟨h', e2, i', d'⟩ := queueDestroy_eq hi
      exact ⟨_, _, _, 0, _, by simp [step, hp, Obj.held, e2], ⟨rfl, rfl, .inr (.inl ⟨_, _, hv, rfl⟩)⟩, rr.set ho i' (fun _ _ => trivial) (v' := .gone) trivial, d'⟩
    · obtain ⟨ob, ho, hr, hp, hi⟩ := rr.get hv
      obtain ⟨p, dd, s, e, l', all, rfl, h1, rfl⟩ := rel_ring hr
      obtain ⟨b', ds, e1, h2, -, -, h4⟩ := RingBuffer.clear_spec h1
      obtain ⟨h', e2, i', d'⟩ := ringDestroy_eq hi e1
      refine ⟨_, _, ds, 0, _, by simp [step, hp, Obj.held, e2], ⟨rfl, rfl, .inr (.inr (.inl ⟨_, _, _, hv, ?_⟩))⟩, rr.set ho i' (fun _ _ => trivial) (v' := .gone) trivial, d'⟩
      have e : RingBufferSpec.newest c (all.map opt) = (newest c all).map opt := by simp [RingBufferSpec.newest, newest, List.map_drop]
      rw [e, filterMap_opt] at h4
      exact h4
    · obtain ⟨ob, ho, hr, hp, hi⟩ := rr.get hv
      obtain ⟨p, b, rfl, -⟩ := rel_iter hr
      obtain ⟨h', e2, i', d'⟩ := iterDestroy_eq hi
      exact ⟨_, _, [], 0, _, by simp [step, hp, Obj.held, e2], ⟨rfl, rfl, .inr (.inr (.inr ⟨_, _, hv, rfl⟩))⟩, rr.set ho i' (fun _ _ => trivial) (v' := .gone) trivial, by simp [d']⟩

theorem run_ok : ∀ (ops : List Op) {w : World} {vs : List Val} {os : List Obj}, R w vs os → Allowed vs ops →
    ∃ w' vs' d rs os', run w ops = some (w', rs) ∧ Steps vs ops vs' d rs ∧ R w' vs' os' ∧ w'.heap.destroyed = w.heap.destroyed ++ d := by
  intro ops
  induction ops with
  | nil => intro w vs os rr _; exact ⟨w, vs, [], [], os, rfl, .nil vs, rr, by simp⟩
  | cons o ops ih =>
    intro w vs os rr ha
    obtain ⟨w1, vs1, d1, r1, os1, e1, s1, rr1, k1⟩ := step_ok rr o ha.1
    obtain ⟨w2, vs2, d2, rs2, os2, e2, s2, rr2, k2⟩ := ih rr1 (ha.2 _ _ _ s1)
    exact ⟨w2, vs2, d1 ++ d2, r1 :: rs2, os2, by simp [run, e1, e2], .cons s1 s2, rr2, by rw [k2, k1, List.append_assoc]⟩

theorem init_R : R init [] [] := ⟨⟨by simp, by simp, by simp [init], by simp⟩, rfl, rfl, by simp⟩

theorem sizes {os : List Obj} {vs : List Val} (len : os.length = vs.length) {P : List Obj} (rel : ∀ (i : Nat) (o : Obj) (v : Val), os[i]? = some o → vs[i]? = some v → Rel P o v) :
    (blocks os).length = (vs.map Val.size).sum := by
  induction os generalizing vs with
  | nil => cases vs <;> simp_all
  | cons o os ih =>
    cases vs with
    | nil => simp at len
    | cons v vs =>
      have h := rel 0 o v rfl rfl
      have := ih (vs := vs) (by simpa using len) fun i o v h1 h2 => rel (i + 1) o v (by simpa using h1) (by simpa using h2)
      rw [blocks_cons, List.length_append, this, List.map_cons, List.sum_cons]
      congr 1
      cases o <;> cases v <;> try exact h.elim
      · rfl
      · rfl
      · obtain ⟨-, rfl⟩ := h
        simp [Obj.blocks, Val.size]; omega
      · rfl
      · rfl

end ContHeap

/-- **C187.** Any program that uses only things it has not destroyed, takes from no empty queue and moves no iterator past what is left behind it, runs without undefined behaviour;
every stack, queue, ring buffer and iterator behaves as a list of its own, whatever happens to the others; each call returns, and gives to destructors, what it should; and the memory
in use is exactly that of the things not destroyed. -/
theorem C187_any_program (ops : List Op) (h : Allowed [] ops) :
    ∃ w vs d rs, run init ops = some (w, rs) ∧ Steps [] ops vs d rs ∧ w.heap.destroyed = d ∧
      ∃ used : List Nat, used.Nodup ∧ (∀ a, w.heap.mem a ≠ none ↔ a ∈ used) ∧ used.length = (vs.map Val.size).sum := by
  obtain ⟨w, vs, d, rs, os, e, s, rr, k⟩ := run_ok ops init_R h
  exact ⟨w, vs, d, rs, e, s, by rw [k]; rfl, blocks os, rr.inv.nodup, rr.inv.iff, sizes rr.len rr.rel⟩

/-- **C187.** When everything has been destroyed, no memory is left. -/
theorem C187_nothing_left (ops : List Op) (h : Allowed [] ops) (w : World) (rs : List Nat) (hr : run init ops = some (w, rs)) (hg : ∀ x ∈ w.held, x = .gone) : ∀ a, w.heap.mem a = none := by
  obtain ⟨w', vs, d, rs', os, e, s, rr, k⟩ := run_ok ops init_R h
  rw [hr] at e
  simp only [Option.some.injEq, Prod.mk.injEq] at e
  obtain ⟨rfl, rfl⟩ := e
  intro a
  apply Decidable.byContradiction
  intro hx
  obtain ⟨o, ho, ha⟩ := List.mem_flatMap.mp (rr.inv.only a hx)
  have := hg o.held (by rw [rr.held]; exact List.mem_map_of_mem ho)
  cases o <;> simp [Obj.held, Obj.blocks] at this ha

namespace ContHeap

/-- Everything has a destructor and holds no NULL. -/
def Owned (vs : List Val) : Prop := ∀ v ∈ vs, (match v with | .stack o _ => o = true | .queue o _ => o = true | .ring o _ _ => o = true | _ => True) ∧ ∀ x ∈ v.items, x ≠ 0

/-- All items. -/
def contents (vs : List Val) : List Nat := vs.flatMap Val.items

theorem contents_set (a : Nat) {vs : List Val} {i : Nat} {v v' : Val} (h : vs[i]? = some v) :
    (contents (vs.set i v')).count a + v.items.count a = (contents vs).count a + v'.items.count a := by
  induction vs generalizing i with
  | nil => simp at h
  | cons u us ih =>
    cases i with
    | zero =>
      simp only [List.getElem?_cons_zero, Option.some.injEq] at h
      subst h
      simp [contents]; omega
    | succ i =>
      have := ih (i := i) (by simpa using h)
      simp only [contents, List.set_cons_succ, List.flatMap_cons, List.count_append] at this ⊢
      omega

theorem Owned.set {vs : List Val} (w : Owned vs) {i : Nat} {v : Val} (h : Owned [v]) : Owned (vs.set i v) := by
  intro u hu
  rcases List.mem_or_eq_of_mem_set hu with hu | rfl
  · exact w u hu
  · exact h _ (by simp)

theorem Owned.push {vs : List Val} (w : Owned vs) {v : Val} (h : Owned [v]) : Owned (vs ++ [v]) := by
  intro u hu
  rcases List.mem_append.mp hu with hu | hu
  · exact w u hu
  · exact h _ hu

theorem Owned.one {v : Val} (h1 : match v with | .stack o _ => o = true | .queue o _ => o = true | .ring o _ _ => o = true | _ => True) (h2 : ∀ x ∈ v.items, x ≠ 0) : Owned [v] := by
  intro u hu
  simp only [List.mem_singleton] at hu
  subst hu
  exact ⟨h1, h2⟩

theorem filter_id {l : List Nat} (h : ∀ x ∈ l, x ≠ 0) : l.filter (· ≠ 0) = l := by
  rw [List.filter_eq_self]
  simpa using h

theorem step_account {vs vs' : List Val} {op : Op} {d : List Nat} {r : Nat} (s : Step vs op vs' d r) (w : Owned vs) (hs : Op.strays op = false) (hg : ∀ x ∈ given [op], x ≠ 0) :
    Owned vs' ∧ ∀ a, (given [op]).count a + (contents vs).count a = (contents vs').count a + d.count a + (taken [op] [r]).count a := by
  cases op with
  | stackNew c o =>
    obtain ⟨rfl, rfl, rfl⟩ := s
    simp only [Op.strays, Bool.not_eq_false'] at hs
    refine ⟨w.push (.one hs (by simp [Val.items])), fun a => by simp [given, taken, contents, Val.items]⟩
  | queueNew o =>
    obtain ⟨rfl, rfl, rfl⟩ := s
    simp only [Op.strays, Bool.not_eq_false'] at hs
    refine ⟨w.push (.one hs (by simp [Val.items])), fun a => by simp [given, taken, contents, Val.items]⟩
  | ringNew c o =>
    obtain ⟨-, rfl, rfl, rfl⟩ := s
    simp only [Op.strays, Bool.not_eq_false'] at hs
    refine ⟨w.push (.one hs (by simp [Val.items])), fun a => by simp [given, taken, contents, Val.items]⟩
  | iterNew i =>
    obtain ⟨-, rfl, rfl, rfl⟩ := s
    refine ⟨w.push (.one trivial (by simp [Val.items])), fun a => by simp [given, taken, contents, Val.items]⟩
  | push i x =>
    obtain ⟨o, l, hv, rfl, rfl, rfl⟩ := s
    have h := w _ (List.mem_of_getElem? hv)
    refine ⟨w.set (.one h.1 ?_), fun a => ?_⟩
    · intro y hy
      rcases List.mem_append.mp hy with hy | hy
      · exact h.2 y hy
      · simp at hy; subst hy; exact hg y (by simp [given])
    · have := contents_set a (v' := .stack o (l ++ [x])) hv
      simp [Val.items, given, taken] at this ⊢; omega
  | pop i =>
    obtain ⟨o, l, hv, rfl, rfl, rfl⟩ := s
    have h := w _ (List.mem_of_getElem? hv)
    refine ⟨w.set (.one h.1 ?_), fun a => ?_⟩
    · intro y hy
      exact h.2 y (List.dropLast_subset _ hy)
    · have := contents_set a (v' := .stack o l.dropLast) hv
      rcases List.eq_nil_or_concat l with rfl | ⟨l, x, rfl⟩
      · simp [Val.items, given, taken] at this ⊢; omega
      · have hx : x ≠ 0 := h.2 x (by simp [Val.items])
        simp [Val.items, given, taken, hx] at this ⊢; omega
  | top i =>
    obtain ⟨o, l, hv, rfl, rfl, rfl⟩ := s
    exact ⟨w, fun a => by simp [given, taken]⟩
  | stackCopy i => simp [Op.strays] at hs
  | softDestroy i => simp [Op.strays] at hs
  | enqueue i x =>
    obtain ⟨o, l, hv, rfl, rfl, rfl⟩ := s
    have h := w _ (List.mem_of_getElem? hv)
    refine ⟨w.set (.one h.1 ?_), fun a => ?_⟩
    · intro y hy
      rcases List.mem_append.mp hy with hy | hy
      · exact h.2 y hy
      · simp at hy; subst hy; exact hg y (by simp [given])
    · have := contents_set a (v' := .queue o (l ++ [x])) hv
      simp [Val.items, given, taken] at this ⊢; omega
  | dequeue i =>
    obtain ⟨o, x, l, hv, rfl, rfl, rfl⟩ := s
    have h := w _ (List.mem_of_getElem? hv)
    refine ⟨w.set (.one h.1 ?_), fun a => ?_⟩
    · intro y hy
      exact h.2 y (List.mem_cons_of_mem _ hy)
    · have := contents_set a (v' := .queue o l) hv
      simp [Val.items, given, taken, List.count_cons] at this ⊢; omega
  | queueHead i =>
    obtain ⟨o, x, l, hv, rfl, rfl, rfl⟩ := s
    exact ⟨w, fun a => by simp [given, taken]⟩
  | ringAppend i x =>
    obtain ⟨o, c, l, hv, rfl, rfl, rfl⟩ := s
    have h := w _ (List.mem_of_getElem? hv)
    have ho : o = true := h.1
    have hz : ∀ y ∈ l ++ [x], y ≠ 0 := by
      intro y hy
      rcases List.mem_append.mp hy with hy | hy
      · exact h.2 y hy
      · simp at hy; subst hy; exact hg y (by simp [given])
    refine ⟨w.set (.one h.1 fun y hy => hz y (List.mem_of_mem_drop hy)), fun a => ?_⟩
    have := contents_set a (v' := .ring o c (newest c (l ++ [x]))) hv
    have e : killR o (overflow c (l ++ [x])) = overflow c (l ++ [x]) := by
      rw [killR, if_pos ho]
      exact filter_id fun y hy => hz y (List.mem_of_mem_take hy)
    have e2 : (l ++ [x]).count a = (overflow c (l ++ [x])).count a + (newest c (l ++ [x])).count a := by
      rw [← List.count_append, overflow, newest, List.take_append_drop]
    rw [e]
    simp only [List.count_append] at e2
    simp only [Val.items, given, taken, List.count_nil, Nat.add_zero] at this ⊢
    omega
  | ringClear i =>
    obtain ⟨o, c, l, hv, rfl, hd, rfl⟩ := s
    have h := w _ (List.mem_of_getElem? hv)
    have ho : o = true := h.1
    refine ⟨w.set (.one h.1 (by simp [Val.items])), fun a => ?_⟩
    have := contents_set a (v' := .ring o c []) hv
    rw [killR, if_pos ho, filter_id (l := l) h.2] at hd
    rw [hd.count_eq a]
    simp only [Val.items, given, taken, List.count_nil, Nat.add_zero] at this ⊢
    omega
  | ringHead i =>
    obtain ⟨o, c, l, hv, rfl, rfl, rfl⟩ := s
    exact ⟨w, fun a => by simp [given, taken]⟩
  | iterNext i =>
    obtain ⟨k, n, o, c, l, hv, -, -, rfl, rfl, rfl⟩ := s
    refine ⟨w.set (.one trivial (by simp [Val.items])), fun a => ?_⟩
    have := contents_set a (v' := .iter k (min (n + 1) l.length)) hv
    simp only [Val.items, given, taken, List.count_nil, Nat.add_zero] at this ⊢
    omega
  | count i =>
    obtain ⟨rfl, rfl, -⟩ := s
    exact ⟨w, fun a => by simp [given, taken]⟩
  | destroy i =>
    obtain ⟨rfl, rfl, s⟩ := s
    refine ⟨w.set (.one trivial (by simp [Val.items])), fun a => ?_⟩
    rcases s with ⟨o, l, hv, rfl⟩ | ⟨o, l, hv, rfl⟩ | ⟨o, c, l, hv, hd⟩ | ⟨k, n, hv, rfl⟩
    · have h := w _ (List.mem_of_getElem? hv)
      have ho : o = true := h.1
      have := contents_set a (v' := .gone) hv
      rw [ContHeapSpec.kill, if_pos ho]
      simp only [Val.items, given, taken, List.count_nil, Nat.add_zero] at this ⊢
      omega
    · have h := w _ (List.mem_of_getElem? hv)
      have ho : o = true := h.1
      have := contents_set a (v' := .gone) hv
      rw [ContHeapSpec.kill, if_pos ho]
      simp only [Val.items, given, taken, List.count_nil, Nat.add_zero] at this ⊢
      omega
    · have h := w _ (List.mem_of_getElem? hv)
      have ho : o = true := h.1
      have := contents_set a (v' := .gone) hv
      rw [killR, if_pos ho, filter_id (l := l) h.2] at hd
      rw [hd.count_eq a]
      simp only [Val.items, given, taken, List.count_nil, Nat.add_zero] at this ⊢
      omega
    · have := contents_set a (v' := .gone) hv
      simp only [Val.items, given, taken, List.count_nil, Nat.add_zero] at this ⊢
      omega

theorem given_cons (o : Op) (os : List Op) : given (o :: os) = given [o] ++ given os := by cases o <;> rfl

theorem taken_cons (o : Op) (os : List Op) (r : Nat) (rs : List Nat) : taken (o :: os) (r :: rs) = taken [o] [r] ++ taken os rs := by cases o <;> simp [taken]

theorem steps_account {vs vs' : List Val} {ops : List Op} {d rs : List Nat} (s : Steps vs ops vs' d rs) (w : Owned vs) (hs : ∀ o ∈ ops, Op.strays o = false) (hg : ∀ x ∈ given ops, x ≠ 0) :
    ∀ a, (given ops).count a + (contents vs).count a = (contents vs').count a + d.count a + (taken ops rs).count a := by
  induction s with
  | nil => intro a; simp [given, taken]
  | cons s _ ih =>
    rw [given_cons] at hg
    obtain ⟨w', h⟩ := step_account s w (hs _ (by simp)) fun x hx => hg x (List.mem_append_left _ hx)
    have h2 := ih w' (fun o ho => hs o (List.mem_cons_of_mem _ ho)) fun x hx => hg x (List.mem_append_right _ hx)
    intro a
    have h1 := h a
    have h2 := h2 a
    rw [given_cons, taken_cons, List.count_append, List.count_append, List.count_append]
    omega

end ContHeap

/-- **C187.** In a program whose containers all have a destructor, that copies no stack and soft-destroys none, and gives no NULL, every item given is accounted for exactly once: it is
still in a container, or was given to a destructor, or was returned by the call that took it out. -/
theorem C187_no_item_lost (ops : List Op) (h : Allowed [] ops) (hs : ∀ o ∈ ops, Op.strays o = false) (hg : ∀ x ∈ given ops, x ≠ 0) :
    ∃ w vs d rs, run init ops = some (w, rs) ∧ Steps [] ops vs d rs ∧ w.heap.destroyed = d ∧ (given ops).Perm (vs.flatMap Val.items ++ d ++ taken ops rs) := by
  obtain ⟨w, vs, d, rs, os, e, s, rr, k⟩ := run_ok ops init_R h
  refine ⟨w, vs, d, rs, e, s, by rw [k]; rfl, ?_⟩
  rw [List.perm_iff_count]
  intro a
  have := steps_account s (by intro v hv; simp at hv) hs hg a
  simpa [contents, List.count_append, Nat.add_assoc] using this

/-! ### What the code does not give -/

/-- **C187.** `StackCopy` copies the destructor with the pointers: the same item is given to it once for each of the two stacks. -/
theorem C187_copy_destroys_twice_negated :
    (run init [.stackNew 1 true, .push 0 5, .stackCopy 0, .destroy 0, .destroy 1]).map (fun r => r.1.heap.destroyed) = some [5, 5] := by decide +kernel

/-- **C187.** An iterator keeps its count when the ring buffer is cleared: its next call reads outside the array. -/
theorem C187_iterator_after_clear_negated :
    run init [.ringNew 2 false, .ringAppend 0 7, .ringAppend 0 8, .iterNew 0, .iterNext 1, .iterNext 1, .ringClear 0, .iterNext 1] = none := by rfl

/-- **C187.** `QueueDequeue` and `QueueHead` of an empty queue use NULL. -/
theorem C187_empty_queue_negated : run init [.queueNew false, .dequeue 0] = none ∧ run init [.queueNew false, .queueHead 0] = none := ⟨rfl, rfl⟩

/-- **C187.** An iterator whose ring buffer was destroyed reads freed memory. -/
theorem C187_iterator_after_destroy_negated : run init [.ringNew 2 false, .iterNew 0, .destroy 0, .iterNext 1] = none := rfl

/-! ### The hypotheses can be met -/

/-- A program with one thing of each kind, in which the ring buffer overflows and the stack grows. -/
def ContHeap.sample : List Op :=
  [.stackNew 1 true, .queueNew true, .ringNew 2 true, .iterNew 2, .push 0 5, .push 0 6, .enqueue 1 7, .enqueue 1 8, .ringAppend 2 1, .ringAppend 2 2, .ringAppend 2 3, .iterNext 3, .pop 0,
   .dequeue 1, .count 2, .destroy 3, .destroy 2, .destroy 0, .destroy 1]

example : (run init ContHeap.sample).map (fun r => (r.2, r.1.heap.destroyed)) =
    some ([0, 0, 0, 0, 1, 2, 0, 0, 0, 0, 0, 2, 6, 7, 2, 0, 0, 0, 0], [1, 3, 2, 5, 8]) := by decide +kernel

example : (∀ o ∈ ContHeap.sample, Op.strays o = false) ∧ (∀ x ∈ given ContHeap.sample, x ≠ 0) := by
  constructor <;> simp [ContHeap.sample, Op.strays, given]

example : Allowed [] [.stackNew 1 true, .queueNew true, .push 0 5, .enqueue 1 7, .dequeue 1, .destroy 0, .destroy 1] := by
  refine ⟨⟨_, _, _, rfl, rfl, rfl⟩, ?_⟩
  rintro _ _ _ ⟨rfl, rfl, rfl⟩
  refine ⟨⟨_, _, _, rfl, rfl, rfl⟩, ?_⟩
  rintro _ _ _ ⟨rfl, rfl, rfl⟩
  refine ⟨⟨_, _, _, _, _, rfl, rfl, rfl, rfl⟩, ?_⟩
  rintro _ _ _ ⟨_, _, h, rfl, rfl, rfl⟩
  cases h
  refine ⟨⟨_, _, _, _, _, rfl, rfl, rfl, rfl⟩, ?_⟩
  rintro _ _ _ ⟨_, _, h, rfl, rfl, rfl⟩
  cases h
  refine ⟨⟨_, _, _, _, _, _, rfl, rfl, rfl, rfl⟩, ?_⟩
  rintro _ _ _ ⟨_, _, _, h, rfl, rfl, rfl⟩
  cases h
  refine ⟨⟨_, _, _, rfl, rfl, .inl ⟨_, _, rfl, rfl⟩⟩, ?_⟩
  rintro _ _ _ ⟨rfl, rfl, -⟩
  refine ⟨⟨_, _, _, rfl, rfl, .inr (.inl ⟨_, _, rfl, rfl⟩)⟩, ?_⟩
  rintro _ _ _ ⟨rfl, rfl, -⟩
  trivial
