import Verif.Spec.Queue
namespace Queue
open QueueSpec

/-- The nodes reachable from `head` are exactly `l` (address, data), correctly linked, ending in `tail`. -/
def Chain {α : Type} (c : Nat → Option (Node α)) (prev : Option Nat) (head tail : Option Nat) :
    List (Nat × α) → Prop
  | [] => head = none ∧ tail = prev
  | (a, x) :: rest => head = some a ∧ ∃ nxt, c a = some ⟨x, nxt, prev⟩ ∧ Chain c (some a) nxt tail rest

structure Inv {α : Type} (q : Q α) (l : List (Nat × α)) : Prop where
  chain : Chain q.heap.cells none q.head q.tail l
  nodup : (l.map (·.1)).Nodup
  below : ∀ p ∈ l, p.1 < q.heap.fresh
  count : q.nodeCount = l.length
  /-- no leaks: every allocated cell is on the list -/
  only : ∀ a, q.heap.cells a ≠ none → a ∈ l.map (·.1)

theorem chain_congr {α : Type} {c c' : Nat → Option (Node α)} {l : List (Nat × α)} :
    ∀ {prev head tail}, (∀ p ∈ l, c' p.1 = c p.1) → Chain c prev head tail l → Chain c' prev head tail l := by
  induction l with
  | nil => intro _ _ _ _ h; exact h
  | cons p rest ih =>
    intro prev head tail hc h
    obtain ⟨a, x⟩ := p
    obtain ⟨h1, nxt, h2, h3⟩ := h
    exact ⟨h1, nxt, by rw [hc (a, x) (by simp)]; exact h2, ih (fun p hp => hc p (by simp [hp])) h3⟩

/-- Tail node facts and appending a node at the end. -/
theorem chain_snoc {α : Type} {c : Nat → Option (Node α)} {new : Nat} {y : α} {l : List (Nat × α)} :
    ∀ {prev head tail}, Chain c prev head tail l → (l.map (·.1)).Nodup → new ∉ l.map (·.1) →
      l ≠ [] → ∃ t x pv, tail = some t ∧ t ∈ l.map (·.1) ∧ c t = some ⟨x, none, pv⟩ ∧
        ∀ c', (∀ a, a ≠ t → a ≠ new → c' a = c a) → c' t = some ⟨x, some new, pv⟩ → c' new = some ⟨y, none, some t⟩ →
          Chain c' prev head (some new) (l ++ [(new, y)]) := by
  induction l with
  | nil => intro _ _ _ _ _ _ h; exact absurd rfl h
  | cons p rest ih =>
    intro prev head tail h hnd hnew _
    obtain ⟨a, x⟩ := p
    obtain ⟨h1, nxt, h2, h3⟩ := h
    cases rest with
    | nil =>
      obtain ⟨h4, h5⟩ := h3
      subst h4
      refine ⟨a, x, prev, h5, by simp, h2, ?_⟩
      intro c' _ hct hcn
      exact ⟨h1, some new, hct, rfl, none, hcn, rfl, rfl⟩
    | cons q rest' =>
      simp only [List.map_cons, List.nodup_cons] at hnd
      obtain ⟨t, xt, pv, e1, e2, e3, e4⟩ := ih h3 (by simpa using hnd.2) (by simp at hnew ⊢; exact hnew.2) (by simp)
      refine ⟨t, xt, pv, e1, by simp only [List.map_cons, List.mem_cons] at e2 ⊢; exact Or.inr e2, e3, ?_⟩
      intro c' hc hct hcn
      have hat : a ≠ t := by
        intro hh; subst hh
        exact hnd.1 (by simpa using e2)
      have han : a ≠ new := by
        intro hh; subst hh; simp at hnew
      exact ⟨h1, nxt, by rw [hc a hat han]; exact h2, e4 c' hc hct hcn⟩

theorem inv_new {α : Type} (hd : Bool) : Inv (new hd : Q α) [] :=
  ⟨⟨rfl, rfl⟩, by simp, by simp, rfl, by simp [new]⟩

theorem enqueue_spec {α : Type} {q : Q α} {l : List (Nat × α)} (hi : Inv q l) (y : α) :
    ∃ q' , enqueue q y = some q' ∧ Inv q' (l ++ [(q.heap.fresh, y)]) ∧ q'.hasDestroy = q.hasDestroy := by
  obtain ⟨chain, nodup, below, count, only⟩ := hi
  have hfresh : q.heap.fresh ∉ l.map (·.1) := by
    intro h
    obtain ⟨p, hp, he⟩ := List.mem_map.mp h
    have := below p hp
    omega
  have hnd' : ((l ++ [(q.heap.fresh, y)]).map (·.1)).Nodup := by
    simp only [List.map_append, List.map_cons, List.map_nil]
    rw [List.nodup_append]
    refine ⟨nodup, by simp, ?_⟩
    intro a ha b hb
    simp only [List.mem_singleton] at hb
    subst hb
    intro he; subst he; exact hfresh ha
  by_cases hl : l = []
  · subst hl
    obtain ⟨hh, ht⟩ := chain
    simp only [enqueue, nodeNew, ht]
    refine ⟨_, rfl, ⟨?_, hnd', ?_, by simp [count], ?_⟩, rfl⟩
    · exact ⟨rfl, none, by simp [Heap.put], rfl, rfl⟩
    · simp [Heap.put]
    · intro a ha
      simp only [Heap.put] at ha
      split at ha
      · simp [*]
      · exact absurd (only a ha) (by simp)
  · obtain ⟨t, x, pv, e1, e2, e3, e4⟩ := chain_snoc (y := y) chain nodup hfresh hl
    have htf : t ≠ q.heap.fresh := by intro h; rw [h] at e2; exact hfresh e2
    simp [enqueue, nodeNew, e1, Heap.put, Heap.store, htf, Ne.symm htf, e3]
    refine ⟨?_, hnd', ?_, by simp [count], ?_⟩
    · apply e4
      · intro a h1 h2; simp [h1, h2]
      · simp [htf]
      · simp
    · intro p hp
      rcases List.mem_append.mp hp with h | h
      · have := below p h; simp; omega
      · simp at h; simp [h]
    · intro a ha
      simp only [List.map_append, List.mem_append]
      by_cases h1 : a = q.heap.fresh
      · exact Or.inr (by simp [h1])
      · by_cases h2 : a = t
        · exact Or.inl (h2 ▸ e2)
        · simp [h1, h2] at ha
          exact Or.inl (only a ha)

theorem dequeue_spec {α : Type} {q : Q α} {a : Nat} {x : α} {l : List (Nat × α)} (hi : Inv q ((a, x) :: l)) :
    ∃ q', dequeue q = some (q', x) ∧ Inv q' l ∧ q'.hasDestroy = q.hasDestroy := by
  obtain ⟨⟨h1, nxt, h2, h3⟩, nodup, below, count, only⟩ := hi
  simp only [List.map_cons, List.nodup_cons] at nodup
  cases l with
  | nil =>
    obtain ⟨h4, h5⟩ := h3
    subst h4
    simp only [dequeue, h1, Option.bind_eq_bind, Option.bind_some, h2, Heap.free]
    refine ⟨_, rfl, ⟨⟨rfl, rfl⟩, by simp, by simp, by simp [count], ?_⟩, rfl⟩
    intro b hb
    dsimp only at hb
    split at hb
    · exact absurd rfl hb
    · rename_i hne
      have := only b hb
      simp at this
      exact absurd this hne
  | cons p rest =>
    obtain ⟨b, y⟩ := p
    obtain ⟨g1, nxt2, g2, g3⟩ := h3
    have hab : a ≠ b := by intro h; subst h; exact nodup.1 (by simp)
    subst g1
    simp [dequeue, h1, h2, g2, Heap.free, Heap.store, Heap.put, hab]
    refine ⟨⟨rfl, nxt2, by simp [Ne.symm hab], ?_⟩, by simpa using nodup.2, fun p hp => below p (by simp [hp]),
      by simp [count], ?_⟩
    · apply chain_congr _ g3
      intro p hp
      have hpb : p.1 ≠ b := by
        intro h
        simp only [List.map_cons, List.nodup_cons] at nodup
        exact nodup.2.1 (List.mem_map.mpr ⟨p, hp, h⟩)
      have hpa : p.1 ≠ a := by
        intro h
        exact nodup.1 (by simp; right; exact ⟨p.2, by rw [← h]; exact hp⟩)
      simp [hpa, hpb]
    · intro c hc
      dsimp only at hc
      by_cases hca : c = a
      · simp [hca] at hc
      · by_cases hcb : c = b
        · simp [hcb]
        · simp [hca, hcb] at hc
          have := only c hc
          simp only [List.map_cons, List.mem_cons] at this ⊢
          grind

theorem headData_spec {α : Type} {q : Q α} {l : List (Nat × α)} (hi : Inv q l) :
    headData q = (l.map (·.2)).head? := by
  obtain ⟨chain, nodup, below, count, only⟩ := hi
  cases l with
  | nil => simp [headData, chain.1]
  | cons p rest =>
    obtain ⟨a, x⟩ := p
    obtain ⟨h1, nxt, h2, h3⟩ := chain
    simp [headData, h1, h2]

theorem destroyLoop_spec {α : Type} (hd : Bool) : ∀ (l : List (Nat × α)) (fuel : Nat) (h : Heap α) prev head tail,
    Chain h.cells prev head tail l → (l.map (·.1)).Nodup → (∀ a, h.cells a ≠ none → a ∈ l.map (·.1)) →
    l.length ≤ fuel →
    ∃ h', destroyLoop hd fuel h head = some (h', if hd then l.map (·.2) else []) ∧ ∀ a, h'.cells a = none := by
  intro l
  induction l with
  | nil =>
    intro fuel h prev head tail hc _ only _
    rw [hc.1]
    refine ⟨h, ?_, ?_⟩
    · cases fuel <;> cases hd <;> simp [destroyLoop]
    · intro a
      cases hca : h.cells a with
      | none => rfl
      | some n => exact absurd (only a (by simp [hca])) (by simp)
  | cons p rest ih =>
    intro fuel h prev head tail hc hnd only hf
    obtain ⟨a, x⟩ := p
    obtain ⟨h1, nxt, h2, h3⟩ := hc
    simp only [List.map_cons, List.nodup_cons] at hnd
    obtain ⟨f, rfl⟩ : ∃ f, fuel = f + 1 := ⟨fuel - 1, by simp at hf; omega⟩
    have hnone : ∀ p ∈ rest, p.1 ≠ a := by
      intro p hp he
      exact hnd.1 (List.mem_map.mpr ⟨p, hp, he⟩)
    obtain ⟨h', e1, e2⟩ := ih f { h with cells := fun b => if b = a then none else h.cells b } (some a) nxt tail
      (chain_congr (fun p hp => by simp [hnone p hp]) h3) hnd.2
      (by
        intro b hb
        dsimp only at hb
        split at hb
        · exact absurd rfl hb
        · rename_i hne
          have := only b hb
          simp only [List.map_cons, List.mem_cons] at this
          rcases this with h | h
          · exact absurd h hne
          · exact h)
      (by simp at hf; omega)
    refine ⟨h', ?_, e2⟩
    simp [h1, destroyLoop, h2, Heap.free, e1]
    cases hd <;> simp

theorem run_spec {α : Type} : ∀ (ops : List (Op α)) (q : Q α) (l : List (Nat × α)), Inv q l → Allowed l.length ops →
    ∃ q' l', run q ops = some (q', (l.map (·.2) ++ enqueued ops).take (dequeues ops)) ∧ Inv q' l' ∧
      l'.map (·.2) = (l.map (·.2) ++ enqueued ops).drop (dequeues ops) ∧ q'.hasDestroy = q.hasDestroy := by
  intro ops
  induction ops with
  | nil => intro q l hi _; exact ⟨q, l, by simp [run, dequeues], hi, by simp [enqueued, dequeues], rfl⟩
  | cons op ops ih =>
    intro q l hi ha
    cases op with
    | enqueue x =>
      obtain ⟨q1, h1, hi1, hd1⟩ := enqueue_spec hi x
      obtain ⟨q2, l2, h2, hi2, hl2, hd2⟩ := ih q1 _ hi1 (by simpa [Allowed] using ha)
      refine ⟨q2, l2, ?_, hi2, ?_, by rw [hd2, hd1]⟩
      · simp only [run, step, h1, Option.map_some, Option.bind_eq_bind, Option.bind_some, h2]
        simp [enqueued, dequeues]
      · rw [hl2]; simp [enqueued, dequeues]
    | dequeue =>
      obtain ⟨hpos, ha⟩ := ha
      cases l with
      | nil => simp at hpos
      | cons p l =>
        obtain ⟨a, x⟩ := p
        obtain ⟨q1, h1, hi1, hd1⟩ := dequeue_spec hi
        obtain ⟨q2, l2, h2, hi2, hl2, hd2⟩ := ih q1 _ hi1 (by simpa using ha)
        refine ⟨q2, l2, ?_, hi2, ?_, by rw [hd2, hd1]⟩
        · simp only [run, step, h1, Option.map_some, Option.bind_eq_bind, Option.bind_some, h2]
          simp [enqueued, dequeues]
        · rw [hl2]; simp [enqueued, dequeues]

end Queue
