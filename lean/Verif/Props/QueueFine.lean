import Verif.Lemmas.QueueFine
/-! # C128, C129: the threaded queue under every schedule -/
namespace TQF
open TDT (Cond)
open Mon BlockSpec Lin

/-- A new queue (threaded_queue.c:58-132) and `n` threads. -/
def init {P : Type} (cap n : Nat) : State (TQ.Q P) (QOp P) Cond (Res P) := start n (TQ.new cap)

/-- The queue a new one stands for. -/
def fresh (P : Type) (cap : Nat) : St P := ⟨[], if cap = 0 then 16 else cap⟩

theorem init_inv {P : Type} (strict : Prop) (cap n : Nat) :
    Inv (claims P strict) (code P) (fresh P cap) (init cap n) [] (fun _ => .idle) (fresh P cap) (fun _ => none) := by
  refine inv_start ⟨TQ.inv_new cap, rfl⟩ ⟨fun _ => trivial, fun _ => rfl⟩

theorem reach {P : Type} (strict : Prop) (cap n : Nat) (as : List (Action (QOp P))) (s : State (TQ.Q P) (QOp P) Cond (Res P))
    (hc : strict → CallsOk Single as) (hr : run (code P) (init cap n) as = some s) :
    ∃ g ph σ cr, Inv (claims P strict) (code P) (fresh P cap) s g ph σ cr :=
  inv_run (code_ok P strict) as (init_inv strict cap n) (fun t o ho hs => hc hs t o ho) hr

/-- **C128**. Whatever the number of threads, the calls they make, the way their memory accesses are interleaved, and whenever waits
time out or end for no reason, the history of calls and returns is linearizable for a queue: every call that returned looks as if it
had happened at one instant between its call and its return; a blocking call without a time limit returns only with items. -/
theorem C128_linearizable {P : Type} (cap n : Nat) (as : List (Action (QOp P))) (s : State (TQ.Q P) (QOp P) Cond (Res P))
    (hr : run (code P) (init cap n) as = some s) : LinearizableRel queue (fresh P cap) s.hist := by
  obtain ⟨g, ph, σ, cr, h⟩ := reach False cap n as s False.elim hr
  exact ⟨g, ph, σ, h.er, h.phases, h.legal⟩

/-- The thread can execute its next instruction. -/
def canRun {P : Type} (s : State (TQ.Q P) (QOp P) Cond (Res P)) (t : Nat) : Prop :=
  ∃ who, (step (code P) s (.run t who)).isSome = true

/-- **C128**: no schedule leads to undefined behaviour, to a mutex released by a thread that does not hold it, or to a deadlock: in
every reachable state a thread inside a function can execute its next instruction, unless it sleeps, or has to take the mutex
while another thread holds it, and then that other thread can execute its next one. -/
theorem C128_progress {P : Type} (cap n : Nat) (as : List (Action (QOp P))) (s : State (TQ.Q P) (QOp P) Cond (Res P))
    (hr : run (code P) (init cap n) as = some s) (t : Nat) (x : TS (TQ.Q P) (QOp P) Cond (Res P)) (hx : s.th[t]? = some x)
    (hni : x ≠ .idle) (hna : ∀ o, x ≠ .asleep o) :
    canRun s t ∨ (((∃ o b, x = .woken o b) ∨ ∃ o k, x = .running o (.lock k)) ∧ ∃ u, u ≠ t ∧ s.lock = some u ∧ canRun s u) := by
  obtain ⟨g, ph, σ, cr, h⟩ := reach False cap n as s False.elim hr
  by_cases hl : s.lock = some t
  · exact Or.inl (holder_runs h hl)
  · have blocked : (∃ u, u ≠ t ∧ s.lock = some u ∧ canRun s u) ∨ s.lock = none := by
      cases hlk : s.lock with
      | none => exact Or.inr rfl
      | some u => exact Or.inl ⟨u, by rintro rfl; exact hl hlk, rfl, holder_runs h hlk⟩
    cases x with
    | idle => exact absurd rfl hni
    | asleep o => exact absurd rfl (hna o)
    | woken o b =>
      rcases blocked with hb | hn
      · exact Or.inr ⟨Or.inl ⟨o, b, rfl⟩, hb⟩
      · exact Or.inl ⟨none, by simp [step, hx, hn]⟩
    | running o p =>
      obtain ⟨hok, ⟨hph, hp⟩ | ⟨r, hph, hp⟩⟩ := h.outside t _ hx hl
      · obtain ⟨k, hk, _⟩ := (code_ok P False).prog o hok
        rw [hk] at hp
        subst hp
        rcases blocked with hb | hn
        · exact Or.inr ⟨Or.inr ⟨o, k, rfl⟩, hb⟩
        · exact Or.inl ⟨none, by simp [step, hx, instr, hn]⟩
      · subst hp
        exact Or.inl ⟨none, by simp [step, hx, instr]⟩

/-- The thread sleeps until there is an item. -/
def sleepsForItems {P : Type} : TS (TQ.Q P) (QOp P) Cond (Res P) → Prop
  | .asleep (.pop _) | .asleep (.popN _ _) => True
  | _ => False

/-- The thread sleeps until the queue is empty. -/
def sleepsForEmpty {P : Type} : TS (TQ.Q P) (QOp P) Cond (Res P) → Prop
  | .asleep (.waitEmpty _) => True
  | _ => False

/-- The thread is outside of any call, or asleep. -/
def quiet {P : Type} : TS (TQ.Q P) (QOp P) Cond (Res P) → Prop
  | .idle | .asleep _ => True
  | _ => False

/-- **C129**. (partial) No wake-up is lost: if nobody asks for zero items and nobody pushes several items with one call, then whenever no thread is in the middle of anything (every thread is
outside of the queue or asleep in it), no thread sleeps waiting for items while there are some, and none sleeps waiting for emptiness
while there are none. Missing: those two kinds of calls, for which the claim is false, see
`C129_pushN_strands_a_consumer_negated` and `C129_zero_items_strands_a_consumer_negated`. -/
theorem C129_no_lost_wakeup_partial {P : Type} (cap n : Nat) (as : List (Action (QOp P))) (s : State (TQ.Q P) (QOp P) Cond (Res P))
    (hc : CallsOk Single as) (hr : run (code P) (init cap n) as = some s) (hq : ∀ x ∈ s.th, quiet x) :
    (∀ x ∈ s.th, sleepsForItems x → s.mem.size = 0) ∧ (∀ x ∈ s.th, sleepsForEmpty x → s.mem.size ≠ 0) := by
  obtain ⟨g, ph, σ, cr, h⟩ := reach True cap n as s (fun _ => hc) hr
  have hfree : s.lock = none := by
    cases hl : s.lock with
    | none => rfl
    | some t =>
      obtain ⟨o, p, hth, _⟩ := h.held t hl
      exact absurd (hq _ (List.mem_of_getElem? hth)) (by simp [quiet])
  obtain ⟨_, hj1, hj2⟩ := h.free hfree
  constructor
  · intro x hx hs
    have hsl : sleepsOn (code P) .nonEmpty x = true := by
      cases x with
      | asleep o => cases o <;> first | rfl | exact absurd hs (by simp [sleepsForItems])
      | _ => exact absurd hs (by simp [sleepsForItems])
    have hv := h.valid .nonEmpty
    have hw := hj1 trivial
    cases hcr : cr .nonEmpty with
    | none =>
      rw [hcr] at hv
      have := hv x hx
      rw [hsl] at this; cases this
    | some k =>
      rw [hcr] at hv hw
      have hk : k ≤ s.th.countP (wokenOn (code P) .nonEmpty) := hv ⟨x, hx, hsl⟩
      have hz : s.th.countP (wokenOn (code P) .nonEmpty) = 0 := by
        rw [List.countP_eq_zero]
        intro y hy hwy
        have := hq y hy
        cases y with
        | woken o b => simp [quiet] at this
        | _ => simp [wokenOn] at hwy
      have : s.mem.size ≤ k := hw
      omega
  · intro x hx hs hz
    have hv := h.valid .empty
    rw [hj2 hz] at hv
    have hsl : sleepsOn (code P) .empty x = true := by
      cases x with
      | asleep o => cases o <;> first | rfl | exact absurd hs (by simp [sleepsForEmpty])
      | _ => exact absurd hs (by simp [sleepsForEmpty])
    have := hv x hx
    rw [hsl] at this; cases this

/-- **C129**, waiting for emptiness: no restriction on the calls. Whenever the mutex is free and the queue is empty, nobody sleeps
waiting for it to become empty. -/
theorem C129_wait_empty_is_woken {P : Type} (cap n : Nat) (as : List (Action (QOp P))) (s : State (TQ.Q P) (QOp P) Cond (Res P))
    (hr : run (code P) (init cap n) as = some s) (hf : s.lock = none) (hz : s.mem.size = 0) :
    ∀ x ∈ s.th, ¬ sleepsForEmpty x := by
  obtain ⟨g, ph, σ, cr, h⟩ := reach False cap n as s False.elim hr
  obtain ⟨_, _, hj2⟩ := h.free hf
  intro x hx hs
  have hv := h.valid .empty
  rw [hj2 hz] at hv
  have hsl : sleepsOn (code P) .empty x = true := by
    cases x with
    | asleep o => cases o <;> first | rfl | exact absurd hs (by simp [sleepsForEmpty])
    | _ => exact absurd hs (by simp [sleepsForEmpty])
  have := hv x hx
  rw [hsl] at this; cases this

/-- All remaining instructions of thread `t`, `k` of them, with nobody chosen by signals. -/
def go (t k : Nat) : List (Action (QOp Nat)) := List.replicate k (.run t none)

/-- **C129, refuted for several items**: two consumers sleep; a producer pushes two items with one `PushN`, which signals once; the
woken consumer takes one item, the other one sleeps forever next to the second item. -/
theorem C129_pushN_strands_a_consumer_negated : ∃ (as : List (Action (QOp Nat))) (s : State (TQ.Q Nat) (QOp Nat) Cond (Res Nat)),
    run (code Nat) (init 4 3) as = some s ∧ (∀ x ∈ s.th, quiet x) ∧ (∃ x ∈ s.th, sleepsForItems x) ∧ s.mem.size = 1 := by
  refine ⟨[.call 0 (.pop (-1))] ++ go 0 3 ++ [.call 1 (.pop (-1))] ++ go 1 3 ++ [.call 2 (.pushN [7, 8])] ++ go 2 22 ++
    [.run 2 (some 0)] ++ go 2 2 ++ go 0 13, _, rfl, ?_, ?_, rfl⟩
  · intro x hx
    simp [start, init, TQ.new, List.replicate] at hx
    rcases hx with rfl | rfl | rfl <;> simp [quiet]
  · exact ⟨.asleep (.pop (-1)), List.mem_of_getElem? (i := 1) rfl, trivial⟩

/-- **C129, refuted for zero items**: a `PopN` of zero items that waits uses up the wake-up meant for somebody else. -/
theorem C129_zero_items_strands_a_consumer_negated : ∃ (as : List (Action (QOp Nat))) (s : State (TQ.Q Nat) (QOp Nat) Cond (Res Nat)),
    run (code Nat) (init 4 3) as = some s ∧ (∀ x ∈ s.th, quiet x) ∧ (∃ x ∈ s.th, sleepsForItems x) ∧ s.mem.size = 1 := by
  refine ⟨[.call 0 (.popN 0 (-1))] ++ go 0 3 ++ [.call 1 (.pop (-1))] ++ go 1 3 ++ [.call 2 (.push 7)] ++ go 2 12 ++
    [.run 2 (some 0)] ++ go 2 2 ++ go 0 6, _, rfl, ?_, ?_, rfl⟩
  · intro x hx
    simp [start, init, TQ.new, List.replicate] at hx
    rcases hx with rfl | rfl | rfl <;> simp [quiet]
  · exact ⟨.asleep (.pop (-1)), List.mem_of_getElem? (i := 1) rfl, trivial⟩

/-- A consumer sleeps in an empty queue of capacity 1; a producer pushes two items, and the array grows, while another thread clears
the queue and pushes; the consumer is woken, waits for the mutex, and gets the item pushed last. -/
def sample : List (Action (QOp Nat)) :=
  [.call 0 (.pop (-1))] ++ go 0 3 ++ [.call 1 (.pushN [5, 6]), .call 2 (.clearAndPush 8)] ++ go 1 27 ++ [.run 1 (some 0), .run 1 none] ++
    go 2 29 ++ [.run 1 none] ++ go 2 1 ++ go 0 14

example : ∃ s, run (code Nat) (init 1 3) sample = some s ∧ s.hist =
    [.call 0 (.pop (-1)), .call 1 (.pushN [5, 6]), .call 2 (.clearAndPush 8), .ret 1 (.size 2), .ret 2 (.destroyed [5, 6] 1),
     .ret 0 (.item 8)] ∧ s.mem.cap = 2 :=
  ⟨_, rfl, rfl, rfl⟩

/-- A reachable quiet state with a sleeper, as in `C129_no_lost_wakeup_partial`. -/
example : ∃ s, run (code Nat) (init 1 3) ([.call 0 (.popN 2 5)] ++ go 0 3) = some s ∧ (∀ x ∈ s.th, quiet x) ∧
    (∃ x ∈ s.th, sleepsForItems x) := by
  refine ⟨_, rfl, ?_, .asleep (.popN 2 5), List.mem_of_getElem? (i := 0) rfl, trivial⟩
  intro x hx
  simp [start, init, TQ.new, List.replicate] at hx
  rcases hx with rfl | rfl <;> simp [quiet]

end TQF
