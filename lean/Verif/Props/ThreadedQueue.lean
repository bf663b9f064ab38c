import Verif.Lemmas.QueueThreads
/-! # C14, C15, C16, C59: threaded queue and threaded deque -/
open TQT FifoSpec

/-- **C14**. For every number of threads, initial capacity and schedule `as`: the calls completed so far, in the order of their
critical sections, form a legal history of a FIFO queue with exactly the returned values; everything that entered is, in
order, everything that left (handed out or destroyed) followed by what is inside; `PopN` of everything would return what is
inside, and `Copy` has the same contents; no critical section is undefined; and at most one thread is in a critical section. -/
theorem C14_threaded_queue_is_fifo {P : Type} (cap n : Nat) (as : List (Action P)) (s : State P)
    (h : run (init cap n) as = some s) :
    ∃ l : List P, Legal [] s.log l ∧ (s.log.map left).flatten ++ l = (s.log.map entered).flatten ∧ s.q.size = l.length ∧
      (∃ q', TQ.popN s.q s.q.size = some (q', l)) ∧
      (∃ q' q'', TQ.copy s.q = some q' ∧ TQ.popN q' q'.size = some (q'', l)) ∧ (∀ c, (body s.q c).isSome = true) ∧
      ∀ (t t' : Nat) (x x' : TS P), s.th[t]? = some x → s.th[t']? = some x' → critical x = true → critical x' = true → t = t' := by
  obtain ⟨l, H⟩ := run_inv as (init_inv cap n) h
  obtain ⟨q', e, -⟩ := TQ.popN_spec H.inv s.q.size
  rw [H.inv.size, List.take_of_length_le (Nat.le_refl _), ← H.inv.size] at e
  refine ⟨l, H.legal, ?_, H.inv.size, ⟨q', e⟩, ⟨s.q, q', TQ.copy_eq H.inv, e⟩, ?_, ?_⟩
  · simpa using (legal_conserves H.legal).symm
  · intro c
    obtain ⟨q', e, -⟩ := body_spec H.inv c
    simp [e]
  · intro t t' x x' h1 h2 h3 h4
    have a := H.mutex t x h1 h3
    have b := H.mutex t' x' h2 h4
    rw [a] at b; injection b

/-- **C15** (partial). If `PushN` is only called with at most one item and `PopN` never with zero, then in every reachable
state where a consumer sleeps there are at least as many consumers awake (signalled or holding the lock) as items; so when all
threads are idle or asleep and one sleeps for items, the queue is empty. Missing: `PushN` with several items, where the claim is
false, see `C15_pushN_can_strand_a_consumer`. -/
theorem C15_no_lost_wakeup_partial {P : Type} (cap n : Nat) (as : List (Action P)) (hs : CallsOk Single as) (s : State P)
    (h : run (init cap n) as = some s) (t : Nat) (x : TS P) (ht : s.th[t]? = some x) (hx : sleepsForItems x = true) :
    s.q.size ≤ s.th.countP seeksItems ∧ ((∀ y ∈ s.th, quiet y = true) → s.q.size = 0) := by
  have W := run_winv as (init_inv cap n) (init_winv cap n) hs h
  have hw := W.wake (List.countP_pos_iff.mpr ⟨x, List.mem_of_getElem? ht, hx⟩)
  refine ⟨hw, fun hq => ?_⟩
  have : s.th.countP seeksItems = 0 := by
    rw [List.countP_eq_zero]
    intro y hy hsy
    have := hq y hy
    cases y <;> simp_all [quiet, seeksItems]
  omega

/-- **C15, refuted part**. Two consumers block, a producer pushes two items with one `PushN`; it signals once, the woken consumer
takes one item, and the other consumer sleeps forever next to the second item: every thread is idle or asleep. -/
theorem C15_pushN_can_strand_a_consumer : ∃ (as : List (Action Nat)) (s : State Nat),
    run (init 4 3) as = some s ∧ s.th = [.idle, .asleep (.pop (-1)), .idle] ∧ s.q.size = 1 := by
  refine ⟨[.call 0 (.pop (-1)), .lock 0, .wait 0, .call 1 (.pop (-1)), .lock 1, .wait 1, .call 2 (.pushN [7, 8]), .lock 2,
    .body 2 (some 0), .unlock 2, .lock 0, .body 0 none, .unlock 0], _, rfl, rfl, rfl⟩

/-- **C59**. No thread sleeps in `WaitEmpty` while the queue is empty: whoever empties it wakes all of them. -/
theorem C59_wait_empty_is_woken {P : Type} (cap n : Nat) (as : List (Action P)) (s : State P)
    (h : run (init cap n) as = some s) (hz : s.q.size = 0) (t : Nat) (x : TS P) (ht : s.th[t]? = some x) :
    sleepsForEmpty x = false :=
  run_einv as (init_inv cap n) (init_einv cap n) h hz x (List.mem_of_getElem? ht)

-- Non-vacuity: a producer and two consumers, one of which blocks and is woken; the array wraps and grows.
example : (run (init 1 3 : State Nat) [.call 0 (.pop (-1)), .lock 0, .wait 0, .call 2 (.push 7), .lock 2, .body 2 (some 0), .unlock 2,
    .call 2 (.pushN [8, 9]), .lock 2, .body 2 none, .unlock 2, .lock 0, .body 0 none, .unlock 0,
    .call 1 (.popN 5 3), .lock 1, .body 1 none]).map (fun s => (s.log.map (·.2.2), s.q.cap)) =
    some ([.size 1, .size 3, .item (some 7), .items [8, 9]], 4) := by decide

-- A reachable state meeting the hypotheses of C15_no_lost_wakeup_partial with a sleeper and an item.
example : (run (init 1 3 : State Nat) [.call 0 (.pop (-1)), .lock 0, .wait 0, .call 1 (.popN 2 (-1)), .lock 1, .wait 1,
    .call 2 (.push 7), .lock 2, .body 2 (some 1), .unlock 2]).map (fun s => (s.th, s.q.size)) =
    some ([.asleep (.pop (-1)), .woken (.popN 2 (-1)) false, .idle], 1) := by decide

-- A sleeper in WaitEmpty is woken by the pop that empties the queue.
example : (run (init 1 2 : State Nat) [.call 0 (.push 1), .lock 0, .body 0 none, .unlock 0, .call 1 (.waitEmpty (-1)), .lock 1, .wait 1,
    .call 0 (.pop 0), .lock 0, .body 0 none]).map (fun s => (s.th, s.q.size)) =
    some ([.leaving (.pop 0), .woken (.waitEmpty (-1)) false], 0) := by decide

/-- **C16**. For every initial capacity and history of deque calls, the results are those of a list with two ends, the size is
the list's length, a copy destroys the same items as the original, and destroying the deque destroys exactly the items inside,
each once. -/
theorem C16_threaded_deque_is_a_deque {P : Type} (cap : Nat) (ops : List (DequeSpec.Op P)) :
    ∃ q, DequeSpec.runImpl (TD.new cap) ops = some (q, (DequeSpec.runSpec [] ops).2) ∧
      q.size = (DequeSpec.runSpec [] ops).1.length ∧ TD.destroy q = some (DequeSpec.runSpec [] ops).1 ∧
      ∃ q', TD.copy q = some q' ∧ TD.destroy q' = some (DequeSpec.runSpec [] ops).1 := by
  have step : ∀ (q : TD.D P) (l : List P) (op : DequeSpec.Op P), TD.Inv q l →
      ∃ q', DequeSpec.impl q op = some (q', (DequeSpec.apply l op).2) ∧ TD.Inv q' (DequeSpec.apply l op).1 := by
    intro q l op I
    cases op with
    | pushLeft x => obtain ⟨q', e, I'⟩ := TD.pushLeft_spec I x; exact ⟨q', by simp [DequeSpec.impl, e, DequeSpec.apply], I'⟩
    | pushRight x => obtain ⟨q', e, I'⟩ := TD.pushRight_spec I x; exact ⟨q', by simp [DequeSpec.impl, e, DequeSpec.apply], I'⟩
    | popLeft => obtain ⟨q', e, I'⟩ := TD.popLeft_spec I; exact ⟨q', by simp [DequeSpec.impl, e, DequeSpec.apply], I'⟩
    | popRight => obtain ⟨q', e, I'⟩ := TD.popRight_spec I; exact ⟨q', by simp [DequeSpec.impl, e, DequeSpec.apply], I'⟩
    | popLeftN n => obtain ⟨q', e, I'⟩ := TD.popLeftN_spec I n; exact ⟨q', by simp [DequeSpec.impl, e, DequeSpec.apply], I'⟩
    | popRightN n => obtain ⟨q', e, I'⟩ := TD.popRightN_spec I n; exact ⟨q', by simp [DequeSpec.impl, e, DequeSpec.apply], I'⟩
  have all : ∀ (ops : List (DequeSpec.Op P)) (q : TD.D P) (l : List P), TD.Inv q l →
      ∃ q', DequeSpec.runImpl q ops = some (q', (DequeSpec.runSpec l ops).2) ∧ TD.Inv q' (DequeSpec.runSpec l ops).1 := by
    intro ops
    induction ops with
    | nil => intro q l I; exact ⟨q, rfl, I⟩
    | cons op ops ih =>
      intro q l I
      obtain ⟨q1, e1, I1⟩ := step q l op I
      obtain ⟨q2, e2, I2⟩ := ih q1 _ I1
      exact ⟨q2, by simp [DequeSpec.runImpl, DequeSpec.runSpec, e1, e2], I2⟩
  obtain ⟨q, e, I⟩ := all ops (TD.new cap) [] (TD.inv_new cap)
  exact ⟨q, e, I.size, TD.destroy_spec I, q, TD.copy_eq I, TD.destroy_spec I⟩

-- Non-vacuity: capacity 2, growth while wrapped.
example : (DequeSpec.runImpl (TD.new 2) [.pushLeft 1, .pushLeft 2, .pushRight 3, .pushLeft 4, .pushRight 5]).bind (fun r => TD.destroy r.1) =
    some [4, 2, 1, 3, 5] := by decide
