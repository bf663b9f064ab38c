import Verif.Lemmas.Queue
/-! # C02: queue.c is a FIFO -/
open Queue QueueSpec

/-- **C02**. For every history in which the caller never dequeues from an empty queue: no NULL/dangling dereference
happens; the dequeued elements are exactly the first `k` enqueued ones, in order (`k` the number of dequeues); what remains
is counted by `QueueCount`, tested by `QueueIsEmpty`, its oldest element is returned by `QueueHead`, and `QueueDestroy`
terminates, hands exactly the remaining elements, oldest first, to the destructor and leaves no allocated node behind. -/
theorem C02_queue_is_fifo {α : Type} (hd : Bool) (ops : List (Op α)) (hok : Allowed 0 ops) :
    ∃ q, run (new hd) ops = some (q, (enqueued ops).take (dequeues ops)) ∧
      count q = ((enqueued ops).drop (dequeues ops)).length ∧
      (isEmpty q = true ↔ (enqueued ops).drop (dequeues ops) = []) ∧
      headData q = ((enqueued ops).drop (dequeues ops)).head? ∧
      ∃ heap, destroy q (count q) = some (heap, if hd then (enqueued ops).drop (dequeues ops) else []) ∧
        ∀ a, heap.cells a = none := by
  obtain ⟨q, l, h, hi, hl, hhd⟩ := run_spec ops (new hd) [] (inv_new hd) (by simpa using hok)
  simp only [List.map_nil, List.nil_append] at h hl
  have hlen : l.length = ((enqueued ops).drop (dequeues ops)).length := by rw [← hl]; simp
  obtain ⟨heap, e1, e2⟩ := destroyLoop_spec hd l (count q) q.heap none q.head q.tail hi.chain hi.nodup hi.only
    (by simp [count, hi.count])
  refine ⟨q, h, ?_, ?_, ?_, heap, ?_, e2⟩
  · rw [count, hi.count, hlen]
  · simp only [isEmpty, beq_iff_eq, hi.count, hlen]
    exact List.length_eq_zero_iff
  · rw [headData_spec hi, hl]
  · rw [destroy, hhd, ← hl]; exact e1

/-- **C02** (guard). Dequeueing from, or asking the head of, an empty queue is undefined behaviour (a NULL dereference in
queue.c:107-108 and :130): the restriction in `C02_queue_is_fifo` is needed and exact. -/
theorem C02_dequeue_on_empty_is_undefined {α : Type} (hd : Bool) (ops : List (Op α)) (hok : Allowed 0 ops)
    (hempty : (enqueued ops).length = dequeues ops) :
    ∃ q out, run (new hd) ops = some (q, out) ∧ isEmpty q = true ∧ dequeue q = none ∧ headData q = none := by
  obtain ⟨q, l, h, hi, hl, hhd⟩ := run_spec ops (new hd) [] (inv_new hd) (by simpa using hok)
  have : l = [] := by
    apply List.eq_nil_of_length_eq_zero
    have := congrArg List.length hl
    simp at this
    omega
  subst this
  refine ⟨q, _, h, by simp [isEmpty, hi.count], ?_, ?_⟩
  · simp [dequeue, hi.chain.1]
  · simp [headData, hi.chain.1]

-- Non-vacuity.
example : Allowed 0 [Op.enqueue 1, .enqueue 2, .dequeue, .enqueue 3, .dequeue, .dequeue] := by simp [Allowed]
example : (run (new true) [Op.enqueue 1, .enqueue 2, .dequeue, .enqueue 3, .dequeue]).map (·.2) = some [1, 2] := by rfl
