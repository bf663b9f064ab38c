import Verif.Lemmas.RingBuffer
/-! # C01: ring buffer -/
open RingBuffer RingBufferSpec

/-- **C01**. For every capacity, copy callback and destructor choice, and every history of appends and clears: no call
touches memory outside the buffer; the length is `min cap (#appends since the last clear)`; an iterator yields exactly the
newest `cap` items appended since the last clear, oldest first, and then NULL forever; the head is the newest item (NULL
when there is none). -/
theorem C01_ring_buffer_keeps_newest {α : Type} (cap : Nat) (hcap : 0 < cap) (copy : α → α) (hd : Bool)
    (ops : List (Op α)) :
    ∃ b0 b log, new cap copy hd = some b0 ∧ run b0 ops = some (b, log) ∧
      length b = min cap (sinceClear [] ops).length ∧
      (isFull b = true ↔ cap ≤ (sinceClear [] ops).length) ∧
      (∀ k, iterate b ((newest cap (sinceClear [] ops)).length + k) =
          some ((newest cap (sinceClear [] ops)).map (·.map copy) ++ List.replicate k none)) ∧
      head b = some ((sinceClear [] ops).getLast?.join.map copy) := by
  obtain ⟨b0, h0, hi0, hc0, hd0⟩ := inv_new cap hcap copy hd
  obtain ⟨b, log, hr, hi, hc, _⟩ := run_spec ops b0 cap [] (by simpa using hi0)
  refine ⟨b0, b, log, h0, hr, ?_, ?_, ?_, ?_⟩
  · simp [length, hi.hlen]
  · simp only [isFull, beq_iff_eq, hi.hlen, hi.hcap, List.length_map]; omega
  · intro k
    have e : newest cap ((sinceClear [] ops).map (·.map copy)) = (newest cap (sinceClear [] ops)).map (·.map copy) := by
      simp [newest]
    rw [iterate, iterCalls_spec hi _ 0 (Nat.zero_le _), hc0, List.drop_zero, e]
    congr 1
    rw [List.take_append]
    simp [List.take_of_length_le]
  · rw [head_spec hi, hc0, List.getLast?_map]
    cases (sinceClear [] ops).getLast? <;> simp

/-- **C01** (ownership, append). After any history, an append on a full buffer hands exactly the oldest visible item to the
destructor (nothing if it is NULL), and an append on a non-full buffer destroys nothing. -/
theorem C01_append_destroys_only_the_oldest {α : Type} (cap : Nat) (hcap : 0 < cap) (hd : Bool) (ops : List (Op α))
    (x : Option α) :
    ∃ b0 b log b' d, new cap id hd = some b0 ∧ run b0 ops = some (b, log) ∧ append b x = some (b', d) ∧
      d = (if hd = true ∧ cap ≤ (sinceClear [] ops).length
           then ((newest cap (sinceClear [] ops)).head?.join).toList else []) := by
  obtain ⟨b0, h0, hi0, hc0, hd0⟩ := inv_new cap hcap id hd
  obtain ⟨b, log, hr, hi, hc, hh⟩ := run_spec ops b0 cap [] (by simpa using hi0)
  obtain ⟨b', d, ha, _, _, _, hdd⟩ := append_spec hi x
  refine ⟨b0, b, log, b', d, h0, hr, ha, ?_⟩
  rw [hdd, hh, hd0, hc0]
  simp [Option.map_id_fun]

/-- **C01** (ownership, clear). After any history, a clear hands each visible item to the destructor exactly once (in some
order) and leaves the buffer empty. -/
theorem C01_clear_destroys_each_visible_once {α : Type} (cap : Nat) (hcap : 0 < cap) (hd : Bool) (ops : List (Op α)) :
    ∃ b0 b log b' d, new cap id hd = some b0 ∧ run b0 ops = some (b, log) ∧ clear b = some (b', d) ∧
      length b' = 0 ∧ iterate b' 1 = some [none] ∧
      d.Perm (if hd then (newest cap (sinceClear [] ops)).filterMap id else []) := by
  obtain ⟨b0, h0, hi0, hc0, hd0⟩ := inv_new cap hcap id hd
  obtain ⟨b, log, hr, hi, hc, hh⟩ := run_spec ops b0 cap [] (by simpa using hi0)
  obtain ⟨b', d, ha, hi', _, _, hdd⟩ := clear_spec hi
  refine ⟨b0, b, log, b', d, h0, hr, ha, by simp [length, hi'.hlen], ?_, ?_⟩
  · rw [iterate, iterCalls_spec hi' _ 0 (Nat.zero_le _)]; simp [newest]
  · rw [hh, hd0, hc0] at hdd; simpa [Option.map_id_fun] using hdd

-- Non-vacuity: capacity 2, three appends: the newest two are visible, the first was destroyed.
example : (new (α := Nat) 2 id true >>= fun b0 => run b0 [Op.append (some 1), Op.append (some 2), Op.append (some 3)]).map
    (fun r => (r.1.len, r.2, iterate r.1 3, head r.1)) =
    some (2, [1], some [some 2, some 3, none], some (some 3)) := by rfl
