import Verif.Lemmas.Stack
/-! # C03: stack.c is a LIFO -/
open Stack

/-- **C03**. For every initial capacity and every history of pushes, pops and copies: no access leaves the array, every
call returns what the abstract stack returns (`NULL` for a pop of the empty stack, the new count for the reporting push),
the stack afterwards has the abstract contents, and destroying it hands exactly the remaining items to the destructor. -/
theorem C03_stack_is_lifo {α : Type} (cap : Nat) (hd : Bool) (ops : List (Op α)) :
    ∃ s, run (new cap hd) ops = some (s, (StackSpec.run [] ops).2) ∧
      count s = (StackSpec.run [] ops).1.length ∧
      (isEmpty s = true ↔ (StackSpec.run [] ops).1 = []) ∧
      top s = some (StackSpec.run [] ops).1.head? ∧
      count s ≤ capacity s ∧
      destroy s = some (if hd then (StackSpec.run [] ops).1.reverse else []) := by
  obtain ⟨s, e, r, d⟩ := run_spec ops (rep_new cap hd)
  refine ⟨s, e, r.size, ?_, top_spec r, ?_, ?_⟩
  · simp only [isEmpty, beq_iff_eq, r.size]; exact List.length_eq_zero_iff
  · simp only [count, Stack.capacity, r.size]; exact r.le
  · rw [destroy_spec r, d]; rfl

/-- **C03** (copy). A copy taken after any history pops the same items in the same order as the original. -/
theorem C03_copy_has_same_contents {α : Type} (cap : Nat) (hd : Bool) (ops ops2 : List (Op α)) :
    ∃ s c s2 c2 out, run (new cap hd) ops = some (s, (StackSpec.run [] ops).2) ∧ copy s = some c ∧
      run s ops2 = some (s2, out) ∧ run c ops2 = some (c2, out) := by
  obtain ⟨s, e, r, _⟩ := run_spec ops (rep_new cap hd)
  obtain ⟨c, ec, rc, _⟩ := copy_spec r
  obtain ⟨s2, e2, _⟩ := run_spec ops2 r
  obtain ⟨c2, ec2, _⟩ := run_spec ops2 rc
  exact ⟨s, c, s2, c2, _, e, ec, e2, ec2⟩

-- Non-vacuity: growth from capacity 1 through 2 to 4.
example : (run (new 1 true) [Op.push 1, .push 2, .pushReport 3, .pop, .pop, .pop, .pop]).map (·.2) =
    some [.unit, .unit, .count 3, .item (some 3), .item (some 2), .item (some 1), .item none] := by rfl
