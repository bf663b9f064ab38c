import Verif.Spec.Stack

namespace CMem

theorem get_eq {α : Type u} {m : List (Option α)} {i : Nat} {x : α} : get m i = some x ↔ m[i]? = some (some x) := by
  simp [get, Option.join_eq_some_iff]

theorem realloc_ge {α : Type u} {m : List (Option α)} {n : Nat} (h : m.length ≤ n) :
    realloc m n = m ++ List.replicate (n - m.length) none := by
  simp [realloc, List.take_of_length_le h]

/-- Reading a range of initialised cells. -/
theorem getRange_eq {α : Type u} (pre : List (Option α)) (xs : List α) (post : List (Option α)) :
    getRange (pre ++ xs.map some ++ post) pre.length xs.length = some xs := by
  induction xs generalizing pre with
  | nil => rfl
  | cons x xs ih =>
    have h1 : get (pre ++ (x :: xs).map some ++ post) pre.length = some x := by
      simp [get]
    have h2 := ih (pre ++ [some x])
    simp only [List.length_append, List.length_singleton] at h2
    have h3 : pre ++ (x :: xs).map some ++ post = pre ++ [some x] ++ xs.map some ++ post := by simp
    simp only [List.length_cons, getRange, h1, Option.bind_eq_bind, Option.bind_some]
    rw [h3, h2]; rfl

end CMem

namespace Stack

/-- `l` is the abstract stack (top first). -/
structure Rep {α : Type} (s : S α) (l : List α) : Prop where
  cap : 0 < s.capacity
  len : s.data.length = s.capacity
  size : s.size = l.length
  le : l.length ≤ s.capacity
  dat : s.data.take l.length = l.reverse.map some

theorem rep_new {α : Type} (c : Nat) (hd : Bool) : Rep (new c hd : S α) [] := by
  refine ⟨?_, by simp [new], rfl, by simp, by simp⟩
  simp only [new]; split <;> omega

theorem data_eq {α : Type} {s : S α} {l : List α} (h : Rep s l) :
    s.data = l.reverse.map some ++ s.data.drop l.length := by
  rw [← h.dat]; simp

theorem push_spec {α : Type} {s : S α} {l : List α} (h : Rep s l) (x : α) :
    ∃ s', push s x = some s' ∧ Rep s' (x :: l) ∧ s'.hasDestroy = s.hasDestroy := by
  have key : ∀ s : S α, Rep s l → l.length < s.capacity →
      ∃ s', (do let data ← CMem.write s.data s.size (some x)
                some { s with data := data, size := s.size + 1 }) = some s' ∧ Rep s' (x :: l) ∧
                s'.hasDestroy = s.hasDestroy := by
    intro s h hlt
    have h1 : s.size < s.data.length := by rw [h.len, h.size]; exact hlt
    rw [CMem.write_eq h1]
    refine ⟨_, rfl, ⟨h.cap, by simp [h.len], by simp [h.size], by simp; omega, ?_⟩, rfl⟩
    simp only [List.length_cons, List.reverse_cons, List.map_append, List.map_cons, List.map_nil]
    rw [List.take_add_one, h.size, List.take_set_of_le (Nat.le_refl _), h.dat]
    simp [h.len, hlt]
  unfold push
  by_cases hf : s.size = s.capacity
  · have hr : Rep (expand s) l := by
      simp only [expand, hf, if_true]
      have hll : l.length = s.data.length := by rw [h.len, ← h.size, hf]
      refine ⟨by have := h.cap; simp; omega, ?_, h.size.symm ▸ hf.symm, by have := h.le; simp; omega, ?_⟩
      · rw [CMem.realloc_ge (by rw [h.len]; omega)]; simp [h.len]; omega
      · rw [CMem.realloc_ge (by rw [h.len]; omega), List.take_append_of_le_length (by omega)]; exact h.dat
    have := h.cap
    have := h.size
    obtain ⟨s', e, r, d⟩ := key _ hr (by simp [expand, hf]; omega)
    exact ⟨s', e, r, by rw [d]; simp [expand, hf]⟩
  · have he : expand s = s := by simp [expand, hf]
    rw [he]
    have := h.le
    have := h.size
    exact key s h (by omega)

theorem pop_nil {α : Type} {s : S α} (h : Rep s []) : pop s = some (s, none) := by
  have := h.size
  simp [pop, this]

theorem get_top {α : Type} {s : S α} {x : α} {l : List α} (h : Rep s (x :: l)) :
    CMem.get s.data (s.size - 1) = some x := by
  rw [CMem.get_eq, data_eq h, h.size]
  simp

theorem pop_cons {α : Type} {s : S α} {x : α} {l : List α} (h : Rep s (x :: l)) :
    ∃ s', pop s = some (s', some x) ∧ Rep s' l ∧ s'.hasDestroy = s.hasDestroy := by
  have hs := h.size
  have hle := h.le
  simp only [List.length_cons] at hs hle
  have h1 : s.size - 1 < s.data.length := by rw [h.len]; omega
  have h2 : s.size > 0 := by omega
  simp only [pop, h2, if_true, get_top h, CMem.write_eq h1, Option.bind_eq_bind, Option.bind_some]
  refine ⟨_, rfl, ⟨h.cap, by simp [h.len], by simp [hs], by dsimp only; omega, ?_⟩, rfl⟩
  show (s.data.set (s.size - 1) none).take l.length = _
  rw [List.take_set_of_le (by omega)]
  have hd := data_eq h
  rw [hd]
  simp

theorem top_spec {α : Type} {s : S α} {l : List α} (h : Rep s l) : top s = some l.head? := by
  cases l with
  | nil => have := h.size; simp [top, this]
  | cons x l =>
    have hs := h.size
    simp only [List.length_cons] at hs
    have h2 : s.size > 0 := by omega
    simp only [top, h2, if_true, get_top h]; rfl

theorem copy_spec {α : Type} {s : S α} {l : List α} (h : Rep s l) :
    ∃ s', copy s = some s' ∧ Rep s' l ∧ s'.hasDestroy = s.hasDestroy ∧ s'.capacity = s.capacity := by
  have hs := h.size
  have hle := h.le
  have hlen := h.len
  have hc : 0 + s.size ≤ (List.replicate s.capacity (none : Option α)).length ∧ 0 + s.size ≤ s.data.length := by
    simp; omega
  simp only [copy, CMem.memcpy, hc, and_self, if_true, Option.bind_eq_bind, Option.bind_some]
  refine ⟨_, rfl, ⟨h.cap, ?_, h.size, h.le, ?_⟩, rfl, rfl⟩
  · simp; omega
  · simp only [List.drop_zero, List.take_zero, List.nil_append, hs, h.dat]
    rw [List.take_append_of_le_length (by simp)]
    exact List.take_of_length_le (by simp)

theorem destroy_spec {α : Type} {s : S α} {l : List α} (h : Rep s l) :
    destroy s = some (if s.hasDestroy then l.reverse else []) := by
  have hs := h.size
  have hle := h.le
  have hc : ¬ (s.capacity < 0 ∨ s.capacity < s.size) := by omega
  simp only [destroy, destroyRange, hc, if_false]
  split
  · have := CMem.getRange_eq [] l.reverse (s.data.drop l.length)
    simp only [List.nil_append, List.length_nil, List.length_reverse, ← data_eq h] at this
    rw [Nat.sub_zero, hs, this]
  · rfl

theorem step_spec {α : Type} {s : S α} {l : List α} (h : Rep s l) (op : Op α) :
    ∃ s', step s op = some (s', (StackSpec.step l op).2) ∧ Rep s' (StackSpec.step l op).1 ∧
      s'.hasDestroy = s.hasDestroy := by
  cases op with
  | push x =>
    obtain ⟨s', e, r, d⟩ := push_spec h x
    exact ⟨s', by simp [step, e, StackSpec.step], r, d⟩
  | pushReport x =>
    obtain ⟨s', e, r, d⟩ := push_spec h x
    exact ⟨s', by simp [step, pushReportCount, e, StackSpec.step, r.size], r, d⟩
  | pop =>
    cases l with
    | nil => exact ⟨s, by simp [step, pop_nil h, StackSpec.step], h, rfl⟩
    | cons x l =>
      obtain ⟨s', e, r, d⟩ := pop_cons h
      exact ⟨s', by simp [step, e, StackSpec.step], r, d⟩
  | copy =>
    obtain ⟨s', e, r, d, _⟩ := copy_spec h
    exact ⟨s', by simp [step, e, StackSpec.step], r, d⟩

theorem run_spec {α : Type} (ops : List (Op α)) : ∀ {s : S α} {l : List α}, Rep s l →
    ∃ s', run s ops = some (s', (StackSpec.run l ops).2) ∧ Rep s' (StackSpec.run l ops).1 ∧
      s'.hasDestroy = s.hasDestroy := by
  induction ops with
  | nil => intro s l h; exact ⟨s, rfl, h, rfl⟩
  | cons op ops ih =>
    intro s l h
    obtain ⟨s1, e1, r1, d1⟩ := step_spec h op
    obtain ⟨s2, e2, r2, d2⟩ := ih r1
    exact ⟨s2, by simp [run, e1, e2, StackSpec.run], r2, by rw [d2, d1]⟩

end Stack
