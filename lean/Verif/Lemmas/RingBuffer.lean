import Verif.Spec.RingBuffer
namespace RingBuffer
open RingBufferSpec

/-- Representation invariant: `items` are the (copied) items appended since the last clear. -/
structure Inv {α : Type} (b : Buf α) (cap : Nat) (items : List (Option α)) : Prop where
  pos : 0 < cap
  hcap : b.capacity = cap
  hlen : b.len = min cap items.length
  hend : b.end_ = items.length % cap
  hdat : b.data.length = cap
  live : ∀ j, items.length - cap ≤ j → j < items.length → b.data[j % cap]? = items[j]?
  clean : b.hasDestroy = true → ∀ k, items.length ≤ k → k < cap → b.data[k]? = some none

theorem inv_new {α : Type} (cap : Nat) (h : 0 < cap) (copy : α → α) (hd : Bool) :
    ∃ b, new cap copy hd = some b ∧ Inv b cap [] ∧ b.copy = copy ∧ b.hasDestroy = hd := by
  simp only [new, gt_iff_lt, h, if_true]
  refine ⟨_, rfl, ⟨h, by simp; omega, by simp, by simp, by simp, ?_, ?_⟩, rfl, rfl⟩
  · simp
  · intro _ k _ hk
    simp [List.getElem?_replicate, hk]

theorem mod_ne_of_window {cap n j : Nat} (h : 0 < cap) (h1 : n + 1 - cap ≤ j) (h2 : j < n) : j % cap ≠ n % cap := by
  intro he
  have hd : cap ∣ n - j := Nat.dvd_of_mod_eq_zero (Nat.sub_mod_eq_zero_of_mod_eq he.symm)
  have := Nat.le_of_dvd (by omega) hd
  omega

theorem append_spec {α : Type} {b : Buf α} {cap : Nat} {items : List (Option α)} (hi : Inv b cap items)
    (x : Option α) :
    ∃ b' d, append b x = some (b', d) ∧ Inv b' cap (items ++ [x.map b.copy]) ∧ b'.copy = b.copy ∧
      b'.hasDestroy = b.hasDestroy ∧
      d = (if b.hasDestroy = true ∧ cap ≤ items.length then ((newest cap items).head?.join).toList else []) := by
  obtain ⟨pos, hcap, hlen, hend, hdat, live, clean⟩ := hi
  have hlt : items.length % cap < cap := Nat.mod_lt _ pos
  have hlt' : b.end_ < b.data.length := by omega
  simp only [append, CMem.read_eq hlt', CMem.write_eq hlt', Option.bind_eq_bind, Option.bind_some]
  refine ⟨_, _, rfl, ⟨pos, hcap, ?_, ?_, by simp [hdat], ?_, ?_⟩, rfl, rfl, ?_⟩
  · simp only [hcap, hlen, List.length_append, List.length_singleton]
    split <;> omega
  · simp [hcap, hend]
  · intro j h1 h2
    simp only [List.length_append, List.length_singleton] at h1 h2
    by_cases hj : j = items.length
    · subst hj
      simp [hend, hdat, hlt]
    · have hj2 : j < items.length := by omega
      have hne := mod_ne_of_window pos h1 hj2
      have hne' : b.end_ ≠ j % cap := by rw [hend]; exact fun h => hne h.symm
      rw [List.getElem?_set_ne hne', live j (by omega) hj2]
      simp [List.getElem?_append_left hj2]
  · intro hd k h1 h2
    simp only [List.length_append, List.length_singleton] at h1
    have hmod : items.length % cap = items.length := Nat.mod_eq_of_lt (by omega)
    have hne : b.end_ ≠ k := by omega
    show (b.data.set b.end_ _)[k]? = _
    rw [List.getElem?_set_ne hne]
    exact clean hd k (by omega) h2
  · by_cases hd : b.hasDestroy = true
    · simp only [hd, if_true, true_and]
      by_cases hf : cap ≤ items.length
      · simp only [hf, if_true]
        congr 1
        have hl := live (items.length - cap) (by omega) (by omega)
        have : (items.length - cap) % cap = items.length % cap := by
          conv => rhs; rw [show items.length = (items.length - cap) + cap by omega]
          simp
        rw [this, ← hend, List.getElem?_eq_getElem hlt'] at hl
        simp only [newest, List.head?_drop]
        rw [← hl]; rfl
      · simp only [hf, if_false]
        have hmod : items.length % cap = items.length := Nat.mod_eq_of_lt (by omega)
        have := clean hd b.end_ (by omega) (by omega)
        rw [List.getElem?_eq_getElem hlt'] at this
        rw [Option.some.injEq] at this
        rw [this]; rfl
    · simp [hd]

theorem clearLoop_spec {α : Type} : ∀ (n i : Nat) (data : List (Option α)), i + n ≤ data.length →
    clearLoop data i n =
      some (data.take i ++ List.replicate n none ++ data.drop (i + n), ((data.drop i).take n).filterMap id) := by
  intro n
  induction n with
  | zero => intro i data _; simp [clearLoop]
  | succ n ih =>
    intro i data h
    have hi : i < data.length := by omega
    have hdrop : (data.drop i).take (n+1) = data[i] :: (data.drop (i+1)).take n := by
      rw [List.drop_eq_getElem_cons hi, List.take_succ_cons]
    simp only [clearLoop, CMem.read_eq hi, Option.bind_eq_bind, Option.bind_some]
    rw [hdrop]
    cases hx : data[i] with
    | some x =>
      simp only [CMem.write_eq hi, Option.bind_some]
      rw [ih (i+1) (data.set i none) (by simp; omega)]
      have ht : (data.set i none).take (i+1) = data.take i ++ [none] := by
        rw [List.take_add_one]; simp [hi, List.take_set_of_le]
      simp only [Option.bind_some, ht]
      have h1 : (data.set i none).drop (i+1) = data.drop (i+1) := by
        rw [List.drop_set]; simp
      have h2 : (data.set i none).drop (i+1+n) = data.drop (i+(n+1)) := by
        rw [List.drop_set]; simp [Nat.add_assoc, Nat.add_comm 1 n]
      rw [h1, h2]
      simp [List.replicate_succ]
    | none =>
      simp only
      rw [ih (i+1) data (by omega)]
      have ht : data.take (i+1) = data.take i ++ [none] := by
        rw [List.take_add_one]; simp [hi, hx]
      simp [ht, List.replicate_succ, Nat.add_assoc, Nat.add_comm 1 n]


theorem perm_rotate {β : Type} (f : Nat → β) (cap n : Nat) (h : 0 < cap) :
    ((List.range cap).map fun i => f ((n + i) % cap)).Perm ((List.range cap).map f) := by
  induction n with
  | zero =>
    apply List.Perm.of_eq
    apply List.map_congr_left
    intro a ha
    simp at ha
    simp [Nat.mod_eq_of_lt ha]
  | succ n ih =>
    refine List.Perm.trans ?_ ih
    obtain ⟨c, rfl⟩ : ∃ c, cap = c + 1 := ⟨cap - 1, by omega⟩
    rw [List.range_succ]
    conv => rhs; rw [← List.range_succ, List.range_succ_eq_map]
    simp only [List.map_append, List.map_cons, List.map_nil, List.map_map]
    have e1 : f ((n + 1 + c) % (c + 1)) = f ((n + 0) % (c + 1)) := by
      rw [show n + 1 + c = n + (c + 1) by omega]; simp
    have e2 : (List.range c).map (fun i => f ((n + 1 + i) % (c + 1))) =
        (List.range c).map ((fun i => f ((n + i) % (c + 1))) ∘ Nat.succ) := by
      apply List.map_congr_left
      intro a _
      simp [show n + 1 + a = n + (a + 1) by omega]
    rw [e1, e2]
    exact List.perm_append_singleton _ _

theorem data_perm {α : Type} {b : Buf α} {cap : Nat} {items : List (Option α)} (hi : Inv b cap items)
    (hd : b.hasDestroy = true) :
    (b.data.filterMap id).Perm ((newest cap items).filterMap id) := by
  obtain ⟨pos, hcap, hlen, hend, hdat, live, clean⟩ := hi
  by_cases hf : items.length < cap
  · have : b.data = items ++ List.replicate (cap - items.length) none := by
      apply List.ext_getElem?
      intro k
      by_cases hk : k < items.length
      · have := live k (by omega) hk
        rw [Nat.mod_eq_of_lt (by omega)] at this
        rw [this, List.getElem?_append_left hk]
      · by_cases hk2 : k < cap
        · rw [clean hd k (by omega) hk2, List.getElem?_append_right (by omega)]
          simp [List.getElem?_replicate]
          omega
        · rw [List.getElem?_eq_none (by omega), List.getElem?_eq_none (by simp; omega)]
    rw [this]
    simp [newest, show items.length - cap = 0 by omega, List.filterMap_append, List.filterMap_replicate_of_none]
  · apply List.Perm.filterMap
    have e1 : b.data = (List.range cap).map fun i => (b.data[i]?).getD none := by
      apply List.ext_getElem?
      intro k
      by_cases hk : k < cap
      · simp [hk, hdat]
      · rw [List.getElem?_eq_none (by omega), List.getElem?_eq_none (by simp; omega)]
    have e2 : newest cap items =
        (List.range cap).map fun i => (b.data[(items.length - cap + i) % cap]?).getD none := by
      apply List.ext_getElem?
      intro k
      by_cases hk : k < cap
      · simp only [newest, List.getElem?_drop, List.getElem?_map, List.getElem?_range hk, Option.map_some]
        rw [live _ (by omega) (by omega)]
        have : items.length - cap + k < items.length := by omega
        simp [this]
      · rw [List.getElem?_eq_none (by simp [newest]; omega), List.getElem?_eq_none (by simp; omega)]
    rw [e2]
    conv => lhs; rw [e1]
    exact (perm_rotate (fun i => (b.data[i]?).getD none) cap _ pos).symm

theorem clear_spec {α : Type} {b : Buf α} {cap : Nat} {items : List (Option α)} (hi : Inv b cap items) :
    ∃ b' d, clear b = some (b', d) ∧ Inv b' cap [] ∧ b'.copy = b.copy ∧ b'.hasDestroy = b.hasDestroy ∧
      d.Perm (if b.hasDestroy then (newest cap items).filterMap id else []) := by
  have hp := fun hd => data_perm hi hd
  obtain ⟨pos, hcap, hlen, hend, hdat, live, clean⟩ := hi
  by_cases hd : b.hasDestroy = true
  · simp only [clear, hd, if_true]
    rw [clearLoop_spec _ _ _ (by omega)]
    refine ⟨_, _, rfl, ⟨pos, hcap, by simp, by simp, by simp; omega, by simp, ?_⟩, rfl, rfl, ?_⟩
    · intro _ k _ hk
      simp [hcap, hk, hdat, List.getElem?_append, List.getElem?_replicate]
    · have : b.data.take cap = b.data := List.take_of_length_le (by omega)
      simp only [List.drop_zero, hcap, this]
      exact hp hd
  · simp only [clear, hd, if_false, Bool.false_eq_true]
    exact ⟨_, _, rfl, ⟨pos, hcap, by simp, by simp, hdat, by simp, by simp [hd]⟩, rfl, by simp [hd], by simp⟩

theorem iterCalls_spec {α : Type} {b : Buf α} {cap : Nat} {items : List (Option α)} (hi : Inv b cap items) :
    ∀ k nr, nr ≤ b.len →
      iterCalls b k nr = some (((newest cap items).drop nr ++ List.replicate k none).take k) := by
  have hi' := hi
  obtain ⟨pos, hcap, hlen, hend, hdat, live, clean⟩ := hi
  have hnl : (newest cap items).length = b.len := by simp [newest]; omega
  intro k
  induction k with
  | zero => intro nr _; simp [iterCalls]
  | succ k ih =>
    intro nr hnr
    by_cases hq : b.len = nr
    · have hdn : (newest cap items).drop nr = [] := List.drop_eq_nil_of_le (by omega)
      simp only [iterCalls, iterNext, hq, if_true, Option.bind_eq_bind, Option.bind_some]
      rw [ih nr hnr, hdn]
      simp [List.replicate_succ]
    · have hoff : b.data[(if isFull b then (b.end_ + nr) % b.capacity else nr)]? =
          items[items.length - cap + nr]? := by
        by_cases hf : b.len = b.capacity
        · simp only [isFull, hf, beq_self_eq_true, if_true]
          rw [← live (items.length - cap + nr) (by omega) (by omega), hcap, hend]
          congr 1
          rw [Nat.mod_add_mod]
          conv => lhs; rw [show items.length + nr = (items.length - cap + nr) + cap by omega]
          simp
        · have : (b.len == b.capacity) = false := by simp [hf]
          simp only [isFull, this, Bool.false_eq_true, if_false]
          have h0 : items.length - cap = 0 := by omega
          rw [h0, Nat.zero_add]
          have := live nr (by omega) (by omega)
          rwa [Nat.mod_eq_of_lt (by omega)] at this
      have hlt : items.length - cap + nr < items.length := by omega
      simp only [iterCalls, iterNext, hq, if_false, CMem.read, hoff, Option.bind_eq_bind]
      rw [List.getElem?_eq_getElem hlt]
      simp only [Option.bind_some]
      rw [ih (nr+1) (by omega)]
      have : (newest cap items).drop nr = items[items.length - cap + nr] :: (newest cap items).drop (nr+1) := by
        rw [List.drop_eq_getElem_cons (by omega)]
        simp [newest]
      rw [this]
      simp [List.replicate_succ', List.take_append]

theorem head_spec {α : Type} {b : Buf α} {cap : Nat} {items : List (Option α)} (hi : Inv b cap items) :
    head b = some (items.getLast?.join) := by
  obtain ⟨pos, hcap, hlen, hend, hdat, live, clean⟩ := hi
  unfold head length
  by_cases h0 : b.len = 0
  · have : items = [] := by
      apply List.eq_nil_of_length_eq_zero; omega
    simp [h0, this]
  · have hpos : 0 < items.length := by omega
    have hl := live (items.length - 1) (by omega) (by omega)
    rw [List.getLast?_eq_getElem?]
    have key : (if b.end_ = 0 then b.capacity - 1 else b.end_ - 1) = (items.length - 1) % cap := by
      rw [hend, hcap]
      have := Nat.div_add_mod items.length cap
      split
      · rename_i hz
        have hd := Nat.dvd_of_mod_eq_zero hz
        obtain ⟨q, hq⟩ := hd
        obtain ⟨q', rfl⟩ : ∃ q', q = q' + 1 := ⟨q - 1, by
          rcases q with _ | q
          · rw [Nat.mul_zero] at hq; omega
          · omega⟩
        rw [hq, Nat.mul_succ, show cap * q' + cap - 1 = (cap - 1) + cap * q' by omega, Nat.add_mul_mod_self_left,
          Nat.mod_eq_of_lt (by omega)]
      · have h2 := Nat.mod_lt items.length pos
        have e : items.length - 1 = (items.length % cap - 1) + cap * (items.length / cap) := by
          generalize items.length % cap = r at *
          generalize cap * (items.length / cap) = s at *
          omega
        conv => rhs; rw [e, Nat.add_mul_mod_self_left]
        exact (Nat.mod_eq_of_lt (by omega)).symm
    simp only [h0, if_false, CMem.read]
    rw [← key] at hl
    have hh : (items[items.length - 1]?) = some (items[items.length - 1]'(by omega)) := by simp
    split at hl <;> rename_i hz <;> simp only [hz, if_true, if_false] <;> rw [hl, hh] <;> rfl

/-- Where a history leads. -/
theorem run_spec {α : Type} : ∀ (ops : List (Op α)) (b : Buf α) (cap : Nat) (items : List (Option α)), 
    Inv b cap (items.map (·.map b.copy)) →
    ∃ b' d, run b ops = some (b', d) ∧ Inv b' cap ((sinceClear items ops).map (·.map b.copy)) ∧
      b'.copy = b.copy ∧ b'.hasDestroy = b.hasDestroy := by
  intro ops
  induction ops with
  | nil => intro b cap items hi; exact ⟨b, [], rfl, hi, rfl, rfl⟩
  | cons op ops ih =>
    intro b cap items hi
    cases op with
    | append x =>
      obtain ⟨b1, d1, h1, hi1, hc1, hd1, _⟩ := append_spec hi x
      have : Inv b1 cap ((items ++ [x]).map (·.map b1.copy)) := by simpa [hc1] using hi1
      obtain ⟨b2, d2, h2, hi2, hc2, hd2⟩ := ih b1 cap _ this
      refine ⟨b2, d1 ++ d2, ?_, ?_, by rw [hc2, hc1], by rw [hd2, hd1]⟩
      · simp [run, step, h1, h2]
      · rw [hc1] at hi2; exact hi2
    | clear =>
      obtain ⟨b1, d1, h1, hi1, hc1, hd1, _⟩ := clear_spec hi
      have : Inv b1 cap (([] : List (Option α)).map (·.map b1.copy)) := by simpa using hi1
      obtain ⟨b2, d2, h2, hi2, hc2, hd2⟩ := ih b1 cap _ this
      refine ⟨b2, d1 ++ d2, ?_, ?_, by rw [hc2, hc1], by rw [hd2, hd1]⟩
      · simp [run, step, h1, h2]
      · rw [hc1] at hi2; exact hi2

end RingBuffer
