import Verif.Model.Sparse
import Verif.Props.Io
/-! # Sparse copies -/
namespace Sparse
open Io (Ev gots)

/-- All calls a schedule lets fail or be interrupted. -/
def Troubled (sched : List Ev) : Prop := ∃ e ∈ sched, ∀ k, e ≠ Ev.got k

theorem take_add_append (src : Bytes) (m n : Nat) : src.take m ++ (src.drop m).take n = src.take (m + n) := List.take_add.symm

theorem prefix_take {src a : Bytes} {m : Nat} {z : Bytes} (h : src.take m = a ++ z) : a <+: src :=
  (List.prefix_append a z).trans (h ▸ List.take_prefix m src)

/-- The destination after `m` bytes: what has been read, with zeros at the end possibly not yet written. -/
structure Upto (src : Bytes) (m : Nat) (f : File) : Prop where
  off : f.off = m
  le : m ≤ src.length
  len : f.data.length ≤ m
  data : src.take m = f.data ++ zeros (m - f.data.length)

theorem Upto.prefix {src : Bytes} {m : Nat} {f : File} (h : Upto src m f) : f.data <+: src := prefix_take h.data

theorem Upto.write {src : Bytes} {m n : Nat} {f : File} (h : Upto src m f) (hn : 0 < n) (hm : m + n ≤ src.length) :
    Upto src (m + n) (f.write ((src.drop m).take n)) ∧ (f.write ((src.drop m).take n)).data = src.take (m + n) := by
  have hl : ((src.drop m).take n).length = n := by simp; omega
  have hne : (src.drop m).take n ≠ [] := by intro e; rw [e] at hl; simp at hl; omega
  have e : (f.write ((src.drop m).take n)).data = src.take (m + n) := by
    rw [File.write, if_neg hne]
    simp only
    rw [h.off, hl, ← h.data, List.take_take, Nat.min_self, List.drop_of_length_le (l := f.data) (by have := h.len; omega), List.append_nil, take_add_append]
  refine ⟨⟨?_, hm, ?_, ?_⟩, e⟩
  · rw [File.write, if_neg hne]; simp only [hl, h.off]
  · rw [e]; simp; omega
  · rw [e]; simp [zeros]; omega

theorem Upto.skip {src : Bytes} {m n : Nat} {f : File} (h : Upto src m f) (hm : m + n ≤ src.length) (hz : (src.drop m).take n = zeros n) : Upto src (m + n) (f.skip n) := by
  refine ⟨by simp [File.skip, h.off], hm, by have := h.len; simp [File.skip]; omega, ?_⟩
  rw [← take_add_append, hz, h.data]
  have := h.len
  simp only [File.skip, zeros, List.append_assoc, List.replicate_append_replicate]
  congr 2; omega

/-- Something that was transferred, or nothing yet. -/
theorem fullWrite_ok {src : Bytes} (data : Bytes) {m : Nat} (hd : data = (src.drop m).take data.length) (sched : List Ev) :
    ∀ (ptr len total : Nat) (f : File), ptr + len = data.length → m + data.length ≤ src.length → Upto src (m + ptr) f →
    (∃ f' j, fullWrite data ptr len total f sched = some (.killed f') ∧ Upto src j f' ∧ gots sched < len) ∨
    (∃ f' j s, fullWrite data ptr len total f sched = some (.done (-1) f' s) ∧ Upto src j f' ∧ Troubled sched ∧ gots sched ≤ gots s + len) ∨
    (∃ f' s, fullWrite data ptr len total f sched = some (.done ((total + len : Nat) : Int) f' s) ∧ Upto src (m + data.length) f' ∧
      (0 < len → f'.data = src.take (m + data.length) ∧ s.length < sched.length) ∧ (len = 0 → f' = f) ∧ gots sched ≤ gots s + len ∧ s.length ≤ sched.length) := by
  induction sched with
  | nil =>
    intro ptr len total f hp hm hu
    rw [fullWrite]
    by_cases h0 : len = 0
    · rw [if_pos h0]
      refine .inr (.inr ⟨f, [], by simp [h0], ?_, by omega, fun _ => rfl, by simp [h0], Nat.le_refl _⟩)
      rw [show ptr = data.length by omega] at hu; exact hu
    · rw [if_neg h0]; exact .inl ⟨f, _, rfl, hu, by simp [gots]; omega⟩
  | cons e sched ih =>
    intro ptr len total f hp hm hu
    rw [fullWrite.eq_def]
    simp only
    by_cases h0 : len = 0
    · rw [if_pos h0]
      refine .inr (.inr ⟨f, e :: sched, by simp [h0], ?_, by omega, fun _ => rfl, by omega, Nat.le_refl _⟩)
      rw [show ptr = data.length by omega] at hu; exact hu
    · rw [if_neg h0]
      cases e with
      | eintr =>
        rcases ih ptr len total f hp hm hu with ⟨f', j, h1, h2, h3⟩ | ⟨f', j, s, h1, h2, ⟨x, h3, h4⟩, h5⟩ | ⟨f', s, h1, h2, h3, h4, h5, h6⟩
        · exact .inl ⟨f', j, h1, h2, by simpa [gots] using h3⟩
        · exact .inr (.inl ⟨f', j, s, h1, h2, ⟨x, List.mem_cons_of_mem _ h3, h4⟩, by simpa [gots] using h5⟩)
        · exact .inr (.inr ⟨f', s, h1, h2, fun h => ⟨(h3 h).1, by have := (h3 h).2; simp; omega⟩, h4, by simpa [gots] using h5, by simp; omega⟩)
      | err => exact .inr (.inl ⟨f, _, sched, rfl, hu, ⟨.err, by simp, by intro k h; cases h⟩, by simp [gots]⟩)
      | got k =>
        simp only
        have hn : Io.writeN k len ≤ len ∧ (k > 0 → 0 < Io.writeN k len) := by unfold Io.writeN; omega
        generalize Io.writeN k len = n at *
        rw [if_pos (by omega)]
        have hdata : (data.drop ptr).take n = (src.drop (m + ptr)).take n := by
          rw [hd, List.drop_take, List.drop_drop, List.take_take]
          congr 1; omega
        by_cases hn0 : n = 0
        · subst hn0
          have : f.write ((data.drop ptr).take 0) = f := by simp [File.write]
          rw [this]
          have hk : ¬ k > 0 := by intro h; have := hn.2 h; omega
          rcases ih (ptr + 0) (len - 0) (total + 0) f hp hm hu with ⟨f', j, h1, h2, h3⟩ | ⟨f', j, s, h1, h2, ⟨x, h3, h4⟩, h5⟩ | ⟨f', s, h1, h2, h3, h4, h5, h6⟩
          · exact .inl ⟨f', j, h1, h2, by simp only [gots, if_neg hk]; omega⟩
          · exact .inr (.inl ⟨f', j, s, h1, h2, ⟨x, List.mem_cons_of_mem _ h3, h4⟩, by simp only [gots, if_neg hk]; omega⟩)
          · exact .inr (.inr ⟨f', s, h1, h2, fun h => ⟨(h3 h).1, by have := (h3 h).2; simp; omega⟩, h4, by simp only [gots, if_neg hk]; omega, by simp; omega⟩)
        · obtain ⟨hw, hwd⟩ := hu.write (n := n) (by omega) (by omega)
          rw [← hdata] at hw hwd
          have hg : gots (Ev.got k :: sched) ≤ gots sched + 1 := by simp only [gots]; split <;> omega
          rcases ih (ptr + n) (len - n) (total + n) _ (by omega) hm (by rw [← Nat.add_assoc]; exact hw) with ⟨f', j, h1, h2, h3⟩ | ⟨f', j, s, h1, h2, ⟨x, h3, h4⟩, h5⟩ | ⟨f', s, h1, h2, h3, h4, h5, h6⟩
          · exact .inl ⟨f', j, h1, h2, by omega⟩
          · exact .inr (.inl ⟨f', j, s, h1, h2, ⟨x, List.mem_cons_of_mem _ h3, h4⟩, by omega⟩)
          · refine .inr (.inr ⟨f', s, by rw [h1, show total + n + (len - n) = total + len by omega], h2, fun _ => ⟨?_, by simp; omega⟩, fun h => absurd h h0, by omega, by simp; omega⟩)
            by_cases hl : 0 < len - n
            · exact (h3 hl).1
            · rw [h4 (by omega), hwd]; congr 1; omega

theorem memcchr_none {data : Bytes} : ∀ {i : Nat}, Str.memcchr 0 data i = none ↔ data = zeros data.length := by
  induction data with
  | nil => intro i; simp [Str.memcchr, zeros]
  | cons c d ih =>
    intro i
    rw [Str.memcchr]
    by_cases h : c = 0
    · subst h
      simp only [ne_eq, not_true, if_false, ih]
      constructor
      · intro e; rw [List.length_cons, zeros, List.replicate_succ]; congr 1
      · intro e; rw [List.length_cons, zeros, List.replicate_succ] at e; exact (List.cons.inj e).2
    · rw [if_pos h]
      constructor
      · intro e; cases e
      · intro e; rw [List.length_cons, zeros, List.replicate_succ] at e; exact absurd (List.cons.inj e).1 h

theorem sparseWrite_ok {src : Bytes} {data : Bytes} {m : Nat} (hd : data = (src.drop m).take data.length) (hole : Bool) (f : File) (sched : List Ev)
    (hl : 0 < data.length) (hm : m + data.length ≤ src.length) (hu : Upto src m f) :
    (∃ f' j, sparseWrite data hole f sched = some (.killed f') ∧ Upto src j f' ∧ gots sched < data.length) ∨
    (∃ f' j s, sparseWrite data hole f sched = some (.done (false, hole) f' s) ∧ Upto src j f' ∧ Troubled sched) ∨
    (∃ f' s hole', sparseWrite data hole f sched = some (.done (true, hole') f' s) ∧ Upto src (m + data.length) f' ∧
      (hole' = false → f'.data = src.take (m + data.length)) ∧ gots sched ≤ gots s + data.length ∧ s.length < sched.length) := by
  rw [sparseWrite]
  by_cases hz : Str.memcchr 0 data 0 = none
  · rw [if_pos hz, call.eq_def]
    have hz := memcchr_none.1 hz
    match sched with
    | [] => exact .inl ⟨f, m, rfl, hu, by simpa [gots] using hl⟩
    | .eintr :: s => exact .inr (.inl ⟨f, m, s, rfl, hu, ⟨.eintr, by simp, by intro k h; cases h⟩⟩)
    | .err :: s => exact .inr (.inl ⟨f, m, s, rfl, hu, ⟨.err, by simp, by intro k h; cases h⟩⟩)
    | .got k :: s =>
      refine .inr (.inr ⟨_, s, true, rfl, hu.skip hm (hd ▸ hz), (fun h => by cases h), ?_, by simp⟩)
      simp only [gots]; split <;> omega
  · rw [if_neg hz]
    rcases fullWrite_ok data hd sched 0 data.length 0 f (by omega) hm hu with ⟨f', j, h1, h2, h3⟩ | ⟨f', j, s, h1, h2, h3, _⟩ | ⟨f', s, h1, h2, h3, _, h5, _⟩
    · rw [h1]; exact .inl ⟨f', j, rfl, h2, h3⟩
    · rw [h1]; exact .inr (.inl ⟨f', j, s, rfl, h2, h3⟩)
    · rw [h1]
      simp only
      rw [if_neg (by omega)]
      exact .inr (.inr ⟨f', s, false, rfl, h2, fun _ => (h3 hl).1, h5, (h3 hl).2⟩)

theorem fullWrite_suffix {data : Bytes} (sched : List Ev) : ∀ {ptr len total : Nat} {f f' : File} {w : Int} {s' : List Ev},
    fullWrite data ptr len total f sched = some (.done w f' s') → ∃ p, sched = p ++ s' := by
  induction sched with
  | nil =>
    intro ptr len total f f' w s' h
    rw [fullWrite] at h
    split at h
    · cases h; exact ⟨[], rfl⟩
    · cases h
  | cons e sched ih =>
    intro ptr len total f f' w s' h
    rw [fullWrite.eq_def] at h
    simp only at h
    split at h
    · cases h; exact ⟨[], rfl⟩
    · cases e with
      | eintr => obtain ⟨p, hp⟩ := ih h; exact ⟨_ :: p, by rw [hp]; rfl⟩
      | err => cases h; exact ⟨[_], rfl⟩
      | got k =>
        simp only at h
        split at h
        · obtain ⟨p, hp⟩ := ih h; exact ⟨_ :: p, by rw [hp]; rfl⟩
        · cases h

theorem sparse_suffix (data : Bytes) (hole : Bool) (f : File) (s : List Ev) (r : Bool × Bool) (f' : File) (s' : List Ev)
    (h : sparseWrite data hole f s = some (.done r f' s')) : ∃ p, s = p ++ s' := by
  rw [sparseWrite] at h
  split at h
  · rw [call.eq_def] at h
    split at h
    · cases h
    · cases h; exact ⟨[_], rfl⟩
    · cases h; exact ⟨[_], rfl⟩
  · split at h
    · cases h
    · cases h
    · rename_i g
      obtain ⟨p, hp⟩ := fullWrite_suffix _ g
      split at h <;> cases h <;> exact ⟨p, hp⟩

theorem load_ok (xs : Bytes) (b : List (Option UInt8)) : load (xs.map some ++ b) xs.length = some xs := by
  rw [load, if_pos (by simp), List.take_left' (by simp)]
  induction xs with
  | nil => rfl
  | cons x xs ih => simp [ih]

theorem store_zero {buf b : List (Option UInt8)} {xs : Bytes} (h : CMem.store buf 0 xs = some b) : b = xs.map some ++ buf.drop xs.length ∧ xs.length ≤ buf.length := by
  rw [CMem.store] at h
  split at h
  · cases h; exact ⟨by simp, by omega⟩
  · cases h

theorem fullRead_count (sched : List Ev) : ∀ (buf : List (Option UInt8)) (ptr len total : Nat) (rest : List UInt8),
    (Io.fullRead buf ptr len total rest sched = some .pending → gots sched ≤ min len rest.length) ∧
    (∀ n b fd, Io.fullRead buf ptr len total rest sched = some (.done (n, b, fd)) → 0 ≤ n →
      gots sched + total ≤ gots fd.sched + n.toNat + 1 ∧ (0 < len → fd.sched.length < sched.length)) := by
  induction sched with
  | nil =>
    intro buf ptr len total rest
    rw [Io.fullRead]
    split
    · exact ⟨(by intro h; cases h), by intro n b fd h h0; cases h; exact ⟨by simp, by omega⟩⟩
    · exact ⟨by intro _; simp [gots], by intro n b fd h; cases h⟩
  | cons e sched ih =>
    intro buf ptr len total rest
    rw [Io.fullRead.eq_def]
    simp only
    split
    · exact ⟨(by intro h; cases h), by intro n b fd h h0; cases h; exact ⟨by simp, by omega⟩⟩
    rename_i hl0
    cases e with
    | eintr =>
      have := ih buf ptr len total rest
      exact ⟨by intro h; simpa [gots] using this.1 h, fun n b fd h h0 => by have := this.2 n b fd h h0; exact ⟨by simpa [gots] using this.1, fun hl => by have := this.2 hl; simp; omega⟩⟩
    | err => exact ⟨(by intro h; cases h), by intro n b fd h h0; cases h; omega⟩
    | got k =>
      have hg : gots (Ev.got k :: sched) ≤ gots sched + 1 := by simp only [gots]; split <;> omega
      simp only
      have hn : Io.readN k len rest ≤ len ∧ Io.readN k len rest ≤ rest.length := by unfold Io.readN; omega
      generalize Io.readN k len rest = n0 at *
      split
      · refine ⟨(by intro h; cases h), ?_⟩
        intro n b fd h h0
        cases h
        exact ⟨by simp; omega, by simp⟩
      · cases hs : CMem.store buf ptr (rest.take n0) with
        | none => exact ⟨by intro h; simp at h, by intro n b fd h; simp at h⟩
        | some b1 =>
          simp only [Option.bind_eq_bind, Option.bind_some]
          have := ih b1 (ptr + n0) (len - n0) (total + n0) (rest.drop n0)
          constructor
          · intro h; have := this.1 h; simp only [List.length_drop] at this; omega
          · intro n b fd h h0
            have hx := this.2 n b fd h h0
            refine ⟨by omega, fun _ => ?_⟩
            by_cases hl : 0 < len - n0
            · have := hx.2 hl; simp; omega
            · cases sched with
              | nil => rw [Io.fullRead, if_pos (by omega)] at h; cases h; simp
              | cons e s => rw [Io.fullRead.eq_def] at h; simp only at h; rw [if_pos (by omega)] at h; cases h; simp

theorem copyLoop_ok {src : Bytes} {blk : Nat} (hb : 0 < blk) : ∀ (fuel : Nat) (buf : List (Option UInt8)) (total : Nat) (hole : Bool) (f : File) (sched : List Ev),
    buf.length = blk → sched.length < fuel → Upto src total f → (hole = false → f.data = src.take total) →
    (∃ f' j, copyLoop blk fuel buf total hole (src.drop total) f sched = some (.killed f') ∧ Upto src j f' ∧ gots sched ≤ 3 * (src.length - total)) ∨
    (∃ f' j t h s, copyLoop blk fuel buf total hole (src.drop total) f sched = some (.done (false, t, h) f' s) ∧ Upto src j f' ∧ Troubled sched) ∨
    (∃ f' h s, copyLoop blk fuel buf total hole (src.drop total) f sched = some (.done (true, src.length, h) f' s) ∧ Upto src src.length f' ∧
      (h = false → f'.data = src)) := by
  intro fuel
  induction fuel with
  | zero => intro buf total hole f sched _ h; omega
  | succ fuel ih =>
    intro buf total hole f sched hbl hf hu hh
    rw [copyLoop]
    have hcount := fullRead_count sched buf 0 blk 0 (src.drop total)
    have hle := hu.le
    rcases Io.fullRead_ok sched buf 0 blk 0 (src.drop total) (by omega) with h | ⟨m, b, s, h1, h2, h3, h4, h5⟩ | ⟨b, s, h1, h2, pre, h3⟩
    · rw [h]
      refine .inl ⟨f, total, rfl, hu, ?_⟩
      have := hcount.1 h
      simp only [List.length_drop] at this; omega
    · rw [h3]
      exact .inr (.inl ⟨f, total, total, hole, s, rfl, hu, .err, h5, by intro k h; cases h⟩)
    · have hc := hcount.2 _ _ _ h1 (by omega)
      rw [h1]
      obtain ⟨hb1, hb2⟩ := store_zero h2
      simp only
      rw [if_neg (by omega)]
      have hlen : ((src.drop total).take blk).length = min blk (src.drop total).length := by simp
      split
      · rename_i h0
        have hts : total = src.length := by simp at h0; omega
        refine .inr (.inr ⟨f, hole, s, by rw [hts], hts ▸ hu, fun h => ?_⟩)
        rw [hh h, hts, List.take_length]
      · rename_i h0
        have hload : load b (((0 + min blk (src.drop total).length : Nat) : Int)).toNat = some ((src.drop total).take blk) := by
          rw [show (((0 + min blk (src.drop total).length : Nat) : Int)).toNat = ((src.drop total).take blk).length by rw [hlen]; simp, hb1]
          exact load_ok _ _
        rw [hload]
        simp only [Option.bind_some]
        have hn : (((0 + min blk (src.drop total).length : Nat) : Int)).toNat = ((src.drop total).take blk).length := by rw [hlen]; simp
        rw [hn]
        have hc1 : gots sched + 0 ≤ gots s + (((0 + min blk (src.drop total).length : Nat) : Int)).toNat + 1 := hc.1
        rw [hn] at hc1
        generalize hdat : (src.drop total).take blk = data at *
        have hdl : data.length = min blk (src.length - total) := by rw [← hdat]; simp
        have hself : data = (src.drop total).take data.length := by
          rw [hdl, ← hdat]
          rw [← List.take_take]
          rw [List.take_of_length_le (i := src.length - total) (by simp)]
        have hpos : 0 < data.length := by
          rw [hdl]; simp at h0; omega
        rcases sparseWrite_ok hself hole f s hpos (by omega) hu with ⟨f', j, g1, g2, g3⟩ | ⟨f', j, s', g1, g2, ⟨x, g3, g4⟩⟩ | ⟨f', s', hole', g1, g2, g3, g4, g5⟩
        · rw [g1]
          exact .inl ⟨f', j, rfl, g2, by omega⟩
        · rw [g1]
          refine .inr (.inl ⟨f', j, _, _, s', rfl, g2, x, by rw [h3]; exact List.mem_append_right _ g3, g4⟩)
        · rw [g1]
          simp only [if_true]
          have hdrop : (src.drop total).drop blk = src.drop (total + data.length) := by
            rw [List.drop_drop, hdl]
            by_cases hc : blk ≤ src.length - total
            · rw [Nat.min_eq_left hc]
            · rw [List.drop_of_length_le (by omega), List.drop_of_length_le (by omega)]
          rw [hdrop]
          have hsl := hc.2 hb
          have hbl' : b.length = blk := by rw [hb1]; simp; omega
          rcases ih b (total + data.length) hole' f' s' hbl' (by simp at hsl; omega) g2 g3 with ⟨f2, j, k1, k2, k3⟩ | ⟨f2, j, t, h', s2, k1, k2, ⟨x, k3, k4⟩⟩ | ⟨f2, h', s2, k1, k2, k3⟩
          · refine .inl ⟨f2, j, k1, k2, ?_⟩
            simp at hc1; omega
          · -- failure in a later round
            have hx : x ∈ sched := by
              have hsuf : ∃ p, s = p ++ s' := sparse_suffix data hole f s (true, hole') f' s' g1
              obtain ⟨p, hp⟩ := hsuf
              rw [h3, hp]; simp [k3]
            exact .inr (.inl ⟨f2, j, t, h', s2, k1, k2, x, hx, k4⟩)
          · exact .inr (.inr ⟨f2, h', s2, k1, k2, k3⟩)

theorem gots_cons (e : Ev) (s : List Ev) : gots (e :: s) ≤ gots s + 1 := by
  cases e with
  | got k => simp only [gots]; split <;> omega
  | eintr => simp only [gots]; omega
  | err => simp only [gots]; omega

theorem troubled_cons {e : Ev} {s : List Ev} (h : Troubled s) : Troubled (e :: s) := by
  obtain ⟨x, h1, h2⟩ := h; exact ⟨x, List.mem_cons_of_mem _ h1, h2⟩

theorem closeEnd_ok (f : File) (s : List Ev) :
    (closeEnd f s = some (.killed f) ∧ gots s = 0) ∨ (∃ s', closeEnd f s = some (.done false f s') ∧ Troubled s) ∨ (∃ s', closeEnd f s = some (.done true f s')) := by
  rw [closeEnd, call.eq_def]
  match s with
  | [] => exact .inl ⟨rfl, rfl⟩
  | .eintr :: s => exact .inr (.inl ⟨s, rfl, .eintr, by simp, by intro k h; cases h⟩)
  | .err :: s => exact .inr (.inl ⟨s, rfl, .err, by simp, by intro k h; cases h⟩)
  | .got k :: s => exact .inr (.inr ⟨s, rfl⟩)

theorem closeFail_ok (f : File) (s : List Ev) :
    (closeFail f s = some (.killed f) ∧ gots s = 0) ∨ (∃ s', closeFail f s = some (.done false f s')) := by
  rw [closeFail, call.eq_def]
  match s with
  | [] => exact .inl ⟨rfl, rfl⟩
  | .eintr :: s => exact .inr ⟨s, rfl⟩
  | .err :: s => exact .inr ⟨s, rfl⟩
  | .got k :: s => exact .inr ⟨s, rfl⟩

theorem syncClose_ok (sync : Bool) (f : File) (s : List Ev) :
    (syncClose sync f s = some (.killed f) ∧ gots s ≤ 1) ∨ (∃ s', syncClose sync f s = some (.done false f s') ∧ Troubled s) ∨
    (∃ s', syncClose sync f s = some (.done true f s')) := by
  have key : ∀ e t, (closeEnd f t = some (.killed f) ∧ gots (e :: t) ≤ 1) ∨ (∃ s', closeEnd f t = some (.done false f s') ∧ Troubled (e :: t)) ∨
      (∃ s', closeEnd f t = some (.done true f s')) := by
    intro e t
    have hg := gots_cons e t
    rcases closeEnd_ok f t with ⟨h, h'⟩ | ⟨s', h, h'⟩ | h
    · exact .inl ⟨h, by omega⟩
    · exact .inr (.inl ⟨s', h, troubled_cons h'⟩)
    · exact .inr (.inr h)
  rw [syncClose]
  cases sync with
  | false =>
    simp only [Bool.false_eq_true, if_false]
    rcases closeEnd_ok f s with ⟨h, h'⟩ | h | h
    · exact .inl ⟨h, by omega⟩
    · exact .inr (.inl h)
    · exact .inr (.inr h)
  | true =>
    simp only [if_true, call.eq_def]
    match s with
    | [] => exact .inl ⟨rfl, by simp [gots]⟩
    | .eintr :: s => exact key _ s
    | .err :: s => exact key _ s
    | .got k :: s => exact key _ s

/-- Closing a file that is complete up to zeros at its end. -/
theorem close_ok {src : Bytes} {f : File} {hole : Bool} (hu : Upto src src.length f) (hh : hole = false → f.data = src) (sync : Bool) (sched : List Ev) :
    (∃ f', close sync src.length hole f sched = some (.killed f') ∧ f'.data <+: src ++ [0] ∧ gots sched ≤ 3) ∨
    (∃ f' s, close sync src.length hole f sched = some (.done false f' s) ∧ f'.data <+: src ++ [0] ∧ Troubled sched) ∨
    (∃ f' s, close sync src.length hole f sched = some (.done true f' s) ∧ f'.data = src) := by
  rw [close]
  cases hole with
  | false =>
    simp only [Bool.false_eq_true, if_false]
    have hp : f.data <+: src ++ [0] := by rw [hh rfl]; exact List.prefix_append _ _
    rcases syncClose_ok sync f sched with ⟨h, h'⟩ | ⟨s', h, h'⟩ | ⟨s', h⟩
    · exact .inl ⟨f, h, hp, by omega⟩
    · exact .inr (.inl ⟨f, s', h, hp, h'⟩)
    · exact .inr (.inr ⟨f, s', h, hh rfl⟩)
  | true =>
    simp only [if_true]
    -- the extra byte extends what is to be there by one zero
    have hu' : Upto (src ++ [0]) (src.length + 0) f := by
      refine ⟨by simpa using hu.off, by simp, by simpa using hu.len, ?_⟩
      have := hu.data
      rw [List.take_length] at this
      simpa using this
    have hd : ([0] : Bytes) = ((src ++ [0]).drop src.length).take ([0] : Bytes).length := by simp
    rcases fullWrite_ok (src := src ++ [0]) [0] hd sched 0 1 0 f (by simp) (by simp) hu' with ⟨f', j, h1, h2, h3⟩ | ⟨f', j, s, h1, h2, h3, h6⟩ | ⟨f', s, h1, h2, h3, _, h5, _⟩
    · rw [h1]; exact .inl ⟨f', rfl, h2.prefix, by omega⟩
    · rw [h1]
      simp only [if_true]
      rcases closeFail_ok f' s with ⟨h, h'⟩ | ⟨s', h⟩
      · exact .inl ⟨f', h, h2.prefix, by omega⟩
      · exact .inr (.inl ⟨f', s', h, h2.prefix, h3⟩)
    · rw [h1]
      simp only
      rw [if_neg (by omega)]
      obtain ⟨h3, _⟩ := h3 (by omega)
      have hdata : f'.data = src ++ [0] := by rw [h3, List.take_of_length_le (by simp)]
      have htr : (f'.truncate src.length).data = src := by simp [File.truncate, hdata, zeros]
      obtain ⟨p, hp⟩ := fullWrite_suffix _ h1
      rw [call.eq_def]
      have key : ∀ e t, s = e :: t → (∃ f'', closeFail f' t = some (.killed f'') ∧ f''.data <+: src ++ [0] ∧ gots sched ≤ 3) ∨ (∃ f'' s', closeFail f' t = some (.done false f'' s') ∧ f''.data <+: src ++ [0]) := by
        intro e t he
        have := gots_cons e t
        rw [he] at h5
        rcases closeFail_ok f' t with ⟨h, h'⟩ | ⟨s', h⟩
        · exact .inl ⟨f', h, by rw [hdata]; exact List.prefix_refl _, by omega⟩
        · exact .inr ⟨f', s', h, by rw [hdata]; exact List.prefix_refl _⟩
      match s, key, hp, h5 with
      | [], _, _, h5 => exact .inl ⟨f', rfl, by rw [hdata]; exact List.prefix_refl _, by simp [gots] at h5; omega⟩
      | .eintr :: s, key, hp, h5 =>
        rcases key _ s rfl with h | ⟨f'', s', h, h'⟩
        · exact .inl h
        · exact .inr (.inl ⟨f'', s', h, h', .eintr, by rw [hp]; simp, by intro k h; cases h⟩)
      | .err :: s, key, hp, h5 =>
        rcases key _ s rfl with h | ⟨f'', s', h, h'⟩
        · exact .inl h
        · exact .inr (.inl ⟨f'', s', h, h', .err, by rw [hp]; simp, by intro k h; cases h⟩)
      | .got k :: s, key, hp, h5 =>
        have hg := gots_cons (.got k) s
        simp only
        have hpre : (f'.truncate src.length).data <+: src ++ [0] := by rw [htr]; exact List.prefix_append _ _
        rcases syncClose_ok sync (f'.truncate src.length) s with ⟨h, h'⟩ | ⟨s', h, x, h', h''⟩ | ⟨s', h⟩
        · exact .inl ⟨_, h, hpre, by omega⟩
        · exact .inr (.inl ⟨_, s', h, hpre, x, by rw [hp]; simp [h'], h''⟩)
        · exact .inr (.inr ⟨_, s', h, htr⟩)

end Sparse

/-- C89. A file copied with `FileSparseCopy` to a new file and closed with `FileSparseClose`, for every content, every positive block size and every completion of
the system calls. Wherever the process is killed, the destination holds a prefix of the source, during the close possibly followed by a single zero byte. The
copy returns false only when a call failed or was interrupted; otherwise it reports all bytes of the source as copied, and when the close then returns true
the destination holds exactly the source. Neither function makes more than `3 * size` respectively 3 calls that succeed and is still not done. -/
theorem C89_sparse_copy (blk : Nat) (hb : 0 < blk) (src : Sparse.Bytes) (sched : List Io.Ev) :
    (∃ f, Sparse.copy blk src ⟨[], 0⟩ sched = some (.killed f) ∧ f.data <+: src ∧ Io.gots sched ≤ 3 * src.length) ∨
    (∃ f t h s, Sparse.copy blk src ⟨[], 0⟩ sched = some (.done (false, t, h) f s) ∧ f.data <+: src ∧ Sparse.Troubled sched) ∨
    (∃ f h s, Sparse.copy blk src ⟨[], 0⟩ sched = some (.done (true, src.length, h) f s) ∧ f.data <+: src ∧ ∀ (sync : Bool) (s' : List Io.Ev),
      (∃ f', Sparse.close sync src.length h f s' = some (.killed f') ∧ f'.data <+: src ++ [0] ∧ Io.gots s' ≤ 3) ∨
      (∃ f' t, Sparse.close sync src.length h f s' = some (.done false f' t) ∧ f'.data <+: src ++ [0] ∧ Sparse.Troubled s') ∨
      (∃ f' t, Sparse.close sync src.length h f s' = some (.done true f' t) ∧ f'.data = src)) := by
  have hu : Sparse.Upto src 0 ⟨[], 0⟩ := ⟨rfl, Nat.zero_le _, Nat.le_refl _, by simp [Sparse.zeros]⟩
  rcases Sparse.copyLoop_ok (src := src) hb (sched.length + 1) (List.replicate blk none) 0 false ⟨[], 0⟩ sched (by simp) (by omega) hu (fun _ => rfl) with
    ⟨f, j, h1, h2, h3⟩ | ⟨f, j, t, h, s, h1, h2, h3⟩ | ⟨f, h, s, h1, h2, h3⟩
  · exact .inl ⟨f, h1, h2.prefix, h3⟩
  · exact .inr (.inl ⟨f, t, h, s, h1, h2.prefix, h3⟩)
  · exact .inr (.inr ⟨f, h, s, h1, h2.prefix, fun sync s' => Sparse.close_ok h2 h3 sync s'⟩)

-- a hole at the end is there after the close, and only then
example : (Sparse.copy 2 [7, 0, 0, 0, 0] ⟨[], 0⟩ (List.replicate 20 (.got 2))).map (fun r => match r with
    | .done (ok, t, h) f _ => (ok, t, h, f.data, f.off) | .killed f => (false, 0, false, f.data, f.off)) = some (true, 5, true, [7, 0], 5) := by decide +kernel
example : (Sparse.close true 5 true ⟨[7, 0], 5⟩ [.got 1, .got 1, .err, .got 1]).map (fun r => match r with
    | .done ok f _ => (ok, f.data) | .killed f => (false, f.data)) = some (true, [7, 0, 0, 0, 0]) := by decide +kernel
-- killed between the write and the truncation: one zero byte too many
example : (Sparse.close true 5 true ⟨[7, 0], 5⟩ [.got 1]).map (fun r => match r with
    | .done ok f _ => (ok, f.data) | .killed f => (false, f.data)) = some (false, [7, 0, 0, 0, 0, 0]) := by decide +kernel

/-- Finding: the destination must be empty and the descriptor at offset 0. Holes do not overwrite bytes that are already there (`123` overwritten with two
zero bytes becomes `12`), and the final truncation counts from the start of the file, not from where the copy began (one zero byte appended to `9`
leaves `9`), while both functions return true. With a block size of 0 the copy succeeds without copying anything. -/
theorem C89_needs_fresh_destination :
    (∃ s, Sparse.copy 4 [0, 0] ⟨[1, 2, 3], 0⟩ (List.replicate 7 (.got 4)) = some (.done (true, 2, true) ⟨[1, 2, 3], 2⟩ s) ∧
      Sparse.close false 2 true ⟨[1, 2, 3], 2⟩ s = some (.done true ⟨[1, 2], 3⟩ [])) ∧
    (∃ s, Sparse.copy 4 [0] ⟨[9], 1⟩ (List.replicate 7 (.got 4)) = some (.done (true, 1, true) ⟨[9], 2⟩ s) ∧
      Sparse.close false 1 true ⟨[9], 2⟩ s = some (.done true ⟨[9], 3⟩ [])) ∧
    (∀ s, Sparse.copy 0 [1, 2, 3] ⟨[], 0⟩ s = some (.done (true, 0, false) ⟨[], 0⟩ s)) := by
  refine ⟨⟨List.replicate 3 (.got 4), rfl, rfl⟩, ⟨List.replicate 3 (.got 4), rfl, rfl⟩, fun s => ?_⟩
  cases s <;> rfl
