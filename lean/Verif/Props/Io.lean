import Verif.Model.Io
import Verif.Lemmas.Writer
import Verif.Lemmas.StrCopy
/-! # C46 and C47: reading and writing under every schedule of short transfers and interruptions -/

namespace Io

/-- How many calls of a schedule transfer something. -/
def gots : List Ev → Nat
  | [] => 0
  | .got k :: sched => (if k > 0 then 1 else 0) + gots sched
  | _ :: sched => gots sched

theorem store_split (buf : List (Option UInt8)) (ptr : Nat) (a b : List UInt8) (h : ptr + a.length + b.length ≤ buf.length) :
    (CMem.store buf ptr a).bind (fun m => CMem.store m (ptr + a.length) b) = CMem.store buf ptr (a ++ b) := by
  unfold CMem.store
  rw [if_pos (by omega), if_pos (by simp; omega)]
  simp only [Option.bind_some]
  rw [if_pos (by simp; omega)]
  congr 1
  have h1 : List.take (ptr + a.length) (List.take ptr buf ++ List.map some a ++ List.drop (ptr + a.length) buf) = List.take ptr buf ++ List.map some a :=
    List.take_left' (by simp; omega)
  rw [h1]
  rw [List.drop_append, List.drop_of_length_le (by simp; omega), List.drop_drop]
  simp
  congr 1
  omega

theorem fullRead_ok (sched : List Ev) : ∀ (buf : List (Option UInt8)) (ptr len total : Nat) (rest : List UInt8), ptr + len ≤ buf.length →
    fullRead buf ptr len total rest sched = some .pending ∨
    (∃ m buf' sched', m ≤ len ∧ m ≤ rest.length ∧ fullRead buf ptr len total rest sched = some (.done (-1, buf', ⟨rest.drop m, sched'⟩)) ∧
      CMem.store buf ptr (rest.take m) = some buf' ∧ Ev.err ∈ sched) ∨
    (∃ buf' sched', fullRead buf ptr len total rest sched = some (.done (((total + min len rest.length : Nat) : Int), buf', ⟨rest.drop len, sched'⟩)) ∧
      CMem.store buf ptr (rest.take len) = some buf' ∧ (∃ pre, sched = pre ++ sched')) := by
  have store0 : ∀ (buf : List (Option UInt8)) (ptr : Nat), ptr ≤ buf.length → CMem.store buf ptr [] = some buf := by
    intro buf ptr h; simp [CMem.store, h]
  induction sched with
  | nil =>
    intro buf ptr len total rest hb
    unfold fullRead
    by_cases h : len = 0
    · subst h
      rw [if_pos rfl]
      exact Or.inr (Or.inr ⟨buf, [], by simp, by simpa using store0 _ _ hb, [], rfl⟩)
    · rw [if_neg h]; exact Or.inl rfl
  | cons e sched ih =>
    intro buf ptr len total rest hb
    unfold fullRead
    by_cases h : len = 0
    · subst h
      rw [if_pos rfl]
      exact Or.inr (Or.inr ⟨buf, e :: sched, by simp, by simpa using store0 _ _ hb, [], rfl⟩)
    · rw [if_neg h]
      cases e with
      | eintr =>
        rcases ih buf ptr len total rest hb with h1 | ⟨m, b, s, h1, h2, h3, h4, h5⟩ | ⟨b, s, h1, h2, pre, h3⟩
        · exact Or.inl h1
        · exact Or.inr (Or.inl ⟨m, b, s, h1, h2, h3, h4, List.mem_cons_of_mem _ h5⟩)
        · exact Or.inr (Or.inr ⟨b, s, h1, h2, Ev.eintr :: pre, by simp [h3]⟩)
      | err => exact Or.inr (Or.inl ⟨0, buf, sched, by omega, by omega, by simp, by simpa using store0 _ _ (by omega), by simp⟩)
      | got k =>
        simp only
        have hn : readN k len rest ≤ len ∧ readN k len rest ≤ rest.length ∧ (readN k len rest = 0 → rest.length = 0) := by unfold readN; omega
        generalize readN k len rest = n at *
        by_cases h0 : n = 0
        · rw [if_pos h0]
          have : rest = [] := List.length_eq_zero_iff.1 (hn.2.2 h0)
          subst this
          exact Or.inr (Or.inr ⟨buf, sched, by simp, by simpa using store0 _ _ (by omega), [Ev.got k], by simp⟩)
        · rw [if_neg h0]
          have hl : (rest.take n).length = n := by simp; omega
          have hst : ∃ b1, CMem.store buf ptr (rest.take n) = some b1 ∧ b1.length = buf.length := by
            unfold CMem.store
            rw [if_pos (by omega)]
            exact ⟨_, rfl, by simp; omega⟩
          obtain ⟨b1, hb1, hl1⟩ := hst
          rw [hb1]
          simp only [Option.bind_eq_bind, Option.bind_some]
          have comp : ∀ m, n + m ≤ len → CMem.store b1 (ptr + n) ((rest.drop n).take m) = CMem.store buf ptr (rest.take (n + m)) := by
            intro m hm
            have := store_split buf ptr (rest.take n) ((rest.drop n).take m) (by rw [hl]; simp; omega)
            rw [hb1, hl] at this
            simp only [Option.bind_some] at this
            rw [this, List.take_add]
          rcases ih b1 (ptr + n) (len - n) (total + n) (rest.drop n) (by omega) with h1 | ⟨m, b, s, h1, h2, h3, h4, h5⟩ | ⟨b, s, h1, h2, pre, h3⟩
          · exact Or.inl h1
          · refine Or.inr (Or.inl ⟨n + m, b, s, by omega, by simp at h2; omega, ?_, ?_, List.mem_cons_of_mem _ h5⟩)
            · rw [h3, List.drop_drop]
            · rw [← comp m (by omega)]; exact h4
          · refine Or.inr (Or.inr ⟨b, s, ?_, ?_, Ev.got k :: pre, by simp [h3]⟩)
            · rw [h1, List.drop_drop, show n + (len - n) = len by omega, List.length_drop, show total + n + min (len - n) (rest.length - n) = total + min len rest.length by omega]
            · rw [comp (len - n) (by omega), show n + (len - n) = len by omega] at h2; exact h2

theorem fullRead_progress (sched : List Ev) : ∀ (buf : List (Option UInt8)) (ptr len total : Nat) (rest : List UInt8),
    len + 1 ≤ gots sched → fullRead buf ptr len total rest sched ≠ some .pending := by
  induction sched with
  | nil => intro buf ptr len total rest hg; simp [gots] at hg
  | cons e sched ih =>
    intro buf ptr len total rest hg
    unfold fullRead
    by_cases h : len = 0
    · rw [if_pos h]; simp
    · rw [if_neg h]
      cases e with
      | eintr => exact ih _ _ _ _ _ (by simpa [gots] using hg)
      | err => simp
      | got k =>
        simp only
        split
        · simp
        · rename_i h0
          have hl : len ≤ gots sched := by
            rw [gots] at hg
            split at hg <;> omega
          cases hs : CMem.store buf ptr (rest.take (readN k len rest)) with
          | none => simp
          | some b => exact ih _ _ _ _ _ (by omega)

theorem fullWrite_ok (src : List UInt8) (sched : List Ev) : ∀ (ptr len total : Nat) (sink : List UInt8), ptr + len ≤ src.length →
    fullWrite src ptr len total sink sched = some .pending ∨
    (∃ m, m ≤ len ∧ fullWrite src ptr len total sink sched = some (.done (-1, sink ++ (src.drop ptr).take m)) ∧ Ev.err ∈ sched) ∨
    fullWrite src ptr len total sink sched = some (.done (((total + len : Nat) : Int), sink ++ (src.drop ptr).take len)) := by
  induction sched with
  | nil =>
    intro ptr len total sink hb
    unfold fullWrite
    by_cases h : len = 0
    · subst h; rw [if_pos rfl]; exact Or.inr (Or.inr (by simp))
    · rw [if_neg h]; exact Or.inl rfl
  | cons e sched ih =>
    intro ptr len total sink hb
    unfold fullWrite
    by_cases h : len = 0
    · subst h; rw [if_pos rfl]; exact Or.inr (Or.inr (by simp))
    · rw [if_neg h]
      cases e with
      | eintr =>
        rcases ih ptr len total sink hb with h1 | ⟨m, h1, h2, h3⟩ | h1
        · exact Or.inl h1
        · exact Or.inr (Or.inl ⟨m, h1, h2, List.mem_cons_of_mem _ h3⟩)
        · exact Or.inr (Or.inr h1)
      | err => exact Or.inr (Or.inl ⟨0, by omega, by simp, by simp⟩)
      | got k =>
        simp only
        have hn : writeN k len ≤ len := by unfold writeN; omega
        generalize writeN k len = n at *
        rw [if_pos (by omega)]
        have comp : ∀ m, sink ++ (src.drop ptr).take n ++ (src.drop (ptr + n)).take m = sink ++ (src.drop ptr).take (n + m) := by
          intro m; rw [List.append_assoc, List.take_add, List.drop_drop]
        rcases ih (ptr + n) (len - n) (total + n) (sink ++ (src.drop ptr).take n) (by omega) with h1 | ⟨m, h1, h2, h3⟩ | h1
        · exact Or.inl h1
        · exact Or.inr (Or.inl ⟨n + m, by omega, by rw [h2, comp], List.mem_cons_of_mem _ h3⟩)
        · exact Or.inr (Or.inr (by rw [h1, comp, show n + (len - n) = len by omega, show total + n + (len - n) = total + len by omega]))

theorem fullWrite_progress (src : List UInt8) (sched : List Ev) : ∀ (ptr len total : Nat) (sink : List UInt8), len ≤ gots sched →
    fullWrite src ptr len total sink sched ≠ some .pending := by
  induction sched with
  | nil =>
    intro ptr len total sink hg
    unfold fullWrite
    rw [if_pos (by simpa [gots] using hg)]; simp
  | cons e sched ih =>
    intro ptr len total sink hg
    unfold fullWrite
    by_cases h : len = 0
    · rw [if_pos h]; simp
    · rw [if_neg h]
      cases e with
      | eintr => exact ih _ _ _ _ (by simpa [gots] using hg)
      | err => simp
      | got k =>
        simp only
        split
        · refine ih _ _ _ _ ?_
          rw [gots] at hg
          unfold writeN
          split at hg <;> omega
        · simp

end Io

/-- C46. `FullWrite` of `len` bytes: for every schedule of short writes and interruptions it never reads outside the data, and when it returns, either
exactly the `len` bytes have been written, in order, and the result is `len`, or a system call failed, the result is -1 and a prefix has been written. -/
theorem C46_write (src : List UInt8) (len : Nat) (sink : List UInt8) (sched : List Io.Ev) (h : len ≤ src.length) :
    Io.fullWrite src 0 len 0 sink sched = some .pending ∨
    Io.fullWrite src 0 len 0 sink sched = some (.done ((len : Int), sink ++ src.take len)) ∨
    (Io.Ev.err ∈ sched ∧ ∃ m, m ≤ len ∧ Io.fullWrite src 0 len 0 sink sched = some (.done (-1, sink ++ src.take m))) := by
  rcases Io.fullWrite_ok src sched 0 len 0 sink (by omega) with h | ⟨m, h1, h2, h3⟩ | h
  · exact Or.inl h
  · exact Or.inr (Or.inr ⟨h3, m, h1, by simpa using h2⟩)
  · exact Or.inr (Or.inl (by simpa using h))

/-- C46. `FullWrite` returns once `len` calls have transferred something, however often it is interrupted. -/
theorem C46_write_terminates (src : List UInt8) (len : Nat) (sink : List UInt8) (sched : List Io.Ev) (h : len ≤ Io.gots sched) :
    Io.fullWrite src 0 len 0 sink sched ≠ some .pending := Io.fullWrite_progress src sched 0 len 0 sink h

/-- C46. `FullRead` into a buffer with room for `len` bytes: for every schedule it stays inside the buffer, and when it returns, either the first
`min len available` bytes are in the buffer, in order, their number is the result and exactly they have been consumed, or a call failed and the
result is -1. Cells outside are untouched. -/
theorem C46_read (buf : List (Option UInt8)) (len : Nat) (rest : List UInt8) (sched : List Io.Ev) (h : len ≤ buf.length) :
    Io.fullRead buf 0 len 0 rest sched = some .pending ∨
    (∃ sched', Io.fullRead buf 0 len 0 rest sched =
      some (.done (((min len rest.length : Nat) : Int), (rest.take len).map some ++ buf.drop (min len rest.length), ⟨rest.drop len, sched'⟩))) ∨
    (Io.Ev.err ∈ sched ∧ ∃ m buf' sched', m ≤ len ∧ Io.fullRead buf 0 len 0 rest sched = some (.done (-1, buf', ⟨rest.drop m, sched'⟩)) ∧
      buf' = (rest.take m).map some ++ buf.drop (min m rest.length)) := by
  have hs : ∀ m b, CMem.store buf 0 (rest.take m) = some b → b = (rest.take m).map some ++ buf.drop (min m rest.length) := by
    intro m b hb
    unfold CMem.store at hb
    split at hb
    · cases hb; simp
    · cases hb
  rcases Io.fullRead_ok sched buf 0 len 0 rest (by omega) with h | ⟨m, b, s, h1, h2, h3, h4, h5⟩ | ⟨b, s, h1, h2, pre, h3⟩
  · exact Or.inl h
  · exact Or.inr (Or.inr ⟨h5, m, b, s, h1, h3, hs m b h4⟩)
  · exact Or.inr (Or.inl ⟨s, by rw [h1, hs len b h2]; simp⟩)

/-- C46. `FullRead` returns after at most `len + 1` calls that are not interrupted. -/
theorem C46_read_terminates (buf : List (Option UInt8)) (len : Nat) (rest : List UInt8) (sched : List Io.Ev) (h : len + 1 ≤ Io.gots sched) :
    Io.fullRead buf 0 len 0 rest sched ≠ some .pending := Io.fullRead_progress sched buf 0 len 0 rest h

example : Io.fullWrite [1, 2, 3, 4, 5] 0 4 0 [9] [.got 1, .eintr, .got 0, .got 2, .eintr, .got 7] = some (.done (4, [9, 1, 2, 3, 4])) ∧
    Io.fullRead [none, none, none] 0 3 0 [7, 8] [.eintr, .got 1, .got 5, .got 3] = some (.done (2, [some 7, some 8, none], ⟨[], []⟩)) ∧
    Io.fullRead [none, none, none] 0 3 0 [7, 8] [.got 1, .err] = some (.done (-1, [some 7, none, none], ⟨[8], []⟩)) := ⟨rfl, rfl, rfl⟩

namespace Io
open Writer

theorem fileRead_ok (max : Nat) (sched : List Ev) : ∀ (w : W) (xs rest : List UInt8), WRep w xs → 0 ∉ rest → xs.length ≤ max →
    fileReadFromFd max w rest sched = some .pending ∨
    (Ev.err ∈ sched ∧ fileReadFromFd max w rest sched = some (.done (none, false))) ∨
    (∃ w', fileReadFromFd max w rest sched = some (.done (some w', decide (max < xs.length + rest.length))) ∧ WRep w' (xs ++ rest.take (max - xs.length))) := by
  induction sched with
  | nil => intro w xs rest _ _ _; exact Or.inl rfl
  | cons e sched ih =>
    intro w xs rest hw h0 hm
    unfold fileReadFromFd
    cases e with
    | eintr =>
      rcases ih w xs rest hw h0 hm with h | ⟨h1, h2⟩ | h
      · exact Or.inl h
      · exact Or.inr (Or.inl ⟨List.mem_cons_of_mem _ h1, h2⟩)
      · exact Or.inr (Or.inr h)
    | err => exact Or.inr (Or.inl ⟨by simp, rfl⟩)
    | got k =>
      simp only
      have hn : readN k 4096 rest ≤ rest.length ∧ (readN k 4096 rest = 0 → rest.length = 0) := by unfold readN; omega
      generalize readN k 4096 rest = n at *
      by_cases hz : n = 0
      · rw [if_pos hz]
        have : rest = [] := List.length_eq_zero_iff.1 (hn.2 hz)
        subst this
        refine Or.inr (Or.inr ⟨w, ?_, by simpa using hw⟩)
        rw [show decide (max < xs.length + ([] : List UInt8).length) = false by simp; omega]
      · rw [if_neg hz, hw.len]
        have tw : ∀ l : List UInt8, 0 ∉ l → l.takeWhile (fun x => decide (x ≠ 0)) = l := by
          intro l hl
          induction l with
          | nil => rfl
          | cons x l ih => rw [List.takeWhile_cons, if_pos (by simp; rintro rfl; simp at hl), ih (fun h => hl (List.mem_cons_of_mem _ h))]
        have ht : ∀ m, 0 ∉ rest.take m := fun m hx => h0 (List.mem_of_mem_take hx)
        by_cases hg : n + xs.length > max
        · rw [if_pos hg]
          obtain ⟨w', h1, h2⟩ := writeLen_ok hw (rest.take n) (max - xs.length) (Or.inl (by simp; omega))
          rw [h1]
          rw [List.take_take, show min (max - xs.length) n = max - xs.length by omega, tw _ (ht _)] at h2
          refine Or.inr (Or.inr ⟨w', ?_, h2⟩)
          rw [show decide (max < xs.length + rest.length) = true by simp; omega]; rfl
        · rw [if_neg hg]
          obtain ⟨w', h1, h2⟩ := writeLen_ok hw (rest.take n) n (Or.inl (by simp; omega))
          rw [h1]
          rw [List.take_take, Nat.min_self, tw _ (ht _)] at h2
          simp only [Option.bind_eq_bind, Option.bind_some]
          have hl : (xs ++ rest.take n).length = xs.length + n := by simp; omega
          rcases ih w' _ (rest.drop n) h2 (fun hx => h0 (List.mem_of_mem_drop hx)) (by omega) with h | ⟨h3, h4⟩ | ⟨w2, h3, h4⟩
          · exact Or.inl h
          · exact Or.inr (Or.inl ⟨List.mem_cons_of_mem _ h3, h4⟩)
          · refine Or.inr (Or.inr ⟨w2, ?_, ?_⟩)
            · rw [h3, hl, List.length_drop, show xs.length + n + (rest.length - n) = xs.length + rest.length by omega]
            · rw [hl, List.append_assoc, show max - (xs.length + n) = (max - xs.length) - n by omega, ← List.drop_take] at h4
              have e1 : rest.take n = (rest.take (max - xs.length)).take n := by rw [List.take_take, show min n (max - xs.length) = n by omega]
              rw [e1, List.take_append_drop] at h4
              exact h4
end Io

/-- C47, partial. For contents without NUL bytes and every chunking of the reads, the data returned is the first `max` bytes of the file, NUL terminated,
and the flag says whether there were more; only a failing call makes it return NULL. Missing: contents with NUL bytes, for which the claim is
false (next theorem). -/
theorem C47_read_from_fd_partial (max : Nat) (file : List UInt8) (sched : List Io.Ev) (h0 : 0 ∉ file) :
    Io.fileReadFromFd max Writer.stringWriter file sched = some .pending ∨
    (Io.Ev.err ∈ sched ∧ Io.fileReadFromFd max Writer.stringWriter file sched = some (.done (none, false))) ∨
    (∃ w, Io.fileReadFromFd max Writer.stringWriter file sched = some (.done (some w, decide (max < file.length))) ∧
      Writer.dataZ w = some (file.take max ++ [0]) ∧ Writer.length w = min max file.length) := by
  rcases Io.fileRead_ok max sched _ [] file Writer.init_ok h0 (by simp) with h | h | ⟨w, h1, h2⟩
  · exact Or.inl h
  · exact Or.inr (Or.inl h)
  · refine Or.inr (Or.inr ⟨w, by simpa using h1, ?_, ?_⟩)
    · simpa using Writer.dataZ_ok h2
    · simpa [Writer.length] using h2.len

/-- What becomes of a file read in the given parts, when `xs` has been kept already: of each part what comes before its first NUL is kept, and a part that would
make more than `max` bytes is cut and ends the reading. -/
def IoSpec.keep (max : Nat) (xs : List UInt8) : List (List UInt8) → List UInt8 × Bool
  | [] => (xs, false)
  | c :: cs => if max < c.length + xs.length then (xs ++ (c.take (max - xs.length)).takeWhile (· ≠ 0), true) else IoSpec.keep max (xs ++ c.takeWhile (· ≠ 0)) cs

namespace Io
open Writer

theorem fileRead_any (max : Nat) (sched : List Ev) : ∀ (w : W) (xs rest : List UInt8), WRep w xs → xs.length ≤ max →
    fileReadFromFd max w rest sched = some .pending ∨
    (Ev.err ∈ sched ∧ fileReadFromFd max w rest sched = some (.done (none, false))) ∨
    (∃ w' parts more, rest = parts.flatten ++ more ∧ (∀ c ∈ parts, c ≠ [] ∧ c.length ≤ 4096) ∧ ((IoSpec.keep max xs parts).2 = false → more = []) ∧
      fileReadFromFd max w rest sched = some (.done (some w', (IoSpec.keep max xs parts).2)) ∧ WRep w' (IoSpec.keep max xs parts).1) := by
  induction sched with
  | nil => intro w xs rest _ _; exact Or.inl rfl
  | cons e sched ih =>
    intro w xs rest hw hm
    unfold fileReadFromFd
    cases e with
    | eintr =>
      rcases ih w xs rest hw hm with h | ⟨h1, h2⟩ | h
      · exact Or.inl h
      · exact Or.inr (Or.inl ⟨List.mem_cons_of_mem _ h1, h2⟩)
      · exact Or.inr (Or.inr h)
    | err => exact Or.inr (Or.inl ⟨by simp, rfl⟩)
    | got k =>
      simp only
      have hn : readN k 4096 rest ≤ rest.length ∧ readN k 4096 rest ≤ 4096 ∧ (readN k 4096 rest = 0 → rest.length = 0) := by unfold readN; omega
      generalize readN k 4096 rest = n at *
      by_cases hz : n = 0
      · rw [if_pos hz]
        have : rest = [] := List.length_eq_zero_iff.1 (hn.2.2 hz)
        subst this
        exact Or.inr (Or.inr ⟨w, [], [], rfl, by simp, fun _ => rfl, rfl, hw⟩)
      · rw [if_neg hz, hw.len]
        have hlen : (rest.take n).length = n := by simp; omega
        have hne : rest.take n ≠ [] := by intro h; rw [h] at hlen; simp at hlen; omega
        by_cases hg : n + xs.length > max
        · rw [if_pos hg]
          obtain ⟨w', h1, h2⟩ := writeLen_ok hw (rest.take n) (max - xs.length) (Or.inl (by simp; omega))
          have hk : IoSpec.keep max xs [rest.take n] = (xs ++ ((rest.take n).take (max - xs.length)).takeWhile (· ≠ 0), true) := by
            rw [IoSpec.keep, hlen, if_pos hg]
          refine Or.inr (Or.inr ⟨w', [rest.take n], rest.drop n, by simp, ?_, by rw [hk]; simp, ?_, ?_⟩)
          · intro c hc
            rw [List.mem_singleton.mp hc]
            exact ⟨hne, by omega⟩
          · rw [h1, hk]; rfl
          · rw [hk]; exact h2
        · rw [if_neg hg]
          obtain ⟨w', h1, h2⟩ := writeLen_ok hw (rest.take n) n (Or.inl (by simp; omega))
          rw [h1]
          rw [List.take_take, Nat.min_self] at h2
          simp only [Option.bind_eq_bind, Option.bind_some]
          have hl : ((rest.take n).takeWhile fun x => decide (x ≠ 0)).length ≤ n := by
            have := (List.takeWhile_sublist (fun x : UInt8 => decide (x ≠ 0)) (l := rest.take n)).length_le
            omega
          rcases ih w' _ (rest.drop n) h2 (by simp only [List.length_append]; omega) with h | ⟨h3, h4⟩ | ⟨w2, parts, more, g1, g2, g3, g4, g5⟩
          · exact Or.inl h
          · exact Or.inr (Or.inl ⟨List.mem_cons_of_mem _ h3, h4⟩)
          · have hk : IoSpec.keep max xs (rest.take n :: parts) = IoSpec.keep max (xs ++ (rest.take n).takeWhile (· ≠ 0)) parts := by
              rw [IoSpec.keep, hlen, if_neg hg]
            refine Or.inr (Or.inr ⟨w2, rest.take n :: parts, more, ?_, ?_, by rw [hk]; exact g3, by rw [hk]; exact g4, by rw [hk]; exact g5⟩)
            · rw [List.flatten_cons, List.append_assoc, ← g1, List.take_append_drop]
            · intro c hc
              rcases List.mem_cons.mp hc with rfl | hc
              · exact ⟨hne, by omega⟩
              · exact g2 c hc
end Io

/-- **C47** for every file, with NUL bytes anywhere: the file was read in parts of 1 to 4096 bytes, up to its end unless the limit was passed, and the result is what is kept of
those parts. -/
theorem C47_any_file (max : Nat) (file : List UInt8) (sched : List Io.Ev) :
    Io.fileReadFromFd max Writer.stringWriter file sched = some .pending ∨
    (Io.Ev.err ∈ sched ∧ Io.fileReadFromFd max Writer.stringWriter file sched = some (.done (none, false))) ∨
    (∃ w parts more, file = parts.flatten ++ more ∧ (∀ c ∈ parts, c ≠ [] ∧ c.length ≤ 4096) ∧ ((IoSpec.keep max [] parts).2 = false → more = []) ∧
      Io.fileReadFromFd max Writer.stringWriter file sched = some (.done (some w, (IoSpec.keep max [] parts).2)) ∧
      Writer.dataZ w = some ((IoSpec.keep max [] parts).1 ++ [0]) ∧ Writer.length w = (IoSpec.keep max [] parts).1.length) := by
  rcases Io.fileRead_any max sched _ [] file Writer.init_ok (by simp) with h | h | ⟨w, parts, more, g1, g2, g3, g4, g5⟩
  · exact Or.inl h
  · exact Or.inr (Or.inl h)
  · exact Or.inr (Or.inr ⟨w, parts, more, g1, g2, g3, g4, Writer.dataZ_ok g5, g5.len⟩)

example : IoSpec.keep 4 [] [[65, 0, 66], [67, 68], [69, 70, 71]] = ([65, 67, 68, 69], true) ∧
    (Io.fileReadFromFd 4 Writer.stringWriter [65, 0, 66, 67, 68, 69, 70, 71] [.got 3, .eintr, .got 2, .got 7]).map
      (fun o => match o with | .done (some w, t) => (Writer.dataZ w, t) | _ => (none, false)) = some (some [65, 67, 68, 69, 0], true) := by decide

/-- C47. `FileReadFromFd` returns after at most one more successful call than the file has bytes. -/
theorem C47_terminates (max : Nat) (w : Writer.W) (file : List UInt8) (sched : List Io.Ev) (h : file.length + 1 ≤ Io.gots sched) :
    Io.fileReadFromFd max w file sched ≠ some .pending := by
  induction sched generalizing w file with
  | nil => simp [Io.gots] at h
  | cons e sched ih =>
    unfold Io.fileReadFromFd
    cases e with
    | eintr => exact ih w file (by simpa [Io.gots] using h)
    | err => simp
    | got k =>
      have hn : Io.readN k 4096 file ≤ file.length := by unfold Io.readN; omega
      have hg : Io.gots (.got k :: sched) ≤ 1 + Io.gots sched := by simp only [Io.gots]; split <;> omega
      simp only
      generalize Io.readN k 4096 file = n at *
      by_cases hz : n = 0
      · rw [if_pos hz]; simp
      · rw [if_neg hz]
        split
        · cases Writer.writeLen w (file.take n) (max - w.len) <;> simp
        · cases hw : Writer.writeLen w (file.take n) n with
          | none => simp
          | some r => simp only [Option.bind_eq_bind, Option.bind_some]; exact ih _ _ (by simp; omega)

example : (Io.fileReadFromFd 3 Writer.stringWriter [65, 66, 67, 68] [.eintr, .got 2, .got 1, .got 1]).map
    (fun o => match o with | .done (some w, t) => (Writer.dataZ w, t) | _ => (none, false)) = some (some [65, 66, 67, 0], true) := by decide

/-- Finding: bytes after a NUL byte are dropped from the chunk that contains it, so the result depends on how the reads are split: the file
`A \0 B` is read as `A` in one chunk and as `AB` in three. -/
theorem C47_nul_bytes_dropped :
    (Io.fileReadFromFd 10 Writer.stringWriter [65, 0, 66] [.got 3, .got 1]).map
      (fun o => match o with | .done (some w, t) => (Writer.dataZ w, t) | _ => (none, false)) = some (some [65, 0], false) ∧
    (Io.fileReadFromFd 10 Writer.stringWriter [65, 0, 66] [.got 1, .got 1, .got 1, .got 1]).map
      (fun o => match o with | .done (some w, t) => (Writer.dataZ w, t) | _ => (none, false)) = some (some [65, 66, 0], false) := by decide
