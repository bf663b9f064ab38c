import Verif.Model.FileCopy
import Verif.Props.Compat
import Verif.Lemmas.Csv
/-! # File_Copy and CfReadLines -/
namespace FileCopy

/-- The destination holds, with what is still buffered, the first `m` bytes of the source; nothing else has changed. -/
structure Inv (fs : FS) (src dst m : Nat) (o : Out) : Prop where
  file : o.file = dst
  other : ∀ i, i ≠ dst → o.fs i = fs i
  le : m ≤ (fs src).length
  data : o.fs dst ++ o.pend = (fs src).take m

theorem Inv.prefix {fs : FS} {src dst m : Nat} {o : Out} (h : Inv fs src dst m o) : o.fs dst <+: fs src :=
  (List.prefix_append _ o.pend).trans (h.data ▸ List.take_prefix m _)

theorem Inv.flush {fs : FS} {src dst m : Nat} {o : Out} (h : Inv fs src dst m o) (k : Nat) : Inv fs src dst m (o.flush k) := by
  refine ⟨h.file, ?_, h.le, ?_⟩
  · intro i hi; simp [Out.flush, h.file, hi, h.other i hi]
  · simp only [Out.flush, h.file, if_true, List.append_assoc, List.take_append_drop, h.data]

/-- A failed call. -/
def Failed (s : List Ev) : Prop := ∃ e ∈ s, e.fail = true

theorem Failed.mono {s t : List Ev} (h : ∃ p, t = p ++ s) (hf : Failed s) : Failed t := by
  obtain ⟨p, rfl⟩ := h; obtain ⟨e, h1, h2⟩ := hf; exact ⟨e, List.mem_append_right _ h1, h2⟩

theorem fwrite_ok {fs : FS} {src dst m n : Nat} {o : Out} (h : Inv fs src dst m o) (hn : m + n ≤ (fs src).length) (s : List Ev) :
    (fwrite (((fs src).drop m).take n) o s = none) ∨
    (∃ k o' s', fwrite (((fs src).drop m).take n) o s = some (k, o', s') ∧ k ≤ n ∧ Inv fs src dst (m + k) o' ∧ (∃ p, s = p ++ s') ∧
      (o'.err = true → o.err = true ∨ Failed s) ∧ (0 < n → s'.length < s.length)) := by
  have hl : (((fs src).drop m).take n).length = n := by simp; omega
  by_cases h0 : n = 0
  · subst h0
    refine .inr ⟨0, o, s, ?_, by omega, by simpa using h, ⟨[], rfl⟩, fun h => .inl h, by omega⟩
    cases s <;> simp [fwrite]
  · have hne : ((fs src).drop m).take n ≠ [] := by intro e; rw [e] at hl; simp at hl; omega
    cases s with
    | nil => left; simp only [fwrite, if_neg hne]
    | cons e s =>
      right
      simp only [fwrite, if_neg hne, hl]
      refine ⟨_, _, _, rfl, by omega, ?_, ⟨[e], rfl⟩, ?_, by simp⟩
      · apply Inv.flush
        refine ⟨h.file, h.other, by omega, ?_⟩
        simp only
        rw [← List.append_assoc, h.data, List.take_take, show min (min e.n n) n = min e.n n by omega, ← List.take_add]
      · intro he
        simp only [Out.flush, Bool.or_eq_true] at he
        exact he.imp id (fun h => ⟨e, by simp, h⟩)

theorem writeLoop_ok {fs : FS} {src dst m n : Nat} (hn : m + n ≤ (fs src).length) (buf : Bytes) (hb : buf.take n = ((fs src).drop m).take n) (hbl : n ≤ buf.length) :
    ∀ (fuel k : Nat) (o : Out) (s : List Ev), k ≤ n → s.length < fuel → Inv fs src dst (m + k) o →
    (∃ fs', writeLoop buf n fuel k o s = some (.killed fs') ∧ fs' dst <+: fs src ∧ ∀ i, i ≠ dst → fs' i = fs i) ∨
    (∃ j o' s', writeLoop buf n fuel k o s = some (.done j o' s') ∧ j ≤ n ∧ Inv fs src dst (m + j) o' ∧ (∃ p, s = p ++ s') ∧ (o'.err = false → j = n) ∧
      (o'.err = true → o.err = true ∨ Failed s)) := by
  intro fuel
  induction fuel with
  | zero => intro k o s _ h; omega
  | succ fuel ih =>
    intro k o s hk hf hi
    rw [writeLoop]
    by_cases hc : k < n ∧ o.err = false
    · rw [if_pos hc, if_pos hbl]
      have hd : (buf.drop k).take (n - k) = ((fs src).drop (m + k)).take (n - k) := by
        rw [← List.drop_take, hb, List.drop_take, List.drop_drop]
      rw [hd]
      rcases fwrite_ok hi (n := n - k) (by omega) s with h | ⟨j, o', s', h1, h2, h3, ⟨p, h4⟩, h5, h6⟩
      · rw [h]; exact .inl ⟨o.fs, rfl, hi.prefix, hi.other⟩
      · rw [h1]
        simp only
        have := h6 (by omega)
        rcases ih (k + j) o' s' (by omega) (by omega) (by rw [← Nat.add_assoc]; exact h3) with h | ⟨j', o2, s2, g1, g2, g3, ⟨q, g4⟩, g5, g6⟩
        · exact .inl h
        · refine .inr ⟨j', o2, s2, g1, g2, g3, ⟨p ++ q, by rw [h4, g4, List.append_assoc]⟩, g5, fun he => ?_⟩
          rcases g6 he with h | h
          · exact h5 h
          · exact .inr (h.mono ⟨p, h4⟩)
    · rw [if_neg hc]
      refine .inr ⟨k, o, s, rfl, hk, hi, ⟨[], rfl⟩, fun he => ?_, fun h => .inl h⟩
      have : ¬ k < n := fun h => hc ⟨h, he⟩
      omega

theorem writeBlock_ok {fs : FS} {src dst m n : Nat} {o : Out} (hn : m + n ≤ (fs src).length) (hi : Inv fs src dst m o) (s : List Ev) (bs : Bytes)
    (hbs : bs = ((fs src).drop m).take n) :
    (∃ fs', writeBlock (block bs) n o s = some (.killed fs') ∧ fs' dst <+: fs src ∧ ∀ i, i ≠ dst → fs' i = fs i) ∨
    (∃ j o' s', writeBlock (block bs) n o s = some (.done j o' s') ∧ j ≤ n ∧ Inv fs src dst (m + j) o' ∧ (∃ p, s = p ++ s') ∧ (o'.err = false → j = n) ∧
      (o'.err = true → o.err = true ∨ Failed s)) := by
  have hl : bs.length = n := by rw [hbs]; simp; omega
  have hbl : n ≤ (block bs).length := by simp [block]; omega
  have hbt : (block bs).take n = ((fs src).drop m).take n := by rw [block, List.take_left' hl, hbs]
  rw [writeBlock, if_pos hbl, hbt]
  rcases fwrite_ok hi (n := n) hn s with h | ⟨j, o', s', h1, h2, h3, ⟨p, h4⟩, h5, h6⟩
  · rw [h]; exact .inl ⟨o.fs, rfl, hi.prefix, hi.other⟩
  · rw [h1]
    simp only
    rcases writeLoop_ok hn _ hbt hbl (s'.length + 1) j o' s' h2 (by omega) h3 with h | ⟨j', o2, s2, g1, g2, g3, ⟨q, g4⟩, g5, g6⟩
    · exact .inl h
    · refine .inr ⟨j', o2, s2, g1, g2, g3, ⟨p ++ q, by rw [h4, g4, List.append_assoc]⟩, g5, fun he => ?_⟩
      rcases g6 he with h | h
      · exact h5 h
      · exact .inr (h.mono ⟨p, h4⟩)

theorem copyLoop_ok {fs : FS} {src dst : Nat} (hne : src ≠ dst) : ∀ (fuel pos : Nat) (o : Out) (s : List Ev), s.length < fuel → Inv fs src dst pos o → o.err = false →
    (∃ fs', copyLoop src fuel pos o s = some (.killed fs') ∧ fs' dst <+: fs src ∧ ∀ i, i ≠ dst → fs' i = fs i) ∨
    (∃ r m o' s', copyLoop src fuel pos o s = some (.done r o' s') ∧ Inv fs src dst m o' ∧ (∃ p, s = p ++ s') ∧ (r = true → m = (fs src).length) ∧ (r = false → Failed s)) := by
  intro fuel
  induction fuel with
  | zero => intro pos o s h; omega
  | succ fuel ih =>
    intro pos o s hf hi he
    cases s with
    | nil => rw [copyLoop]; exact .inl ⟨o.fs, rfl, hi.prefix, hi.other⟩
    | cons e s =>
      rw [copyLoop]
      simp only [hi.other src hne]
      have hle := hi.le
      have hav : ((fs src).drop pos).length = (fs src).length - pos := by simp
      generalize hN : min (min e.n 1024) ((fs src).drop pos).length = n
      have hn : pos + n ≤ (fs src).length := by omega
      rcases writeBlock_ok hn hi s (((fs src).drop pos).take n) rfl with ⟨fs', h1, h2⟩ | ⟨j, o', s', h1, h2, h3, ⟨p, h4⟩, h5, h6⟩
      · rw [h1]; exact .inl ⟨fs', rfl, h2⟩
      · rw [h1]
        simp only
        have hsuf : ∃ q, e :: s = q ++ s' := ⟨e :: p, by rw [h4]; rfl⟩
        by_cases hc : decide (((fs src).drop pos).length < min e.n 1024) = false ∧ e.fail = false ∧ o'.err = false ∧ n = j
        · rw [if_pos hc]
          obtain ⟨_, _, hc3, hc4⟩ := hc
          rcases ih (pos + n) o' s' (by simp at hf; rw [h4] at hf; simp at hf; omega) (hc4 ▸ h3) hc3 with h | ⟨r, m, o2, s2, g1, g2, ⟨q, g3⟩, g4, g5⟩
          · exact .inl h
          · exact .inr ⟨r, m, o2, s2, g1, g2, ⟨e :: p ++ q, by rw [h4, g3]; simp⟩, g4, fun h => (g5 h).mono hsuf⟩
        · rw [if_neg hc]
          refine .inr ⟨_, pos + j, o', s', rfl, h3, hsuf, ?_, ?_⟩
          · intro h
            simp only [decide_eq_true_eq] at h
            have : ¬ decide (((fs src).drop pos).length < min e.n 1024) = false := fun hd => hc ⟨hd, h⟩
            simp at this
            omega
          · intro h
            simp only [decide_eq_false_iff_not] at h
            by_cases hef : e.fail = true
            · exact ⟨e, by simp, hef⟩
            · cases her : o'.err with
              | false => exact absurd ⟨by simpa using hef, her, (h5 her).symm⟩ h
              | true =>
                rcases h6 her with h | h
                · rw [he] at h; cases h
                · exact h.mono ⟨[e], rfl⟩

end FileCopy

/-- C90. `File_Copy` between two different files, for all contents and every way the calls complete or fail: wherever the process is killed, the destination
holds a prefix of the source and nothing else has changed; it returns true only when the destination holds exactly the source, and false only when a call
failed. -/
theorem C90_file_copy (fs : FileCopy.FS) (src dst : Nat) (hne : src ≠ dst) (sched : List FileCopy.Ev) :
    (∃ fs', FileCopy.fileCopy fs src dst sched = some (.killed fs') ∧ fs' dst <+: fs src ∧ ∀ i, i ≠ dst → fs' i = fs i) ∨
    (∃ o s, FileCopy.fileCopy fs src dst sched = some (.done false o s) ∧ o.fs dst <+: fs src ∧ (∀ i, i ≠ dst → o.fs i = fs i) ∧ ∃ e ∈ sched, e.fail = true) ∨
    (∃ o s, FileCopy.fileCopy fs src dst sched = some (.done true o s) ∧ o.fs dst = fs src ∧ ∀ i, i ≠ dst → o.fs i = fs i) := by
  have hi : FileCopy.Inv fs src dst 0 (FileCopy.openW fs dst) :=
    ⟨rfl, fun i h => by simp [FileCopy.openW, h], Nat.zero_le _, by simp [FileCopy.openW]⟩
  rw [FileCopy.fileCopy]
  rcases FileCopy.copyLoop_ok hne (sched.length + 1) 0 _ sched (by omega) hi rfl with ⟨fs', h1, h2⟩ | ⟨r, m, o, s, h1, h2, ⟨p, h3⟩, h4, h5⟩
  · rw [h1]; exact .inl ⟨fs', rfl, h2⟩
  · rw [h1]
    simp only
    cases s with
    | nil => exact .inl ⟨o.fs, rfl, h2.prefix, h2.other⟩
    | cons e1 s =>
      cases s with
      | nil => exact .inl ⟨o.fs, rfl, h2.prefix, h2.other⟩
      | cons e2 s =>
        simp only [FileCopy.closeIn, FileCopy.closeOut]
        cases hf2 : e2.fail with
        | true =>
          have g := h2.flush e2.flush
          exact .inr (.inl ⟨_, s, by simp only [if_true], g.prefix, g.other, e2, by rw [h3]; simp, hf2⟩)
        | false =>
          have g := h2.flush o.pend.length
          simp only [Bool.false_eq_true, if_false]
          cases hr : (r && !e1.fail) with
          | false =>
            refine .inr (.inl ⟨_, s, rfl, g.prefix, g.other, ?_⟩)
            cases hr' : r with
            | false => exact h5 hr'
            | true => rw [hr'] at hr; exact ⟨e1, by rw [h3]; simp, by simpa using hr⟩
          | true =>
            refine .inr (.inr ⟨_, s, rfl, ?_, g.other⟩)
            have hr' : r = true := by cases r with | true => rfl | false => simp at hr
            have := g.data
            rw [h4 hr', List.take_length] at this
            simpa [FileCopy.Out.flush] using this

-- a copy of three bytes read and written in pieces
example : (FileCopy.fileCopy (fun i => if i = 0 then [1, 2, 3] else [9]) 0 1 [⟨2, false, 0⟩, ⟨1, false, 0⟩, ⟨5, false, 1⟩, ⟨9, false, 0⟩, ⟨9, false, 0⟩, ⟨0, false, 0⟩, ⟨0, false, 0⟩]).map
    (fun r => match r with | .done b o _ => (b, o.fs 0, o.fs 1) | .killed fs => (false, fs 0, fs 1)) = some (true, [1, 2, 3], [1, 2, 3]) := by decide +kernel
example : (FileCopy.fileCopy (fun i => if i = 0 then [1, 2, 3] else [9]) 0 1 [⟨2, false, 0⟩, ⟨1, false, 0⟩, ⟨5, false, 1⟩]).map
    (fun r => match r with | .done b o _ => (b, o.fs 0, o.fs 1) | .killed fs => (false, fs 0, fs 1)) = some (false, [1, 2, 3], [1]) := by decide +kernel

theorem FileCopy.writeBlock_zero (b : FileCopy.Bytes) (o : FileCopy.Out) (s : List FileCopy.Ev) : FileCopy.writeBlock b 0 o s = some (.done 0 o s) := by
  cases s <;> simp [FileCopy.writeBlock, FileCopy.fwrite, FileCopy.writeLoop]

/-- Finding: copying a file to itself (two names of one file, a hard link) destroys it and reports success, for every content. -/
theorem C90_copy_to_itself (fs : FileCopy.FS) (x : Nat) (k : Nat) :
    ∃ o, FileCopy.fileCopy fs x x [⟨k + 1, false, 0⟩, ⟨0, false, 0⟩, ⟨0, false, 0⟩] = some (.done true o []) ∧ o.fs x = [] := by
  refine ⟨(FileCopy.openW fs x).flush 0, ?_, by simp [FileCopy.Out.flush, FileCopy.openW]⟩
  simp [FileCopy.fileCopy, FileCopy.copyLoop, FileCopy.openW, FileCopy.writeBlock_zero, FileCopy.closeIn, FileCopy.closeOut, FileCopy.Out.flush]

/-! ## Lines -/
namespace FileCopy

theorem str_of_take {buf : List (Option UInt8)} {l : Bytes} (h : buf.take (l.length + 1) = (l ++ [0]).map some) : CMem.str buf = some (l.takeWhile (· ≠ 0)) := by
  induction l generalizing buf with
  | nil =>
    cases buf with
    | nil => simp at h
    | cons b buf => simp at h; subst h; simp [CMem.str]
  | cons c l ih =>
    cases buf with
    | nil => simp at h
    | cons b buf =>
      simp at h
      obtain ⟨rfl, h⟩ := h
      rw [CMem.str]
      by_cases hc : c = 0
      · simp [hc]
      · rw [if_neg hc, ih (by simpa using h)]; simp [hc]

/-- A usable buffer: NULL or a block of at least `*size` bytes. -/
def BufOk (b : Buf) : Prop := ∀ m, b.1 = some m → b.2 ≤ m.length

/-- A terminated line. -/
theorem cfReadLine_line {bad : Bool} {buf : Buf} (hb : BufOk buf) (l rest : Bytes) (hl : 10 ∉ l) :
    ∃ b n, cfReadLine bad buf (l ++ 10 :: rest) = some ((some b, n), rest, false, some l.length) ∧ n ≤ b.length ∧ b.take (l.length + 1) = (l ++ [0]).map some := by
  obtain ⟨b, n, h1, h2, h3⟩ := Compat.C80_getline_some 10 buf.1 buf.2 (l ++ 10 :: rest) hb (l ++ [10]) rest
    ⟨by simp, by simp, by simpa using hl, by intro _; simp⟩
  have hlen : l.length + 2 ≤ b.length := by
    have := congrArg List.length h3
    simp at this; omega
  refine ⟨b.set l.length (some 0), n, ?_, by simpa using h2, ?_⟩
  · rw [cfReadLine, h1]
    have hc : (l ++ 10 :: rest).contains 10 = true := by simp
    simp only [hc, Bool.not_true, Bool.false_and, Bool.false_eq_true, if_false]
    have hg : CMem.get b ((l ++ [10]).length - 1) = some 10 := by
      have := congrArg (fun x => x[l.length]?) h3
      simp at this
      simp [CMem.get]
      rw [List.getElem?_take_of_lt (by omega)] at this
      rw [this]; rfl
    rw [if_neg (by simp), chop, hg]
    simp only [if_true]
    rw [CMem.write_eq (by simp; omega)]
    simp
  · have := congrArg (List.take l.length) h3
    rw [List.take_take, Nat.min_eq_left (by simp; omega)] at this
    rw [List.take_succ_eq_append_getElem (by simp; omega), List.take_set_of_le (by omega), List.getElem_set_self, this]
    simp

/-- An unterminated last line. -/
theorem cfReadLine_last {buf : Buf} (hb : BufOk buf) (l : Bytes) (hl : 10 ∉ l) (hne : l ≠ []) :
    ∃ b n, cfReadLine false buf l = some ((some b, n), [], true, some l.length) ∧ n ≤ b.length ∧ b.take (l.length + 1) = (l ++ [0]).map some := by
  obtain ⟨b, n, h1, h2, h3⟩ := Compat.C80_getline_some 10 buf.1 buf.2 l hb l []
    ⟨by simp, hne, fun h => hl (List.dropLast_subset _ h), by simp⟩
  have hlen : 0 < l.length := List.length_pos_iff.mpr hne
  refine ⟨b, n, ?_, h2, h3⟩
  rw [cfReadLine, h1]
  have hc : l.contains 10 = false := by simpa using hl
  simp only [hc, Bool.not_false, Bool.and_false, Bool.false_eq_true, if_false]
  obtain ⟨c, hg, hc10⟩ : ∃ c, CMem.get b (l.length - 1) = some c ∧ c ≠ 10 := by
    refine ⟨l[l.length - 1]'(by omega), ?_, fun h => hl (h ▸ List.getElem_mem _)⟩
    have := congrArg (fun x => x[l.length - 1]?) h3
    simp only [List.getElem?_take_of_lt (show l.length - 1 < l.length + 1 by omega), List.getElem?_map, List.getElem?_append_left (show l.length - 1 < l.length by omega),
      List.getElem?_eq_getElem (show l.length - 1 < l.length by omega)] at this
    simp [CMem.get, this]
  rw [if_neg (by omega), chop, hg]
  simp only [if_neg hc10]
  rfl

theorem cfReadLine_bad {buf : Buf} (l : Bytes) (hb : BufOk buf) (hl : 10 ∉ l) : ∃ b n, cfReadLine true buf l = some ((some b, n), [], false, none) := by
  have hc : l.contains 10 = false := by simpa using hl
  by_cases hne : l = []
  · subst hne
    obtain ⟨b, n, h⟩ := Compat.C80_getline_eof 10 buf.1 buf.2
    exact ⟨b, n, by rw [cfReadLine, h]; simp⟩
  · obtain ⟨b, n, h1, h2, h3⟩ := Compat.C80_getline_some 10 buf.1 buf.2 l hb l []
      ⟨by simp, hne, fun h => hl (List.dropLast_subset _ h), by simp⟩
    exact ⟨b, n, by rw [cfReadLine, h1]; simp [hl]⟩

theorem cfReadLine_eof (buf : Buf) : ∃ b n, cfReadLine false buf [] = some ((some b, n), [], true, none) := by
  obtain ⟨b, n, h⟩ := Compat.C80_getline_eof 10 buf.1 buf.2
  exact ⟨b, n, by rw [cfReadLine, h]; simp⟩

theorem readLoop_ok (bad : Bool) (last : Bytes) (hlast : 10 ∉ last) : ∀ (ls : List Bytes) (fuel : Nat) (buf : Buf) (acc : List Bytes), BufOk buf → ls.length + 2 ≤ fuel →
    (∀ l ∈ ls, 10 ∉ l) →
    readLoop bad fuel buf ((ls.map (· ++ [10])).flatten ++ last) false acc =
      if bad then some (acc ++ ls.map (·.takeWhile (· ≠ 0)), none)
      else some (acc ++ (ls ++ (if last = [] then [] else [last])).map (·.takeWhile (· ≠ 0)), some (acc.length + ls.length + (if last = [] then 0 else 1))) := by
  intro ls
  induction ls with
  | nil =>
    intro fuel buf acc hb hf _
    obtain ⟨fuel, rfl⟩ : ∃ k, fuel = k + 2 := ⟨fuel - 2, by simp at hf; omega⟩
    simp only [List.map_nil, List.flatten_nil, List.nil_append]
    rw [readLoop]
    simp only [Bool.false_eq_true, if_false]
    cases bad with
    | true =>
      obtain ⟨b, n, h⟩ := cfReadLine_bad last hb hlast
      rw [h]; simp
    | false =>
      by_cases hl : last = []
      · subst hl
        obtain ⟨b, n, h⟩ := cfReadLine_eof buf
        rw [h]; simp [readLoop]
      · obtain ⟨b, n, h1, h2, h3⟩ := cfReadLine_last hb last hlast hl
        rw [h1]
        simp only [lineOf, str_of_take h3]
        simp [readLoop, hl]
  | cons l ls ih =>
    intro fuel buf acc hb hf hls
    obtain ⟨fuel, rfl⟩ : ∃ k, fuel = k + 1 := ⟨fuel - 1, by simp at hf; omega⟩
    obtain ⟨b, n, h1, h2, h3⟩ := cfReadLine_line (bad := bad) hb l ((ls.map (· ++ [10])).flatten ++ last) (hls l (by simp))
    rw [readLoop]
    simp only [Bool.false_eq_true, if_false, List.map_cons, List.flatten_cons, List.append_assoc, List.cons_append, List.nil_append]
    rw [h1]
    simp only [lineOf, str_of_take h3]
    rw [ih fuel (some b, n) _ (by intro m hm; cases hm; exact h2) (by simp at hf; omega) (fun l' h' => hls l' (by simp [h']))]
    cases bad <;> simp; omega

/-- Every stream is a list of terminated lines and a rest. -/
theorem lines_exist (s : Bytes) : ∃ (ls : List Bytes) (last : Bytes), s = (ls.map (· ++ [10])).flatten ++ last ∧ (∀ l ∈ ls, 10 ∉ l) ∧ 10 ∉ last := by
  induction s with
  | nil => exact ⟨[], [], by simp⟩
  | cons c s ih =>
    obtain ⟨ls, last, h1, h2, h3⟩ := ih
    by_cases hc : c = 10
    · exact ⟨[] :: ls, last, by rw [h1, hc]; simp, (by
        intro l hl
        rcases List.mem_cons.mp hl with rfl | hl
        · simp
        · exact h2 l hl), h3⟩
    · cases ls with
      | nil => exact ⟨[], c :: last, by rw [h1]; simp, by simp, by simp [h3]; exact fun h => hc h.symm⟩
      | cons l ls =>
        refine ⟨(c :: l) :: ls, last, by rw [h1]; simp, ?_, h3⟩
        intro l' hl'
        rcases List.mem_cons.mp hl' with rfl | hl'
        · simp; exact ⟨fun h => hc h.symm, h2 l (by simp)⟩
        · exact h2 l' (by simp [hl'])

end FileCopy

/-- C91. `CfReadLines` on any stream: the terminated lines `ls` followed by `last`, possibly empty, without a newline. Given NULL-or-large-enough buffer memory it
appends every line without its newline (cut at its first NUL byte, as documented), an unterminated last line included and no empty line after a final newline,
and returns their number; when reading fails at the end, it returns -1 with the complete lines before appended. No access is out of bounds. -/
theorem C91_read_lines (bad : Bool) (buf : FileCopy.Buf) (hb : ∀ m, buf.1 = some m → buf.2 ≤ m.length) (ls : List FileCopy.Bytes) (last : FileCopy.Bytes)
    (hls : ∀ l ∈ ls, 10 ∉ l) (hlast : 10 ∉ last) :
    FileCopy.cfReadLines bad (some buf) ((ls.map (· ++ [10])).flatten ++ last) =
      if bad then some (ls.map (·.takeWhile (· ≠ 0)), none)
      else some ((ls ++ (if last = [] then [] else [last])).map (·.takeWhile (· ≠ 0)), some (ls.length + (if last = [] then 0 else 1))) := by
  have hlen : ls.length ≤ ((ls.map (· ++ [10])).flatten ++ last).length := by
    clear hls
    induction ls with
    | nil => simp
    | cons l ls ih => simp at ih ⊢; omega
  have := FileCopy.readLoop_ok bad last hlast ls (((ls.map (· ++ [10])).flatten ++ last).length + 2) buf [] hb (by omega) hls
  simpa [FileCopy.cfReadLines] using this

/-- C91. Every stream is of that form, so no stream makes it misbehave. -/
theorem C91_total (bad : Bool) (buf : FileCopy.Buf) (hb : ∀ m, buf.1 = some m → buf.2 ≤ m.length) (s : FileCopy.Bytes) : FileCopy.cfReadLines bad (some buf) s ≠ none := by
  obtain ⟨ls, last, rfl, h2, h3⟩ := FileCopy.lines_exist s
  rw [C91_read_lines bad buf hb ls last h2 h3]
  split <;> simp

example : FileCopy.cfReadLines false (some (none, 0)) [97, 10, 10, 98, 0, 99, 10, 100] = some ([[97], [], [98], [100]], some 4) := by decide +kernel
example : FileCopy.cfReadLines false (some (some [none, none], 2)) [97, 10] = some ([[97]], some 1) := by decide +kernel
example : FileCopy.cfReadLines true (some (none, 0)) [97, 10, 98] = some ([[97]], none) := by decide +kernel

/-- Finding: the documented NULL for `buff` ("If not NULL, a buffer …") dereferences NULL, on every stream. -/
theorem C91_null_buffer (bad : Bool) (s : FileCopy.Bytes) : FileCopy.cfReadLines bad none s = none := rfl
