import Verif.Model.Bytes
import Verif.Model.SeqFile
import Verif.Props.StrSeq
/-! # C168: sequences of strings in files -/
namespace SeqFileSpec
open SeqFile SeqStrSpec

/-- The call succeeds. -/
def Succeeds : OutEv → Prop
  | .ok _ => True
  | .fail _ _ => False

/-- Reading one file after the other; the results in order. -/
def readAll (limit fuel : Nat) (fds : Nat) : List (Option Io.Fd) → Option (List (Io.Out (Option (List Bytes))))
  | [] => some []
  | f :: fs =>
    match seqStringReadFile limit fuel fds f with
    | none => none
    | some .pending => some [.pending]
    | some (.done (r, fds)) => (readAll limit fuel fds fs).map (.done r :: ·)

theorem returned (s : Stream) (t : Bytes) (ht : t ≠ []) (e : OutEv) : (fileWriterWriteF s t e).2 ≠ 0 := by
  have hp : 0 < t.length := List.length_pos_iff.mpr ht
  have key : ∀ r : Int, (r = t.length ∧ t.length ≤ intMax) ∨ r = -1 → (r % 2 ^ 64).toNat ≠ 0 := by
    intro r hr
    simp only [intMax] at hr
    omega
  cases e with
  | ok n =>
    show ((if t.length ≤ intMax then (t.length : Int) else -1) % 2 ^ 64).toNat ≠ 0
    apply key
    split
    · left; constructor <;> trivial
    · right; rfl
  | fail n k => exact key _ (Or.inr rfl)

theorem written_eq (s : Stream) (str : Bytes) (e : OutEv) :
    writeLenPrefixed s str e = ((vfprintf s (StrSeq.prefixText str.length ++ str ++ [10]) e).1, true) := by
  have h := returned s (StrSeq.prefixText str.length ++ str ++ [10]) (by simp) e
  simp only [writeLenPrefixed]
  rw [if_neg h]
  rfl

theorem write_true (ev : Nat → OutEv) : ∀ (seq : List Bytes) (s : Stream) (i : Nat), (seqStringWrite ev s i seq).2 = true
  | [], _, _ => rfl
  | str :: seq, s, i => by
    rw [seqStringWrite, written_eq]
    exact write_true ev seq _ (i + 1)

theorem write_all (ev : Nat → OutEv) : ∀ (seq : List Bytes) (s : Stream) (i : Nat), (∀ j, i ≤ j → j < i + seq.length → Succeeds (ev j)) →
    (seqStringWrite ev s i seq).1.disk ++ (seqStringWrite ev s i seq).1.pending = s.disk ++ s.pending ++ seq.flatMap record
  | [], _, _, _ => by simp [seqStringWrite]
  | str :: seq, s, i, h => by
    rw [seqStringWrite, written_eq]
    simp only
    rw [write_all ev seq _ (i + 1) (fun j h1 h2 => h j (by omega) (by simp; omega))]
    have hs := h i (by omega) (by simp)
    cases he : ev i with
    | fail n k => rw [he] at hs; exact hs.elim
    | ok n =>
      have h2 := StrSeq.record_eq str
      simp only [vfprintf, List.flatMap_cons, h2]
      rw [List.append_assoc s.disk, List.take_append_drop]
      simp

theorem prefix_disk (ev : Nat → OutEv) (seq : List Bytes) (s : Stream) (i n : Nat)
    (h : ∀ j, i ≤ j → j < i + n → Succeeds (ev j)) :
    (seqStringWrite ev s i (seq.take n)).1.disk <+: s.disk ++ s.pending ++ seq.flatMap record := by
  have h1 := write_all ev (seq.take n) s i (fun j h1 h2 => h j h1 (by simp at h2; omega))
  refine ⟨(seqStringWrite ev s i (seq.take n)).1.pending ++ (seq.drop n).flatMap record, ?_⟩
  rw [← List.append_assoc, h1, List.append_assoc, ← List.flatMap_append, List.take_append_drop]

end SeqFileSpec

open SeqFile SeqFileSpec

/-- **C168**. If the file can be opened, no output call fails and `fclose` succeeds, `SeqStringWriteFile` returns true, whatever the
file held before and however the C library buffers; `SeqStringReadFile` then reads the same sequence back, with every schedule of
short reads and interruptions (it returns NULL only if a `read` fails; `pending`: it is not finished yet). -/
theorem C168_written_file_is_read_back (old : Bytes) (ev : Nat → OutEv) (seq : List Bytes)
    (hev : ∀ i, i < seq.length → Succeeds (ev i)) (hs : ∀ s ∈ seq, s.length < 10 ^ 9) :
    ∃ disk, seqStringWriteFile true old ev none seq = (disk, true) ∧
      ∀ (sched : List Io.Ev) (fuel limit fds : Nat), fds < limit →
        seqStringReadFile limit fuel fds (some ⟨disk, sched⟩) = some .pending ∨
        (Io.Ev.err ∈ sched ∧ seqStringReadFile limit fuel fds (some ⟨disk, sched⟩) = some (.done (none, fds + 1))) ∨
        seqStringReadFile limit fuel fds (some ⟨disk, sched⟩) = some (.done (some seq, fds + 1)) := by
  refine ⟨seq.flatMap SeqStrSpec.record, ?_, ?_⟩
  · have h1 := write_all ev seq ⟨[], []⟩ 0 (fun j _ h2 => hev j (by omega))
    have h2 := write_true ev seq ⟨[], []⟩ 0
    simp only [List.nil_append] at h1
    simp only [seqStringWriteFile, seqStringWriteFileStream, fclose, if_true, h1, h2, Bool.and_self]
  · intro sched fuel limit fds hl
    simp only [seqStringReadFile, if_pos hl]
    rcases C69_file_round_trip seq sched fuel hs with h | ⟨he, h⟩ | h
    · left; rw [h]
    · right; left; exact ⟨he, by rw [h]⟩
    · right; right; rw [h]

/-- **C168**, the limit. The result says only whether the file was opened and `fclose` succeeded: output calls that failed in between
are not noticed. -/
theorem C168_result (opened : Bool) (old : Bytes) (ev : Nat → OutEv) (close : Option Nat) (seq : List Bytes) :
    (seqStringWriteFile opened old ev close seq).2 = true ↔ opened = true ∧ close = none := by
  cases opened with
  | false => simp [seqStringWriteFile]
  | true =>
    have h2 := write_true ev seq ⟨[], []⟩ 0
    cases close <;> simp [seqStringWriteFile, seqStringWriteFileStream, fclose, h2]

/-- **C168**, the limit, in effect. A sequence of two strings is written, the first output call fails (the disk is full for a
moment), the result is true, and reading the file gives a sequence without the first string and no error. -/
theorem C168_failed_write_is_silent_negated :
    ∃ (ev : Nat → OutEv) (disk : Bytes), seqStringWriteFile true [] ev none [bytes! "a", bytes! "b"] = (disk, true) ∧
      seqStringReadFile 10 5 3 (some ⟨disk, [.got 10, .got 10, .got 10]⟩) = some (.done (some [bytes! "b"], 4)) :=
  ⟨fun i => if i = 0 then .fail 0 0 else .ok 0, SeqStrSpec.record (bytes! "b"), by decide +kernel, by decide +kernel⟩

/-- **C168**. With a C library whose `fclose` fails if an output call on the stream failed before, true means that the file holds
the whole sequence. -/
theorem C168_true_is_complete_if_close_reports (opened : Bool) (old : Bytes) (ev : Nat → OutEv) (close : Option Nat) (seq : List Bytes)
    (hc : (∃ i, i < seq.length ∧ ¬ Succeeds (ev i)) → close ≠ none)
    (ht : (seqStringWriteFile opened old ev close seq).2 = true) :
    (seqStringWriteFile opened old ev close seq).1 = seq.flatMap SeqStrSpec.record := by
  obtain ⟨rfl, rfl⟩ := (C168_result opened old ev close seq).mp ht
  have h1 := write_all ev seq ⟨[], []⟩ 0 (fun j _ h2 => by
    apply Classical.byContradiction
    intro hn
    exact hc ⟨j, by omega, hn⟩ rfl)
  simp only [List.nil_append] at h1
  simp only [seqStringWriteFile, seqStringWriteFileStream, fclose, if_true, h1]

/-- **C168**, crashes. If the process ends after any number of strings have been written without an error, the file holds a prefix
of the text of the whole sequence: the old content is gone in any case. -/
theorem C168_crash_leaves_a_prefix (ev : Nat → OutEv) (seq : List Bytes) (n : Nat) (h : ∀ i, i < n → Succeeds (ev i)) :
    (seqStringWriteFileStream ev (seq.take n) ⟨[], []⟩).1.disk <+: seq.flatMap SeqStrSpec.record := by
  have := prefix_disk ev seq ⟨[], []⟩ 0 n (fun j _ h2 => h j (by omega))
  simpa [seqStringWriteFileStream] using this

/-- **C168**, a finding. `SeqStringReadFile` never closes the file: a process that may have `limit` descriptors and has `fds` open
gets at most `limit - fds` sequences; every later call returns NULL, whatever the files hold. -/
theorem C168_reading_uses_up_descriptors (limit fuel fds : Nat) (files : List (Option Io.Fd))
    (rs : List (Io.Out (Option (List Bytes)))) (hf : ∀ f ∈ files, f ≠ none) (h : readAll limit fuel fds files = some rs) :
    ∀ r ∈ rs.drop (limit - fds), r = .done none := by
  induction files generalizing fds rs with
  | nil => simp [readAll] at h; subst h; simp
  | cons f files ih =>
    obtain ⟨fd, rfl⟩ := Option.ne_none_iff_exists'.mp (hf f (by simp))
    simp only [readAll, seqStringReadFile] at h
    by_cases hl : fds < limit
    · rw [if_pos hl] at h
      obtain ⟨m, hm⟩ : ∃ m, limit - fds = m + 1 := ⟨limit - fds - 1, by omega⟩
      split at h
      · simp at h
      · simp at h; subst h; simp [hm]
      · rename_i heq
        cases hr : readAll limit fuel (fds + 1) files with
        | none =>
          split at heq <;> simp at heq
          obtain ⟨_, rfl⟩ := heq
          simp [hr] at h
        | some rs' =>
          split at heq <;> simp at heq
          obtain ⟨_, rfl⟩ := heq
          simp only [hr, Option.map_some, Option.some.injEq] at h
          subst h
          have := ih (fds + 1) rs' (fun f hf' => hf f (by simp [hf'])) hr
          rw [hm, List.drop_succ_cons]
          rwa [show limit - (fds + 1) = m by omega] at this
    · rw [if_neg hl] at h
      simp only [] at h
      cases hr : readAll limit fuel fds files with
      | none => simp [hr] at h
      | some rs' =>
        simp only [hr, Option.map_some, Option.some.injEq] at h
        subst h
        have := ih fds rs' (fun f hf' => hf f (by simp [hf'])) hr
        rw [show limit - fds = 0 by omega] at this ⊢
        intro r hr'
        simp only [List.drop_zero, List.mem_cons] at hr'
        rcases hr' with rfl | hr'
        · rfl
        · exact this r (by simpa using hr')

/-- **C168**. A file that cannot be opened: writing returns false and leaves it as it was, reading returns NULL and uses no descriptor. -/
theorem C168_file_not_opened (old : Bytes) (ev : Nat → OutEv) (close : Option Nat) (seq : List Bytes) (limit fuel fds : Nat) :
    seqStringWriteFile false old ev close seq = (old, false) ∧ seqStringReadFile limit fuel fds none = some (.done (none, fds)) := ⟨rfl, rfl⟩

/-- The hypotheses are met: two strings, one passed on at once, one buffered; then reading with a descriptor to spare. -/
example : seqStringWriteFile true (bytes! "old") (fun i => .ok (5 * i)) none [bytes! "ab", bytes! ""] =
    (bytes! "2         ab\n0         \n", true) := by decide +kernel

example : (readAll 4 5 3 [some ⟨bytes! "1         a\n", [.got 10, .got 2, .got 1]⟩, some ⟨bytes! "1         a\n", [.got 10, .got 2, .got 1]⟩]) =
    some [.done (some [bytes! "a"]), .done none] := by decide +kernel
