import Verif.Model.FileMisc
/-! # C159: reading a stream into a buffer; close-on-exec; the file creation mask -/
namespace FileMisc

/-- All bytes a stream has to give. -/
def content (todo : List Stretch) : List UInt8 := (todo.map Stretch.bytes).flatten

theorem fread_ok (s : Stream) (m : Nat) (hm : 0 < m) :
    content s.todo = (fread s m).1 ++ content (fread s m).2.todo ∧ (fread s m).1.length ≤ m ∧
    (m ≤ (fread s m).1.length ∧ (fread s m).2.todo.length ≤ s.todo.length ∨
      ((fread s m).2.eof = true ∨ (fread s m).2.err = true) ∧ ((fread s m).1 = [] ∨ (fread s m).2.todo.length < s.todo.length)) ∧
    (s.err = true → (fread s m).2.err = true) := by
  rw [fread]
  split
  · rename_i h
    rw [if_neg (by omega)]
    simp [h, content]
  · rename_i x rest h
    rw [h]
    split
    · rename_i hl
      refine ⟨?_, by simp; omega, .inl ⟨by simp; omega, by simp⟩, fun e => e⟩
      simp [content]
      rw [← List.append_assoc, List.take_append_drop]
    · rename_i hl
      refine ⟨by simp [content], by simp; omega, .inr ⟨?_, .inr (by simp)⟩, fun e => by simp [e]⟩
      cases x.error <;> simp

theorem readLoop_ok (maxBytes : Nat) : ∀ (fuel : Nat) (buf : List (Option UInt8)) (b : Nat) (s : Stream), b ≤ maxBytes → maxBytes ≤ buf.length → s.todo.length + 2 ≤ fuel →
    ∃ buf' s' x bs, readLoop maxBytes fuel buf b s = some (buf', s', x) ∧ content s.todo = bs ++ content s'.todo ∧
      buf' = buf.take b ++ bs.map some ++ buf.drop (b + bs.length) ∧ b + bs.length ≤ maxBytes ∧ (s.err = true → s'.err = true ∨ b = maxBytes) ∧
      (x = .inr () → s'.err = true) ∧ (∀ n, x = .inl n → n = b + bs.length ∧ (n < maxBytes → s'.eof = true)) ∧ (b = maxBytes → s' = s ∧ x = .inl b) := by
  have base : ∀ (fuel : Nat) (buf : List (Option UInt8)) (s : Stream), maxBytes ≤ buf.length → 1 ≤ fuel → readLoop maxBytes fuel buf maxBytes s = some (buf, s, .inl maxBytes) := by
    intro fuel buf s _ hf
    obtain ⟨f, rfl⟩ : ∃ f, fuel = f + 1 := ⟨fuel - 1, by omega⟩
    rw [readLoop, if_neg (by omega)]
  intro fuel
  induction fuel with
  | zero => intro buf b s _ _ h; omega
  | succ fuel ih =>
    intro buf b s hb hl hf
    by_cases hlt : b < maxBytes
    · obtain ⟨f1, f2, f3, f4⟩ := fread_ok s (maxBytes - b) (by omega)
      rw [readLoop, if_pos hlt]
      generalize fread s (maxBytes - b) = r at f1 f2 f3 f4 ⊢
      obtain ⟨bs, s1⟩ := r
      simp only at f1 f2 f3 f4 ⊢
      have hp : put buf b bs = some (buf.take b ++ bs.map some ++ buf.drop (b + bs.length)) := by rw [put, if_pos (by omega)]
      simp only [hp]
      have hne : b ≠ maxBytes := by omega
      by_cases he : (s1.err && !s1.eof) = true
      · rw [if_pos he]
        refine ⟨_, _, _, bs, rfl, f1, rfl, by omega, fun e => .inl (f4 e), fun _ => ?_, fun n e => by (cases e), fun e => absurd e hne⟩
        simp at he; exact he.1
      · rw [if_neg he]
        by_cases hz : bs.length = 0
        · rw [if_pos hz]
          have hbs : bs = [] := List.length_eq_zero_iff.1 hz
          subst hbs
          refine ⟨_, _, _, [], rfl, f1, rfl, by simp; omega, fun e => .inl (f4 e), fun e => by (cases e), fun n e => ?_, fun e => absurd e hne⟩
          cases e
          refine ⟨rfl, fun _ => ?_⟩
          rcases f3 with f3 | f3
          · simp at f3; omega
          · cases h1 : s1.eof <;> cases h2 : s1.err <;> simp_all
        · rw [if_neg hz]
          have hbuf : (buf.take b ++ bs.map some ++ buf.drop (b + bs.length)).length = buf.length := by simp; omega
          have htake : (buf.take b ++ bs.map some ++ buf.drop (b + bs.length)).take (b + bs.length) = buf.take b ++ bs.map some := by
            rw [List.take_append_of_le_length (by simp; omega), List.take_of_length_le (by simp; omega)]
          have hdrop : ∀ k, (buf.take b ++ bs.map some ++ buf.drop (b + bs.length)).drop (b + bs.length + k) = buf.drop (b + bs.length + k) := by
            intro k
            rw [List.drop_append, List.drop_eq_nil_of_le (by simp; omega), List.nil_append, List.drop_drop]
            congr 1
            simp; omega
          by_cases hfull : b + bs.length = maxBytes
          · rw [hfull, base _ _ _ (by rw [← hfull]; omega) (by omega)]
            refine ⟨_, _, _, bs, rfl, f1, by rw [hfull], by omega, fun e => .inl (f4 e), fun e => by (cases e), fun n e => ?_, fun e => absurd e hne⟩
            cases e
            exact ⟨hfull.symm, fun h => by omega⟩
          · have hdec : s1.todo.length < s.todo.length := by
              rcases f3 with f3 | f3
              · omega
              · rcases f3.2 with f5 | f5
                · simp [f5] at hz
                · exact f5
            obtain ⟨buf', s', x, cs, g1, g2, g3, g4, g5, g6, g7, _⟩ := ih (buf.take b ++ bs.map some ++ buf.drop (b + bs.length)) (b + bs.length) s1 (by omega) (by omega) (by omega)
            refine ⟨buf', s', x, bs ++ cs, g1, by rw [f1, g2, List.append_assoc], ?_, by simp; omega, fun e => ?_, g6, fun n e => ?_, fun e => absurd e hne⟩
            · rw [g3, htake, hdrop]
              simp [Nat.add_assoc]
            · rcases g5 (f4 e) with h | h
              · exact .inl h
              · omega
            · obtain ⟨h1, h2⟩ := g7 n e
              exact ⟨by rw [h1]; simp; omega, h2⟩
    · have hbm : b = maxBytes := by omega
      subst hbm
      rw [base _ _ _ hl (by omega)]
      refine ⟨_, _, _, [], rfl, by simp, by simp, by simp, fun _ => .inr rfl, fun e => by (cases e), fun n e => ?_, fun _ => ⟨rfl, rfl⟩⟩
      cases e
      exact ⟨by simp, fun h => by omega⟩

/-- **C159** `ReadFileStreamToBuffer` into a buffer of at least `maxBytes`, from any stream: it ends; nothing behind the first `maxBytes` bytes is touched; the result is -1 exactly if the error
indicator is then set; otherwise it is the number of bytes that were taken from the stream, in order and without loss, and that the buffer now begins with; and fewer than `maxBytes` only at the end
of the file. -/
theorem C159_reads_the_stream (s : Stream) (maxBytes fuel : Nat) (buf : List (Option UInt8)) (hb : maxBytes ≤ buf.length) (hf : s.todo.length + 2 ≤ fuel) :
    ∃ buf' s' r, readFileStreamToBuffer fuel s maxBytes buf = some (buf', s', r) ∧ buf'.length = buf.length ∧ buf'.drop maxBytes = buf.drop maxBytes ∧
      (r = -1 ↔ s'.err = true) ∧ (s.err = true → r = -1) ∧
      (r ≠ -1 → ∃ got, r = (got.length : Int) ∧ got.length ≤ maxBytes ∧ content s.todo = got ++ content s'.todo ∧ buf'.take got.length = got.map some ∧
        (got.length < maxBytes → s'.eof = true)) := by
  obtain ⟨buf', s', x, bs, h1, h2, h3, h4, h5, h6, h7, h8⟩ := readLoop_ok maxBytes fuel buf 0 s (by omega) hb hf
  simp only [Nat.zero_add, List.take_zero, List.nil_append] at h3 h4 h7
  have hlen : buf'.length = buf.length := by rw [h3]; simp; omega
  have hdrop : buf'.drop maxBytes = buf.drop maxBytes := by
    rw [h3, List.drop_append, List.drop_eq_nil_of_le (by simp; omega), List.nil_append, List.drop_drop]
    congr 1
    simp; omega
  have herr : s.err = true → s'.err = true := fun e => by
    rcases h5 e with h | h
    · exact h
    · rw [(h8 h).1]; exact e
  rw [readFileStreamToBuffer, h1, Option.map_some]
  cases x with
  | inr u =>
    refine ⟨buf', s', -1, rfl, hlen, hdrop, by simp [h6 rfl], fun _ => rfl, fun h => absurd rfl h⟩
  | inl n =>
    obtain ⟨e1, e2⟩ := h7 n rfl
    subst e1
    refine ⟨buf', s', if s'.err then -1 else (bs.length : Int), rfl, hlen, hdrop, ?_, fun e => by simp [herr e], fun hr => ⟨bs, ?_, h4, h2, ?_, e2⟩⟩
    · cases s'.err <;> simp <;> omega
    · cases h : s'.err <;> simp_all
    · rw [h3, List.take_append_of_le_length (by simp), List.take_of_length_le (by simp)]

/-- **C159** A regular file, freshly opened: its first `maxBytes` bytes, or all it has. -/
theorem C159_regular_file (data : List UInt8) (maxBytes fuel : Nat) (buf : List (Option UInt8)) (hb : maxBytes ≤ buf.length) (hf : 3 ≤ fuel) :
    ∃ buf' s', readFileStreamToBuffer fuel ⟨[⟨data, false⟩], false, false⟩ maxBytes buf = some (buf', s', ((data.take maxBytes).length : Int)) ∧
      buf' = (data.take maxBytes).map some ++ buf.drop (data.take maxBytes).length := by
  obtain ⟨f, rfl⟩ : ∃ f, fuel = f + 3 := ⟨fuel - 3, by omega⟩
  rw [readFileStreamToBuffer]
  by_cases h0 : maxBytes = 0
  · subst h0; exact ⟨_, _, rfl, by simp⟩
  by_cases hm : maxBytes ≤ data.length
  · rw [readLoop, if_pos (by omega)]
    simp only [fread, Nat.sub_zero, if_pos hm, put, List.length_take, Nat.min_eq_left hm, Nat.zero_add, if_pos hb]
    simp only [Bool.false_and, Bool.false_eq_true, if_false, if_neg h0]
    rw [readLoop, if_neg (by omega)]
    exact ⟨_, _, rfl, by simp⟩
  · have hm' : data.length ≤ buf.length := by omega
    rw [readLoop, if_pos (by omega)]
    simp only [fread, Nat.sub_zero, if_neg hm, put, Nat.zero_add, if_pos hm', List.take_of_length_le (show data.length ≤ maxBytes by omega)]
    by_cases hd : data = []
    · subst hd; exact ⟨_, _, rfl, by simp⟩
    · have hd' : ¬ data.length = 0 := fun e => hd (List.length_eq_zero_iff.1 e)
      simp only [Bool.false_or, Bool.not_false, Bool.not_true, Bool.and_false, Bool.false_eq_true, if_false, if_neg hd', List.take_zero, List.nil_append]
      rw [readLoop, if_pos (by omega)]
      simp only [fread, put]
      simp only [if_neg (show ¬ maxBytes - data.length = 0 by omega)]
      rw [if_pos (show data.length + ([] : List UInt8).length ≤ (List.map some data ++ List.drop data.length buf).length by simp)]
      refine ⟨_, _, rfl, ?_⟩
      rw [List.map_nil, List.append_nil, List.length_nil, Nat.add_zero, List.take_append_drop]

example : readFileStreamToBuffer 5 ⟨[⟨[1, 2, 3], false⟩, ⟨[4, 5], false⟩], false, false⟩ 4 [none, none, none, none, some 9] =
    some ([some 1, some 2, some 3, some 4, some 9], ⟨[⟨[5], false⟩], true, false⟩, 4) := by decide
/-- An error behind three bytes: they are in the buffer, the result is -1; with room for three only, the error is not met. -/
example : readFileStreamToBuffer 5 ⟨[⟨[1, 2, 3], true⟩], false, false⟩ 4 [none, none, none, none] = some ([some 1, some 2, some 3, none], ⟨[], false, true⟩, -1) ∧
    (readFileStreamToBuffer 5 ⟨[⟨[1, 2, 3], true⟩], false, false⟩ 3 [none, none, none]).map (·.2.2) = some 3 := by decide

/-- **C159** `SetCloseOnExec`: true exactly for an open descriptor, whose flag is then as asked, its other flags and all other descriptors being as before. -/
theorem C159_close_on_exec (fds : Int → Option (BitVec 32)) (fd : Int) (enable : Bool) :
    ((setCloseOnExec fds fd enable).2 = true ↔ (fds fd).isSome) ∧ (∀ g, g ≠ fd → (setCloseOnExec fds fd enable).1 g = fds g) ∧
    (fds fd = none → (setCloseOnExec fds fd enable).1 = fds) ∧
    (∀ f, fds fd = some f → ∃ f', (setCloseOnExec fds fd enable).1 fd = some f' ∧ f'.getLsbD 0 = enable ∧ ∀ i, 0 < i → f'.getLsbD i = f.getLsbD i) := by
  unfold setCloseOnExec
  cases h : fds fd with
  | none => simp
  | some f =>
    refine ⟨by simp, fun g hg => by simp [hg], fun e => by simp at e, fun f2 e => ?_⟩
    cases e
    refine ⟨if enable then f ||| 1#32 else f &&& ~~~ 1#32, by simp, ?_, ?_⟩
    · cases enable <;> simp
    · intro i hi
      have h1 : (1#32).getLsbD i = false := by
        rw [BitVec.getLsbD_one]; simp; omega
      cases enable
      · rw [if_neg (by simp), BitVec.getLsbD_and, BitVec.getLsbD_not, h1]
        by_cases hw : i < 32
        · simp [hw]
        · rw [BitVec.getLsbD_of_ge f i (by omega)]; rfl
      · rw [if_pos rfl, BitVec.getLsbD_or, h1, Bool.or_false]

/-- **C159** After `old = SetUmask(new)` and `RestoreUmask(old)`, whatever masks were set and restored in between, the mask is the one from before. -/
theorem C159_umask_restored (cur new : BitVec 32) (h : cur &&& 0o777#32 = cur) (inner : BitVec 32 → BitVec 32) :
    restoreUmask (inner (setUmask cur new).1) (setUmask cur new).2 = cur ∧ (setUmask cur new).1 = new &&& 0o777#32 := by
  simp only [restoreUmask, setUmask, umask, h, and_self]

example : setUmask 0o022#32 0o077#32 = (0o077#32, 0o022#32) := by decide

end FileMisc
