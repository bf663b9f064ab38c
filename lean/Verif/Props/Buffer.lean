import Verif.Lemmas.Buffer
import Verif.Lemmas.Writer
/-! # C18 (buffer contents and bounds), C19 (string writer), C60 (buffer comparison) -/
open Buffer
open BufferSpec (B Op okOp okRun run totalSize lexCmp)

/-- C18. For every history of calls on a buffer of any positive initial capacity, of a total size below 4 GB: the code performs
no access outside its allocation, BufferData/BufferSize show exactly the byte string of the specification, the used size
stays below the capacity, and the capacity is the size of the allocation. -/
theorem C18_buffer_is_a_byte_string (n : Nat) (hn : 0 < n) (ops : List Op) (hok : okRun ⟨.cstring, []⟩ ops)
    (hs : totalSize ops + 4 ≤ 2 ^ 32) :
    ∃ b0 b, newWithCapacity n = some b0 ∧ execs b0 ops = some b ∧ data b = some (run ⟨.cstring, []⟩ ops).content ∧
      b.used = (run ⟨.cstring, []⟩ ops).content.length ∧ b.used < b.capacity ∧ b.capacity = b.mem.length := by
  obtain ⟨b0, h1, h2, h3⟩ := new_ok n hn
  obtain ⟨b, e1, e2, e3⟩ := execs_ok ops h2 hok (by simp; omega)
  exact ⟨b0, b, h1, e1, data_ok e2, e2.used, by rw [e2.used, e2.cap]; exact e2.holds.lt, e2.cap⟩

/-- C18, C-string part. If no switch to C-string mode happens on a byte array without a NUL, then a buffer in C-string mode always
has its terminator right after the content. -/
theorem C18_cstring_is_terminated_partial (n : Nat) (hn : 0 < n) (ops : List Op) (hok : okRun ⟨.cstring, []⟩ ops)
    (hs : totalSize ops + 4 ≤ 2 ^ 32) (hk : keepsTermRun ⟨.cstring, []⟩ ops) (hm : (run ⟨.cstring, []⟩ ops).mode = .cstring) :
    ∃ b0 b, newWithCapacity n = some b0 ∧ execs b0 ops = some b ∧ CMem.get b.mem b.used = some 0 := by
  obtain ⟨b0, h1, h2, h3⟩ := new_ok n hn
  obtain ⟨b, e1, e2, e3⟩ := execs_ok ops h2 hok (by simp; omega)
  exact ⟨b0, b, h1, e1, e3 (fun _ => h3) hk hm⟩

/-- Non-vacuity: a history through growth, truncation and both modes. -/
example : let ops := [Op.append [104, 105, 0, 106] 4, .appendChar 33, .toByteArray, .append [1, 0, 2] 3, .trim 5, .toCString,
      .appendString [65, 66], .appendF [67]]
    okRun ⟨.cstring, []⟩ ops ∧ totalSize ops + 4 ≤ 2 ^ 32 ∧ keepsTermRun ⟨.cstring, []⟩ ops ∧
    (run ⟨.cstring, []⟩ ops).mode = .cstring ∧ (run ⟨.cstring, []⟩ ops).content = [104, 105, 33, 1, 65, 66, 67] := by
  refine ⟨?_, ?_, ?_, ?_, ?_⟩
  · simp [okRun, okOp, BufferSpec.step]
  · simp [totalSize, BufferSpec.size]
  · simp [keepsTermRun, keepsTerm, BufferSpec.step, BufferSpec.piece, BufferSpec.cstr]
  · rfl
  · decide

/-- BufferNewFrom: a fresh C-string buffer with the bytes before the first NUL among the `length` bytes given, terminated. -/
theorem C18_newFrom (bytes : List UInt8) (len : Nat) (h : len ≤ bytes.length ∨ 0 ∈ bytes) (hs : bytes.length + 4 ≤ 2 ^ 32) :
    ∃ b, newFrom bytes len = some b ∧ b.mode = .cstring ∧ data b = some ((bytes.take len).takeWhile (· ≠ 0)) ∧
      b.used = ((bytes.take len).takeWhile (· ≠ 0)).length ∧ CMem.get b.mem b.used = some 0 := by
  obtain ⟨b0, h1, h2, h3⟩ := new_ok (len + 1) (by omega)
  obtain ⟨b, e1, e2, e3⟩ := execs_ok [.append bytes len] h2 ⟨by rcases h with h | h <;> simp [okOp, h], trivial⟩
    (by simp [totalSize, BufferSpec.size]; omega)
  have e4 : append b0 bytes len = some b := by
    cases ha : append b0 bytes len with
    | none => simp [execs, exec, ha] at e1
    | some x => simp [execs, exec, ha] at e1; rw [e1]
  refine ⟨b, by simp [newFrom, h1, e4], by rw [e2.mode]; rfl, data_ok e2, e2.used, e3 (fun _ => h3) ?_ rfl⟩
  simp [keepsTermRun, keepsTerm]

/-- BufferCopy after any history: the copy shows the bytes before the first NUL of the source's content, in C-string mode; it is
the same byte string whenever the source holds no NUL (always so in C-string mode). -/
theorem C18_copy (n : Nat) (hn : 0 < n) (ops : List Op) (hok : okRun ⟨.cstring, []⟩ ops) (hs : totalSize ops + 4 ≤ 2 ^ 32)
    (hlen : (run ⟨.cstring, []⟩ ops).content.length + 4 ≤ 2 ^ 32) :
    ∃ b0 b d, newWithCapacity n = some b0 ∧ execs b0 ops = some b ∧ copy b = some d ∧ d.mode = .cstring ∧
      data d = some ((run ⟨.cstring, []⟩ ops).content.takeWhile (· ≠ 0)) ∧
      (0 ∉ (run ⟨.cstring, []⟩ ops).content → data d = data b ∧ d.used = b.used) := by
  obtain ⟨b0, h1, h2, h3⟩ := new_ok n hn
  obtain ⟨b, e1, e2, e3⟩ := execs_ok ops h2 hok (by simp; omega)
  have hu : b.used = (run ⟨.cstring, []⟩ ops).content.length := e2.used
  obtain ⟨d, d1, d2, d3, d4, _⟩ := C18_newFrom (run ⟨.cstring, []⟩ ops).content b.used (Or.inl (by omega)) hlen
  rw [hu, List.take_length] at d3 d4
  refine ⟨b0, b, d, h1, e1, by simp [copy, data_ok e2, d1], d2, d3, ?_⟩
  intro h0
  have := cstr_of_no_nul _ h0
  simp only [BufferSpec.cstr] at this
  exact ⟨by rw [d3, this, data_ok e2], by rw [d4, this, hu]⟩

example : okRun ⟨.cstring, []⟩ [Op.append [104, 105] 2, .toByteArray, .append [0, 7] 2] ∧
    (run ⟨.cstring, []⟩ [Op.append [104, 105] 2, .toByteArray, .append [0, 7] 2]).content = [104, 105, 0, 7] := by
  constructor
  · simp [okRun, okOp, BufferSpec.step]
  · decide

/-- What the code gets wrong, 4: the copy of a byte array is neither a byte array nor complete. -/
theorem C18_copy_of_byte_array_is_truncated :
    ∃ b0 b d, newWithCapacity 8 = some b0 ∧ execs b0 [.toByteArray, .append [65, 0, 66] 3] = some b ∧ b.mode = .bytearray ∧
      data b = some [65, 0, 66] ∧ copy b = some d ∧ d.mode = .cstring ∧ data d = some [65] := by
  refine ⟨_, _, _, rfl, rfl, rfl, rfl, rfl, rfl, rfl⟩

/-- What the code gets wrong, 1: a byte array without a NUL that is switched back to C-string mode is not terminated: reading the
terminator reads an uninitialised byte. -/
theorem C18_switch_to_cstring_does_not_terminate :
    ∃ b0 b, newWithCapacity 4 = some b0 ∧ execs b0 [.toByteArray, .append [65, 66] 2, .toCString] = some b ∧
      b.mode = .cstring ∧ data b = some [65, 66] ∧ CMem.get b.mem b.used = none := by
  refine ⟨_, _, rfl, rfl, rfl, rfl, rfl⟩

/-- What the code gets wrong, 2: appending the NUL character in C-string mode adds a byte or not depending on the spare
capacity. -/
theorem C18_append_nul_char_depends_on_capacity :
    (∃ b0 b, newWithCapacity 2 = some b0 ∧ execs b0 [.appendChar 0] = some b ∧ b.used = 1) ∧
    (∃ b0 b, newWithCapacity 1 = some b0 ∧ execs b0 [.appendChar 0] = some b ∧ b.used = 0) := by
  refine ⟨⟨_, _, rfl, rfl, rfl⟩, ⟨_, _, rfl, rfl, rfl⟩⟩

/-- What the code gets wrong, 3: a buffer of capacity 0 is written out of bounds. -/
theorem C18_zero_capacity_is_undefined : newWithCapacity 0 = none := rfl

/-! ## C60: comparison -/

theorem step_no_nul (s : B) (op : Op) (h : s.mode = .cstring → 0 ∉ s.content) (hok : okOp s op) :
    (BufferSpec.step s op).mode = .cstring → 0 ∉ (BufferSpec.step s op).content := by
  cases op with
  | append bytes len =>
    intro hm
    simp only [BufferSpec.step] at hm ⊢
    simp only [hm, BufferSpec.piece, List.mem_append, not_or]
    exact ⟨h hm, cstr_no_nul _⟩
  | set bytes len =>
    intro hm
    simp only [BufferSpec.step] at hm ⊢
    simp only [hm, BufferSpec.piece]
    exact cstr_no_nul _
  | appendString t =>
    intro hm
    simp only [BufferSpec.step] at hm ⊢
    simp only [List.mem_append, not_or]
    exact ⟨h hm, hok⟩
  | appendChar c =>
    intro hm
    simp only [BufferSpec.step] at hm ⊢
    simp only [List.mem_append, not_or, List.mem_singleton]
    refine ⟨h hm, ?_⟩
    rcases hok with hh | hh
    · rw [hm] at hh; cases hh
    · exact Ne.symm hh
  | clear => intro _; simp [BufferSpec.step]
  | trim max => intro hm hh; exact h hm (List.mem_of_mem_take hh)
  | appendF t =>
    intro hm
    simp only [BufferSpec.step] at hm ⊢
    simp only [List.mem_append, not_or]
    exact ⟨h hm, hok⟩
  | printf t => intro _; exact hok
  | rewrite k i => intro hm hh; exact h hm (List.mem_filter.mp hh).1
  | toByteArray => intro hm; cases hm
  | toCString => intro _; exact cstr_no_nul _

theorem run_no_nul : ∀ (ops : List Op) (s : B), (s.mode = .cstring → 0 ∉ s.content) → okRun s ops →
    (run s ops).mode = .cstring → 0 ∉ (run s ops).content := by
  intro ops
  induction ops with
  | nil => intro s h _ hm; exact h hm
  | cons op ops ih => intro s h hok; exact ih _ (step_no_nul s op h hok.1) hok.2

theorem cmpLoop_ok (xs ys : List UInt8) (r1 r2 : List (Option UInt8)) : ∀ n i, i + n ≤ xs.length → i + n ≤ ys.length →
    cmpLoop (xs.map some ++ r1) (ys.map some ++ r2) n i = some (lexCmp schar ((xs.drop i).take n) ((ys.drop i).take n)) := by
  intro n
  induction n with
  | zero => intro i _ _; simp [cmpLoop, lexCmp]
  | succ n ih =>
    intro i hx hy
    rw [cmpLoop, get_at _ _ _ (by omega), get_at _ _ _ (by omega), List.drop_eq_getElem_cons (show i < xs.length by omega),
      List.drop_eq_getElem_cons (show i < ys.length by omega), List.take_succ_cons, List.take_succ_cons, lexCmp, ih (i+1) (by omega) (by omega)]
    simp only [Option.bind_eq_bind, Option.bind_some, gt_iff_lt]
    split
    · rfl
    · split <;> rfl

theorem lexCmp_prefix (key : UInt8 → Int) : ∀ (xs ys : List UInt8), xs.length < ys.length →
    lexCmp key xs ys = if lexCmp key xs (ys.take xs.length) = 0 then -1 else lexCmp key xs (ys.take xs.length) := by
  intro xs
  induction xs with
  | nil => intro ys h; cases ys with | nil => simp at h | cons => simp [lexCmp]
  | cons x xs ih =>
    intro ys h
    cases ys with
    | nil => simp at h
    | cons y ys =>
      simp only [List.length_cons, List.take_succ_cons, lexCmp]
      split
      · simp
      · split
        · simp
        · exact ih ys (by simpa using h)

theorem lexCmp_prefix' (key : UInt8 → Int) : ∀ (ys xs : List UInt8), ys.length < xs.length →
    lexCmp key xs ys = if lexCmp key (xs.take ys.length) ys = 0 then 1 else lexCmp key (xs.take ys.length) ys := by
  intro ys
  induction ys with
  | nil => intro xs h; cases xs with | nil => simp at h | cons => simp [lexCmp]
  | cons y ys ih =>
    intro xs h
    cases xs with
    | nil => simp at h
    | cons x xs =>
      simp only [List.length_cons, List.take_succ_cons, lexCmp]
      split
      · simp
      · split
        · simp
        · exact ih xs (by simpa using h)

theorem strcmp_ok (xs ys : List UInt8) (r1 r2 : List (Option UInt8)) (hx : 0 ∉ xs) (hy : 0 ∉ ys) : ∀ fuel i, i ≤ xs.length → i ≤ ys.length →
    xs.length < i + fuel →
    strcmp (xs.map some ++ some 0 :: r1) (ys.map some ++ some 0 :: r2) fuel i =
      some (lexCmp (fun c => (c.toNat : Int)) (xs.drop i) (ys.drop i)) := by
  have getZ : ∀ (zs : List UInt8) r i, i ≤ zs.length → CMem.get (zs.map some ++ some 0 :: r) i = some (zs[i]?.getD 0) := by
    intro zs r i hi
    by_cases h : i < zs.length
    · rw [get_at _ _ _ h]; simp [h]
    · have : i = zs.length := by omega
      subst this
      rw [get_term]; simp
  intro fuel
  induction fuel with
  | zero => intro i h1 h2 h3; omega
  | succ fuel ih =>
    intro i h1 h2 h3
    rw [strcmp, getZ _ _ _ h1, getZ _ _ _ h2]
    simp only [Option.bind_eq_bind, Option.bind_some]
    by_cases hix : i < xs.length <;> by_cases hiy : i < ys.length
    · have hxi : xs[i] ≠ 0 := fun hh => hx (hh ▸ List.getElem_mem hix)
      rw [List.drop_eq_getElem_cons hix, List.drop_eq_getElem_cons hiy, lexCmp]
      simp only [List.getElem?_eq_getElem hix, List.getElem?_eq_getElem hiy, Option.getD_some, hxi, if_false, UInt8.lt_iff_toNat_lt,
        Int.ofNat_lt]
      split
      · rfl
      · split
        · rfl
        · exact ih (i+1) (by omega) (by omega) (by omega)
    · have hxi : xs[i] ≠ 0 := fun hh => hx (hh ▸ List.getElem_mem hix)
      have h0 : (0 : UInt8) < xs[i] := by
        rw [UInt8.lt_iff_toNat_lt]
        have : xs[i].toNat ≠ 0 := fun hh => hxi (UInt8.toNat_inj.mp hh)
        have h00 : (0 : UInt8).toNat = 0 := rfl
        omega
      rw [List.drop_eq_getElem_cons hix, List.drop_eq_nil_of_le (show ys.length ≤ i by omega)]
      have hnl : ¬ xs[i] < 0 := by rw [UInt8.lt_iff_toNat_lt]; have h00 : (0 : UInt8).toNat = 0 := rfl; omega
      simp [List.getElem?_eq_getElem hix, List.getElem?_eq_none (show ys.length ≤ i by omega), lexCmp, hnl, h0]
    · have hyi : ys[i] ≠ 0 := fun hh => hy (hh ▸ List.getElem_mem hiy)
      have h0 : (0 : UInt8) < ys[i] := by
        rw [UInt8.lt_iff_toNat_lt]
        have : ys[i].toNat ≠ 0 := fun hh => hyi (UInt8.toNat_inj.mp hh)
        have h00 : (0 : UInt8).toNat = 0 := rfl
        omega
      rw [List.drop_eq_getElem_cons hiy, List.drop_eq_nil_of_le (show xs.length ≤ i by omega)]
      simp [List.getElem?_eq_getElem hiy, List.getElem?_eq_none (show xs.length ≤ i by omega), lexCmp, h0]
    · rw [List.drop_eq_nil_of_le (show xs.length ≤ i by omega), List.drop_eq_nil_of_le (show ys.length ≤ i by omega)]
      simp [List.getElem?_eq_none (show xs.length ≤ i by omega), List.getElem?_eq_none (show ys.length ≤ i by omega), lexCmp]

theorem term_split {b : Buf} {s : B} (h : Rep b s) (ht : Term b) : ∃ r, b.mem = s.content.map some ++ some 0 :: r := by
  obtain ⟨rest, hm, hne⟩ := h.holds.ex
  cases rest with
  | nil => exact absurd rfl hne
  | cons x rest =>
    refine ⟨rest, ?_⟩
    simp only [Term, h.used, hm, CMem.get] at ht
    simp at ht
    rw [hm, ht]

/-- C60. Comparing two buffers produced by any histories gives their lexicographic order: bytes compared as unsigned when both
are in C-string mode, as signed chars otherwise. -/
theorem C60_compare_is_lexicographic (n1 n2 : Nat) (hn1 : 0 < n1) (hn2 : 0 < n2) (ops1 ops2 : List Op)
    (hok1 : okRun ⟨.cstring, []⟩ ops1) (hok2 : okRun ⟨.cstring, []⟩ ops2)
    (hs1 : totalSize ops1 + 4 ≤ 2 ^ 32) (hs2 : totalSize ops2 + 4 ≤ 2 ^ 32)
    (hk1 : keepsTermRun ⟨.cstring, []⟩ ops1) (hk2 : keepsTermRun ⟨.cstring, []⟩ ops2) :
    ∃ b1 b2, (newWithCapacity n1).bind (execs · ops1) = some b1 ∧ (newWithCapacity n2).bind (execs · ops2) = some b2 ∧
      Buffer.compare b1 b2 = some (lexCmp
        (if (run ⟨.cstring, []⟩ ops1).mode = .cstring ∧ (run ⟨.cstring, []⟩ ops2).mode = .cstring then (fun c => (c.toNat : Int)) else schar)
        (run ⟨.cstring, []⟩ ops1).content (run ⟨.cstring, []⟩ ops2).content) := by
  obtain ⟨a0, h1, h2, h3⟩ := new_ok n1 hn1
  obtain ⟨a, e1, e2, e3⟩ := execs_ok ops1 h2 hok1 (by simp; omega)
  obtain ⟨b0, g1, g2, g3⟩ := new_ok n2 hn2
  obtain ⟨b, f1, f2, f3⟩ := execs_ok ops2 g2 hok2 (by simp; omega)
  refine ⟨a, b, by simp [h1, e1], by simp [g1, f1], ?_⟩
  have z1 := run_no_nul ops1 _ (by simp) hok1
  have z2 := run_no_nul ops2 _ (by simp) hok2
  have t1 := e3 (fun _ => h3) hk1
  have t2 := f3 (fun _ => g3) hk2
  generalize run ⟨.cstring, []⟩ ops1 = s1 at *
  generalize run ⟨.cstring, []⟩ ops2 = s2 at *
  by_cases hc : s1.mode = .cstring ∧ s2.mode = .cstring
  · rw [if_pos hc]
    obtain ⟨r1, m1⟩ := term_split e2 (t1 hc.1)
    obtain ⟨r2, m2⟩ := term_split f2 (t2 hc.2)
    have hma : a.mode = .cstring := by rw [e2.mode, hc.1]; rfl
    have hmb : b.mode = .cstring := by rw [f2.mode, hc.2]; rfl
    simp only [Buffer.compare, hma, hmb, and_self, if_true]
    have := strcmp_ok s1.content s2.content r1 r2 (z1 hc.1) (z2 hc.2) (a.mem.length + 1) 0 (by omega) (by omega) (by rw [m1]; simp; omega)
    rw [← m1, ← m2] at this
    simpa using this
  · rw [if_neg hc]
    have hnc : ¬ (a.mode = b.mode ∧ a.mode = .cstring) := by
      intro ⟨hab, ha⟩
      apply hc
      rw [ha] at hab
      have q1 := e2.mode; have q2 := f2.mode
      rw [ha] at q1; rw [← hab] at q2
      constructor
      · cases hh : s1.mode with
        | cstring => rfl
        | bytearray => rw [hh] at q1; cases q1
      · cases hh : s2.mode with
        | cstring => rfl
        | bytearray => rw [hh] at q2; cases q2
    obtain ⟨r1, m1, _⟩ := e2.holds.ex
    obtain ⟨r2, m2, _⟩ := f2.holds.ex
    simp only [Buffer.compare, if_neg hnc, e2.used, f2.used, m1, m2]
    by_cases hl : s1.content.length < s2.content.length
    · rw [if_pos hl, cmpLoop_ok _ _ _ _ _ _ (by omega) (by omega)]
      rw [lexCmp_prefix schar s1.content s2.content hl]
      simp
    · rw [if_neg hl]
      by_cases he : s1.content.length = s2.content.length
      · rw [if_pos he, cmpLoop_ok _ _ _ _ _ _ (by omega) (by omega)]
        simp [he]
        rw [← he]; simp
      · rw [if_neg he, cmpLoop_ok _ _ _ _ _ _ (by omega) (by omega)]
        rw [lexCmp_prefix' schar s2.content s1.content (by omega)]
        simp

example : okRun ⟨.cstring, []⟩ [.append [65, 200] 2] ∧ keepsTermRun ⟨.cstring, []⟩ [.append [65, 200] 2] ∧
    totalSize [.append [65, 200] 2] + 4 ≤ 2 ^ 32 := by
  simp [okRun, okOp, keepsTermRun, keepsTerm, totalSize, BufferSpec.size]

/-- The order of the same two byte strings is reversed when the buffers are byte arrays: 0x80 is above 'A' for strcmp, below it
as a signed char. -/
theorem C60_order_depends_on_mode :
    (do let a ← Buffer.newWithCapacity 16
        let b ← Buffer.newWithCapacity 16
        let a ← Buffer.append a [65] 1
        let b ← Buffer.append b [128] 1
        Buffer.compare a b) = some (-1) ∧
    (do let a ← Buffer.newWithCapacity 16
        let b ← Buffer.newWithCapacity 16
        let a ← Buffer.append { a with mode := .bytearray } [65] 1
        let b ← Buffer.append { b with mode := .bytearray } [128] 1
        Buffer.compare a b) = some 1 := by decide

/-! ## C19 -/
/-- C19. After every sequence of writes the string writer holds exactly the concatenation of what was written, NUL terminated;
its length is the length of that; each call returns the number of bytes it added; and no access was out of bounds. -/
theorem C19_string_writer_concatenates (ops : List WriterSpec.Op) (hok : ∀ op ∈ ops, WriterSpec.ok op) :
    ∃ w, Writer.execs Writer.stringWriter ops = some (w, ops.map fun op => (WriterSpec.added op).length) ∧
      Writer.dataZ w = some (ops.flatMap WriterSpec.added ++ [0]) ∧ Writer.length w = (ops.flatMap WriterSpec.added).length := by
  obtain ⟨w, e1, e2⟩ := Writer.execs_ok ops (w := Writer.stringWriter) (xs := []) ⟨rfl, rfl, [], rfl⟩ hok
  refine ⟨w, e1, ?_, by simpa [Writer.length] using e2.len⟩
  obtain ⟨rest, hd⟩ := e2.data
  simp only [List.nil_append] at hd e2
  simp only [Writer.dataZ, e2.len]
  have h1 : w.data = (ops.flatMap WriterSpec.added ++ [0]).map some ++ rest := by rw [hd]; simp
  rw [h1, getRange_at _ _ _ _ (by simp), List.drop_zero, List.take_of_length_le (by simp)]

example : (∀ op ∈ [WriterSpec.Op.write [104, 105], .writeChar 0, .writeLen [97, 0, 98] 3, .writeF [99]], WriterSpec.ok op) ∧
    [WriterSpec.Op.write [104, 105], .writeChar 0, .writeLen [97, 0, 98] 3, .writeF [99]].flatMap WriterSpec.added = [104, 105, 0, 97, 99] := by
  refine ⟨by simp [WriterSpec.ok], by decide⟩
