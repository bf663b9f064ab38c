import Verif.Lemmas.Csv
/-! # C20 (CSV round trip), C21 (CSV line reader), C61 (CSV parsing of arbitrary text)

`okField f` says `f` is a C string (no NUL) of at most INT_MAX bytes.  Texts are byte lists; a writer's or reader's result carries
its terminating NUL. -/
open CsvWriter (okField)

/-- Client: write one record to a fresh string writer and close; the bytes of the resulting C string with its terminator. -/
def csvRecord (terminate : Bool) (fs : List (List UInt8)) : Option (List UInt8) := do
  let cw ← CsvWriter.fields (CsvWriter.openSpecifyTerminate Writer.stringWriter terminate) fs
  let w ← CsvWriter.close cw
  Writer.dataZ w

/-- Client: write each record followed by `CsvWriterNewRecord`. -/
def csvRecords (cw : CsvWriter.CW) : List (List (List UInt8)) → Option CsvWriter.CW
  | [] => some cw
  | r :: rs => do
    let cw ← CsvWriter.fields cw r
    let cw ← CsvWriter.newRecord cw
    csvRecords cw rs

/-- Client: a whole document; the bytes of the resulting C string with its terminator. -/
def csvDocument (rs : List (List (List UInt8))) : Option (List UInt8) := do
  let cw ← csvRecords (CsvWriter.openSpecifyTerminate Writer.stringWriter true) rs
  let w ← CsvWriter.close cw
  Writer.dataZ w

/-- Client: call `GetCsvLineNext` until it returns NULL (or `fuel` calls were made); the C strings returned, each with its
terminator, and whether NULL was reached. -/
def csvLines : Nat → List UInt8 → Option (List (List UInt8) × Bool)
  | 0, _ => some ([], false)
  | fuel + 1, s => do
    let (l, s) ← CsvParser.getLineNext s
    match l with
    | none => some ([], true)
    | some l => do
      let (ls, e) ← csvLines fuel s
      some (l :: ls, e)

open CsvText in
theorem csvRecord_eq (t : Bool) (fs : List (List UInt8)) (h : ∀ f ∈ fs, okField f) :
    csvRecord t fs = some (recText fs ++ (if !fs.isEmpty && t then [13, 10] else []) ++ [0]) := by
  obtain ⟨cw, a1, a2, a3, a4⟩ := CsvWriter.fields_ok fs h (cw := CsvWriter.openSpecifyTerminate Writer.stringWriter t) (xs := [])
    Writer.init_ok rfl
  by_cases hc : (!fs.isEmpty && t) = true
  · obtain ⟨w, b1, b2⟩ := Writer.write_ok a2 [13, 10] (by decide) (by decide)
    have hd := Writer.dataZ_ok b2
    have hc' : (!cw.beginningOfLine && cw.terminateLastLine) = true := by rw [a3, a4]; exact hc
    simp only [csvRecord, a1, Option.bind_eq_bind, Option.bind_some, CsvWriter.close, hc', if_true, b1, Option.map_some, hc]
    rw [hd]; simp
  · have hd := Writer.dataZ_ok a2
    have hc' : ¬ (!cw.beginningOfLine && cw.terminateLastLine) = true := by rw [a3, a4]; exact hc
    simp only [csvRecord, a1, Option.bind_eq_bind, Option.bind_some, CsvWriter.close, if_neg hc', if_neg hc]
    rw [hd]; simp

/-- C20. Writing any non-empty record with `CsvWriter` and parsing the text gives back exactly its fields; no access is out of
bounds and nothing uninitialised is read. (A record of no fields is written as the empty line, which reads as one empty field.) -/
theorem C20_csv_record_round_trips (fs : List (List UInt8)) (hne : fs ≠ []) (h : ∀ f ∈ fs, okField f) :
    ∃ text, csvRecord true fs = some (text ++ [0]) ∧ 0 ∉ text ∧ CsvParser.parse text = some (some fs) := by
  match fs, hne with
  | f :: fs, _ =>
    refine ⟨CsvText.recText (f :: fs) ++ [13, 10], ?_, ?_, ?_⟩
    · rw [csvRecord_eq true _ h]; simp
    · have hz : ∀ g : List UInt8, 0 ∉ g → 0 ∉ CsvText.fieldText g := by
        intro g hg
        have he : 0 ∉ CsvText.esc g := by
          simp only [CsvText.esc, List.mem_flatMap, not_exists, not_and]
          intro c hc
          by_cases h34 : c = 34
          · simp [h34]
          · simp only [h34, if_false, List.mem_singleton]
            intro e; exact hg (e ▸ hc)
        unfold CsvText.fieldText
        split
        · simp [he]
        · exact hg
      have ht : ∀ gs : List (List UInt8), (∀ g ∈ gs, okField g) → 0 ∉ CsvText.tailText gs := by
        intro gs
        induction gs with
        | nil => intro _; simp [CsvText.tailText]
        | cons g gs ih =>
          intro hg
          simp only [CsvText.tailText, List.mem_cons, List.mem_append, not_or]
          exact ⟨by decide, hz g (hg g (by simp)).1, ih (fun x hx => hg x (by simp [hx]))⟩
      simp only [CsvText.recText, List.mem_append, not_or]
      exact ⟨⟨hz f (h f (by simp)).1, ht fs (fun g hg => h g (by simp [hg]))⟩, by decide⟩
    · obtain ⟨m, a1, a2⟩ := CsvParser.init_ready (CsvText.recText (f :: fs) ++ [13, 10]).length
      obtain ⟨p, b1, b2⟩ := CsvParser.record_crlf fs f (fun g hg => (h g hg).1) (p := ⟨m, some 0, .newLine, []⟩) (a2.mono (by simp))
      simp only [CsvParser.parse, CsvParser.launch, a1, Option.bind_eq_bind, Option.bind_some, b1, b2]
      simp

/-- a,b / "q / empty / CRLF -/
example : ∀ f ∈ ([[97, 44, 98], [34, 113], [], [13, 10], [32, 120]] : List (List UInt8)), okField f := by
  simp [okField]

/-- C20, record written without final CRLF: it round trips too, unless its last field is empty and the one before it was quoted. -/
theorem C20_unterminated_record_round_trips (fs : List (List UInt8)) (hne : fs ≠ []) (h : ∀ f ∈ fs, okField f)
    (hx : ¬ ∃ pre q, fs = pre ++ [q, []] ∧ ∃ c ∈ q, c = 34 ∨ c = 44 ∨ c = 13 ∨ c = 10) :
    ∃ text, csvRecord false fs = some (text ++ [0]) ∧ CsvParser.parse text = some (some fs) := by
  have key : ∀ gs : List (List UInt8), (¬ ∃ pre q, gs = pre ++ [q, []] ∧ ∃ c ∈ q, c = 34 ∨ c = 44 ∨ c = 13 ∨ c = 10) → CsvParser.eofRead gs = gs := by
    intro gs
    fun_induction CsvParser.eofRead gs with
    | case1 => intro _; rfl
    | case2 => intro _; rfl
    | case3 f g hq =>
      intro hx
      exfalso
      refine hx ⟨[], f, by simp [hq.2], ?_⟩
      have := hq.1
      simp only [CsvWriter.needsQuotes, List.any_eq_true, Bool.or_eq_true, beq_iff_eq] at this
      obtain ⟨c, hc, hcc⟩ := this
      exact ⟨c, hc, by rcases hcc with ((h | h) | h) | h <;> simp [h]⟩
    | case4 f g hq => intro _; rfl
    | case5 f g h' fs ih =>
      intro hx
      rw [ih]
      rintro ⟨pre, q, he, hq⟩
      exact hx ⟨f :: pre, q, by rw [he]; rfl, hq⟩
  match fs, hne with
  | f :: fs, _ =>
    refine ⟨CsvText.recText (f :: fs), ?_, ?_⟩
    · rw [csvRecord_eq false _ h]; simp
    · obtain ⟨m, a1, a2⟩ := CsvParser.init_ready (CsvText.recText (f :: fs)).length
      obtain ⟨p, b1, b2⟩ := CsvParser.record_eof fs f (fun g hg => (h g hg).1) (p := ⟨m, some 0, .newLine, []⟩) a2 (by intro _ e; simp at e)
      rw [key _ hx] at b2
      simp only [CsvParser.parse, CsvParser.launch, a1, Option.bind_eq_bind, Option.bind_some, b1, b2]
      simp

example : ¬ ∃ pre q, ([[97, 44], [], [98]] : List (List UInt8)) = pre ++ [q, []] ∧ ∃ c ∈ q, c = 34 ∨ c = 44 ∨ c = 13 ∨ c = 10 := by
  rintro ⟨pre, q, h, _⟩
  match pre with
  | [] => simp at h
  | [_] => simp at h
  | [_, _] => simp at h
  | _ :: _ :: _ :: pre => simp at h

/-- The excluded case is a defect: for every such record the empty last field comes back as a second copy of the quoted field. -/
theorem C20_unterminated_empty_field_after_quoted_is_lost (pre : List (List UInt8)) (q : List UInt8)
    (h : ∀ f ∈ pre ++ [q, []], okField f) (hq : ∃ c ∈ q, c = 34 ∨ c = 44 ∨ c = 13 ∨ c = 10) :
    ∃ text, csvRecord false (pre ++ [q, []]) = some (text ++ [0]) ∧
      CsvParser.parse text = some (some (pre ++ [q, q])) ∧ pre ++ [q, q] ≠ pre ++ [q, []] := by
  have hnq : CsvWriter.needsQuotes q = true := by
    obtain ⟨c, hc, hcc⟩ := hq
    simp only [CsvWriter.needsQuotes, List.any_eq_true, Bool.or_eq_true, beq_iff_eq]
    exact ⟨c, hc, by rcases hcc with h | h | h | h <;> simp [h]⟩
  have hne : q ≠ [] := by rintro rfl; simp [CsvWriter.needsQuotes] at hnq
  have key : ∀ pre : List (List UInt8), CsvParser.eofRead (pre ++ [q, []]) = pre ++ [q, q] := by
    intro pre
    induction pre with
    | nil => simp [CsvParser.eofRead, hnq]
    | cons f pre ih =>
      match pre, ih with
      | [], ih => simpa [CsvParser.eofRead] using ih
      | [_], ih => simpa [CsvParser.eofRead] using ih
      | _ :: _ :: _, ih => simpa [CsvParser.eofRead] using ih
  refine ⟨CsvText.recText (pre ++ [q, []]), by rw [csvRecord_eq false _ h]; simp, ?_, by simpa using hne⟩
  obtain ⟨g, gs, hg⟩ : ∃ g gs, pre ++ [q, []] = g :: gs := by
    cases pre with
    | nil => exact ⟨q, [[]], rfl⟩
    | cons a b => exact ⟨a, b ++ [q, []], rfl⟩
  obtain ⟨m, a1, a2⟩ := CsvParser.init_ready (CsvText.recText (g :: gs)).length
  obtain ⟨p, b1, b2⟩ := CsvParser.record_eof gs g (fun x hx => (h x (by rw [hg]; exact hx)).1) (p := ⟨m, some 0, .newLine, []⟩) a2 (by intro _ e; simp at e)
  rw [← hg, key] at b2
  rw [hg]
  simp only [CsvParser.parse, CsvParser.launch, a1, Option.bind_eq_bind, Option.bind_some, b1, b2]
  simp

example : csvRecord false [[97, 44], []] = some [34, 97, 44, 34, 44, 0] ∧
    CsvParser.parse [34, 97, 44, 34, 44] = some (some [[97, 44], [97, 44]]) := by decide

theorem csvRecords_ok : ∀ (rs : List (List (List UInt8))), (∀ r ∈ rs, ∀ f ∈ r, okField f) → ∀ {cw : CsvWriter.CW} {xs : List UInt8},
    Writer.WRep cw.w xs → cw.beginningOfLine = true →
    ∃ cw', csvRecords cw rs = some cw' ∧ Writer.WRep cw'.w (xs ++ rs.flatMap fun r => CsvText.recText r ++ [13, 10]) ∧ cw'.beginningOfLine = true := by
  intro rs
  induction rs with
  | nil => intro _ cw xs h hb; exact ⟨cw, rfl, by simpa using h, hb⟩
  | cons r rs ih =>
    intro hok cw xs h hb
    obtain ⟨cw1, a1, a2, a3, a4⟩ := CsvWriter.fields_ok r (hok r (by simp)) h hb
    obtain ⟨w2, b1, b2⟩ := Writer.write_ok a2 [13, 10] (by decide) (by decide)
    obtain ⟨cw3, c1, c2, c3⟩ := ih (fun x hx => hok x (by simp [hx])) (cw := { cw1 with w := w2, beginningOfLine := true }) b2 rfl
    exact ⟨cw3, by simp [csvRecords, CsvWriter.newRecord, a1, b1, c1], by simpa using c2, c3⟩

theorem csvLines_recs : ∀ (rs : List (List (List UInt8))) (fuel : Nat), rs.length < fuel →
    csvLines fuel (rs.flatMap fun r => CsvText.recText r ++ [13, 10]) = some (rs.map fun r => CsvText.recText r ++ [13, 10] ++ [0], true) := by
  intro rs
  induction rs with
  | nil =>
    intro fuel hf
    match fuel, hf with
    | fuel + 1, _ => simp [csvLines, CsvParser.getLineNext_nil]
  | cons r rs ih =>
    intro fuel hf
    match fuel, hf with
    | fuel + 1, hf =>
      simp only [List.flatMap_cons, csvLines, CsvParser.getLineNext_rec, Option.bind_eq_bind, Option.bind_some]
      rw [ih fuel (by simpa using hf)]
      simp

/-- C21. Reading a document written by `CsvWriter` with `GetCsvLineNext` returns one line per record and then NULL, and parsing the
lines gives back the records — also when fields contain line ends. -/
theorem C21_line_reader_returns_the_records (rs : List (List (List UInt8))) (hne : ∀ r ∈ rs, r ≠ []) (h : ∀ r ∈ rs, ∀ f ∈ r, okField f)
    (fuel : Nat) (hf : rs.length < fuel) :
    ∃ (text : List UInt8) (lines : List (List UInt8)), csvDocument rs = some (text ++ [0]) ∧ csvLines fuel text = some (lines.map (· ++ [0]), true) ∧
      lines.map CsvParser.parse = rs.map fun r => some (some r) := by
  obtain ⟨cw, a1, a2, a3⟩ := csvRecords_ok rs h (cw := CsvWriter.openSpecifyTerminate Writer.stringWriter true) (xs := []) Writer.init_ok rfl
  refine ⟨rs.flatMap fun r => CsvText.recText r ++ [13, 10], rs.map fun r => CsvText.recText r ++ [13, 10], ?_, ?_, ?_⟩
  · have hd := Writer.dataZ_ok a2
    simp only [csvDocument, a1, Option.bind_eq_bind, Option.bind_some, CsvWriter.close, a3, Bool.not_true, Bool.false_and,
      Bool.false_eq_true, if_false, hd]
    simp
  · rw [csvLines_recs rs fuel hf]; simp [Function.comp_def]
  · simp only [List.map_map]
    apply List.map_congr_left
    intro r hr
    obtain ⟨text, t1, _, t2⟩ := C20_csv_record_round_trips r (hne r hr) (h r hr)
    have hn : r.isEmpty = false := by
      cases r with
      | nil => exact absurd rfl (hne _ hr)
      | cons _ _ => rfl
    rw [csvRecord_eq true _ (h r hr), hn] at t1
    simp only [Bool.not_false, Bool.true_and, if_true, Option.some.injEq, List.append_cancel_right_eq] at t1
    rw [Function.comp_apply, t1, t2]

example : (∀ r ∈ ([[[97, 13, 10], []], [[98]]] : List (List (List UInt8))), r ≠ []) ∧
    ∀ r ∈ ([[[97, 13, 10], []], [[98]]] : List (List (List UInt8))), ∀ f ∈ r, okField f := by
  simp [okField]

/-- C21. For every file whatsoever, the lines returned until NULL are non-empty and concatenate to the file: nothing is lost or
repeated, and NULL comes after at most one call per byte. -/
theorem C21_lines_concatenate_to_the_file (s : List UInt8) (fuel : Nat) (hf : s.length < fuel) :
    ∃ lines : List (List UInt8), csvLines fuel s = some (lines.map (· ++ [0]), true) ∧ lines.flatten = s ∧ ∀ l ∈ lines, l ≠ [] := by
  induction fuel generalizing s with
  | zero => omega
  | succ fuel ih =>
    cases s with
    | nil => exact ⟨[], by simp [csvLines, CsvParser.getLineNext_nil], rfl, by simp⟩
    | cons c s =>
      obtain ⟨a, b, h1, h2, h3⟩ := CsvParser.getLineNext_cons c s
      have hb : b.length < fuel := by
        have : (c :: s).length = a.length + b.length := by rw [h2]; simp
        have := List.length_pos_iff.mpr h3
        omega
      obtain ⟨ls, l1, l2, l3⟩ := ih b hb
      refine ⟨a :: ls, by simp [csvLines, h1, l1], by rw [List.flatten_cons, l2, ← h2], ?_⟩
      intro l hl
      simp only [List.mem_cons] at hl
      rcases hl with rfl | hl
      · exact h3
      · exact l3 l hl

/-- C61, partial: `SeqParseCsvString` on a text is memory safe (in bounds, reads nothing uninitialised) and returns a list or NULL,
for every text in which no quote is followed by one blank (space, tab, CR or LF) and a separator. Missing: those texts, see the
next theorem. -/
theorem C61_csv_parsing_is_memory_safe_partial (s : List UInt8)
    (h : ∀ b ∈ ([32, 9, 10, 13] : List UInt8), ¬ [34, b, 44] <:+: s) : ∃ r, CsvParser.parse s = some r := by
  obtain ⟨r, hr⟩ := CsvParser.launch_safe s (by
    intro b hb
    apply h
    simp only [CsvParser.blank, Bool.or_eq_true, beq_iff_eq] at hb
    simp only [List.mem_cons, List.not_mem_nil, or_false]
    rcases hb with ((h | h) | h) | h <;> simp [h])
  cases r with
  | error e => exact ⟨none, by simp [CsvParser.parse, hr]⟩
  | ok l => exact ⟨some l, by simp [CsvParser.parse, hr]⟩

/-- `"x"` followed by anything is covered. -/
example : ∀ b ∈ ([32, 9, 10, 13] : List UInt8), ¬ [34, b, 44] <:+: ([34, 120, 34, 32, 32, 44, 121] : List UInt8) := by decide

/-- The excluded texts really go wrong: on `"x" ,` the field is copied without having been terminated, so uninitialised memory
is read; and on `abcdef,"x" ,y` the stale tail of the previous field is returned. -/
theorem C61_quote_blank_separator_is_not_terminated :
    CsvParser.parse [34, 120, 34, 32, 44] = none ∧
    CsvParser.parse [97, 98, 99, 100, 101, 102, 44, 34, 120, 34, 32, 44, 121] =
      some (some [[97, 98, 99, 100, 101, 102], [120, 98, 99, 100, 101, 102], [121]]) := by decide

/-- Malformed texts are rejected only when another byte follows: `abc"` is accepted as one empty field, `abc"d` is refused. -/
theorem C61_misplaced_final_quote_is_accepted :
    CsvParser.parse [97, 98, 99, 34] = some (some [[]]) ∧ CsvParser.parse [97, 98, 99, 34, 100] = some none := by decide
