import Verif.Lemmas.CsvExact
import Verif.Model.Bytes
/-! # C186: how every line of CSV is read -/
open CsvGrammar

/-- **C186.** Every line without a NUL in which no quoted field has exactly one blank between its closing quote and the comma is read in one way: it is accepted with
the fields the grammar gives, or refused exactly if it has an unclosed quote, or a quote or byte out of place that is not the last byte. -/
theorem C186_every_line (s : List UInt8) (h0 : 0 ∉ s) (hu : ¬ Unset s) :
    (∀ fs, CsvParser.parse s = some (some fs) ↔ Reads none s fs) ∧ (CsvParser.parse s = some none ↔ Refused s) := by
  rcases CsvParser.every_text s.length s none (Nat.le_refl _) with ⟨gs, h⟩ | h | h
  · have e := CsvParser.parse_reads h h0
    refine ⟨fun fs => ⟨fun h' => ?_, fun h' => CsvParser.parse_reads h' h0⟩, fun h' => ?_, fun h' => CsvParser.parse_refused h' h0⟩
    · rw [e] at h'
      simp only [Option.some.injEq] at h'
      exact h' ▸ h
    · rw [e] at h'; simp at h'
  · have e := CsvParser.parse_refused h h0
    refine ⟨fun fs => ⟨fun h' => ?_, fun h' => CsvParser.parse_reads h' h0⟩, fun _ => h, fun h' => CsvParser.parse_refused h' h0⟩
    rw [e] at h'; simp at h'
  · exact absurd h hu

/-- **C186.** Reading such a line is memory safe. -/
theorem C186_memory_safe (s : List UInt8) (h0 : 0 ∉ s) (hu : ¬ Unset s) : ∃ r, CsvParser.parse s = some r := by
  rcases CsvParser.every_text s.length s none (Nat.le_refl _) with ⟨gs, h⟩ | h | h
  · exact ⟨_, CsvParser.parse_reads h h0⟩
  · exact ⟨_, CsvParser.parse_refused h h0⟩
  · exact absurd h hu

/-- **C186.** No line is both read and refused, and none is read in two ways. -/
theorem C186_unambiguous (s : List UInt8) (h0 : 0 ∉ s) (fs gs : List (List UInt8)) (h : Reads none s fs) : (Reads none s gs → gs = fs) ∧ ¬ Refused s := by
  have e := CsvParser.parse_reads h h0
  refine ⟨fun h' => ?_, fun h' => ?_⟩
  · have := CsvParser.parse_reads h' h0
    rw [e] at this
    simpa using this.symm
  · rw [CsvParser.parse_refused h' h0] at e
    simp at e

theorem rfc_last {t v : List UInt8} (h : RfcField t v) (prev : Option (List UInt8)) : Last prev (t ++ [13, 10]) v := by
  cases h with
  | bare u hu =>
    have e : withoutCrlf (t ++ [13, 10]) = t := by
      unfold withoutCrlf
      rw [if_pos ⟨t, rfl⟩]
      simp
    have := Last.bare (prev := prev) (t ++ [13, 10]) (by
      intro c hc
      simp only [List.mem_append, List.mem_cons, List.not_mem_nil, or_false] at hc
      rcases hc with hc | rfl | rfl
      · exact ⟨(hu c hc).1, (hu c hc).2.1⟩
      · decide
      · decide) (.inl (by simp))
    rwa [e] at this
  | escaped f =>
    have := Last.quoted (prev := prev) [] v [13, 10] (by simp [Blanks]) (by
      intro c hc
      simp only [List.mem_cons, List.not_mem_nil, or_false] at hc
      rcases hc with rfl | rfl
      · exact .inr (.inr (.inr rfl))
      · exact .inr (.inr (.inl rfl)))
    simpa [quoted] using this

theorem rfc_reads {s : List UInt8} {vs : List (List UInt8)} (h : RfcRecord s vs) : ∀ prev, Reads prev (s ++ [13, 10]) vs := by
  induction h with
  | one t v h => exact fun prev => .last _ _ _ (rfc_last h prev)
  | more t v rest vs h _ ih =>
    intro prev
    rw [List.append_assoc, List.cons_append]
    cases h with
    | bare u hu => exact .bare prev t _ vs (fun c hc => ⟨(hu c hc).1, (hu c hc).2.1⟩) (ih none)
    | escaped f =>
      have := Reads.quoted prev [] v [] (rest ++ [13, 10]) vs (by simp [Blanks]) (by simp [Blanks]) (by simp) (ih (some v))
      simpa [quoted] using this

/-- **C186.** Every record as RFC 4180 describes it, with each field in quotes or not as the writer likes, ended by CR LF, is read as its fields. -/
theorem C186_rfc4180 (s : List UInt8) (vs : List (List UInt8)) (h : RfcRecord s vs) (h0 : 0 ∉ s) : CsvParser.parse (s ++ [13, 10]) = some (some vs) :=
  CsvParser.parse_reads (rfc_reads h none) (by simp [h0])

/-- **C186**, finding: that malformed lines are refused is false. A quote behind a bare text, or one byte behind a quoted value, is accepted when it is the last byte of the
line, and the field is empty. -/
theorem C186_malformed_end_is_accepted_negated (u f : List UInt8) (c : UInt8) (h0 : 0 ∉ u) (hu : Bare u) (hx : ∃ c ∈ u, ¬ Blank c) (h0f : 0 ∉ doubled f) (hc0 : c ≠ 0) (hb : ¬ Blank c)
    (hc : c ≠ 44) (hq : c ≠ 34) :
    CsvParser.parse (u ++ [34]) = some (some [[]]) ∧ CsvParser.parse (34 :: (doubled f ++ [34, c])) = some (some [[]]) := by
  refine ⟨CsvParser.parse_reads (.last _ _ _ (.strayQuote u hu hx)) (by simp [h0]), ?_⟩
  have := CsvParser.parse_reads (.last none _ _ (.strayByte [] f [] c (by simp [Blanks]) (by simp [Blanks]) hb hc (fun _ => hq))) (by simp [quoted, h0f, Ne.symm hc0])
  simpa [quoted] using this

/-! Concrete lines. -/

example : CsvParser.parse (bytes! "ab\"") = some (some [[]]) ∧ CsvParser.parse (34 :: (doubled [98] ++ [34, 99])) = some (some [[]]) :=
  C186_malformed_end_is_accepted_negated (bytes! "ab") [98] 99 (by decide) (by simp [Bare]) ⟨97, by simp, by simp [Blank]⟩ (by decide) (by decide) (by simp [Blank]) (by decide) (by decide)

example : CsvParser.parse (bytes! "ab, \"c\"\"d,\" \t,e \r\n") = some (some [bytes! "ab", bytes! "c\"d,", bytes! "e "]) := by decide +kernel

example : Reads none (bytes! "ab, \"c\"\"d,\" \t,e \r\n") [bytes! "ab", bytes! "c\"d,", bytes! "e "] :=
  .bare none (bytes! "ab") _ _ (by simp [Bare]) (.quoted none [32] (bytes! "c\"d,") [32, 9] (bytes! "e \r\n") _ (by simp [Blanks, Blank]) (by simp [Blanks, Blank]) (by simp)
    (.last _ _ _ (.bare (bytes! "e \r\n") (by simp [Bare]) (.inl (by simp)))))

/-- It meets the hypotheses: nothing of it is unset. -/
example : ¬ Unset (bytes! "ab\"c") := by
  intro h
  have h2 : Refused (bytes! "ab\"c") := .strayQuote (bytes! "ab") 99 [] (by simp [Bare]) ⟨97, by simp, by simp [Blank]⟩
  generalize hs : bytes! "ab\"c" = s at h
  cases h with
  | here lead f b rest hl hb =>
    cases lead with
    | nil => simp [quoted] at hs
    | cons c l =>
      simp [quoted] at hs
      obtain ⟨rfl, hs⟩ := hs
      have := hl 97 (by simp)
      simp [Blank] at this
  | bare u rest hu _ => 
    have : (44 : UInt8) ∈ bytes! "ab\"c" := by rw [hs]; simp
    simp at this
  | quoted lead f trail rest _ _ _ _ =>
    have : (44 : UInt8) ∈ bytes! "ab\"c" := by rw [hs]; simp
    simp at this

example : RfcRecord (bytes! "a,\"b\"\"c\",,\"\"") [bytes! "a", bytes! "b\"c", [], []] :=
  .more [97] _ _ _ (.bare _ (by simp)) (.more (bytes! "\"b\"\"c\"") (bytes! "b\"c") _ _ (by simpa [doubled] using RfcField.escaped (bytes! "b\"c")) (.more [] _ _ _ (.bare _ (by simp)) (.one _ _ (.escaped []))))
