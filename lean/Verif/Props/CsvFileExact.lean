import Verif.Props.CsvExact
import Verif.Props.DataFile
/-! # C186: what a CSV file becomes, in terms of the grammar alone -/
open CsvGrammar

namespace CsvFileExact
open DataFile DataFileSpec

theorem cut_zero (l : List UInt8) : 0 ∉ cut l := by
  intro h
  have := (List.all_eq_true.1 (List.all_takeWhile (p := fun c : UInt8 => decide (c ≠ 0)) (l := l))) 0 h
  simp at this

theorem rows_grammar : ∀ (ls : List (List UInt8)) (rs : List (List (List UInt8))), (∀ l ∈ ls, 0 ∉ l) → Rows ls rs → (ls.filterMap fun l => (CsvParser.parse l).join) = rs := by
  intro ls rs h0 h
  induction h with
  | nil => rfl
  | row l fs ls rs hr _ ih =>
    rw [List.filterMap_cons, CsvParser.parse_reads hr (h0 l (by simp))]
    simp only [Option.join_some]
    rw [ih fun l hl => h0 l (by simp [hl])]
  | refused l ls rs hr _ ih =>
    rw [List.filterMap_cons, CsvParser.parse_refused hr (h0 l (by simp))]
    simp only [Option.join_some]
    exact ih fun l hl => h0 l (by simp [hl])

theorem rows_exist : ∀ (ls : List (List UInt8)), (∀ l ∈ ls, ¬ Unset l) → ∃ rs, Rows ls rs := by
  intro ls
  induction ls with
  | nil => exact fun _ => ⟨[], .nil⟩
  | cons l ls ih =>
    intro h
    obtain ⟨rs, hr⟩ := ih fun l hl => h l (by simp [hl])
    rcases CsvParser.every_text l.length l none (Nat.le_refl _) with ⟨gs, h'⟩ | h' | h'
    · exact ⟨_, .row _ _ _ _ h' hr⟩
    · exact ⟨_, .refused _ _ _ h' hr⟩
    · exact absurd h' (h l (by simp))

end CsvFileExact

open DataFile DataFileSpec Json JsonSpec in
/-- **C186.** `JsonParseCsvFile` on a file whose records (as C strings) are lines in which no quoted field has exactly one blank between its closing quote and the comma:
of the first records that together have at most `max` bytes, the array of the rows the grammar gives; a failure exactly if reading fails before the limit is passed. -/
theorem C186_file (bad : Bool) (max : Nat) (file : List UInt8) (records : List (List UInt8)) (hr : Records file records) (hu : ∀ l ∈ within max (records.map cut), ¬ Unset l) :
    (bad = true ∧ within max (records.map cut) = records.map cut → parseCsvFile (some ⟨file, bad⟩) max = some none) ∧
    (¬ (bad = true ∧ within max (records.map cut) = records.map cut) →
      ∃ e rs, parseCsvFile (some ⟨file, bad⟩) max = some (some e) ∧ Rows (within max (records.map cut)) rs ∧
        doc e = .array (rs.map fun fields => .array (fields.map .string))) := by
  have h0 : ∀ l ∈ within max (records.map cut), 0 ∉ l := by
    intro l hl
    obtain ⟨l', _, rfl⟩ := List.mem_map.1 (within_subset _ _ l hl)
    exact CsvFileExact.cut_zero l'
  obtain ⟨c, g1, g2⟩ := csvLoop_ok max records (file.length + 1) file 0 [] hr (by omega) (by omega) (fun l hl => C186_memory_safe l (h0 l hl) (hu l hl))
  rw [Nat.sub_zero] at g1 g2
  have he : parseCsvFile (some ⟨file, bad⟩) max = if bad && decide (c ≤ max) then some none else some (some (.cont none .array ((rows (within max (records.map cut))).map row))) := by
    rw [parseCsvFile]
    simp only [g1, List.nil_append]
  rw [he]
  constructor
  · rintro ⟨hb, hw⟩
    simp [hb, g2.2 hw]
  · intro hne
    obtain ⟨rs, hrs⟩ := CsvFileExact.rows_exist _ hu
    refine ⟨_, rs, if_neg ?_, hrs, by rw [doc, docs_rows]; unfold rows; rw [CsvFileExact.rows_grammar _ _ h0 hrs]⟩
    simp only [Bool.and_eq_true, decide_eq_true_eq, not_and]
    exact fun h1 h2 => hne ⟨h1, g2.1 h2⟩

open DataFile DataFileSpec in
/-- A file of two records, the second refused: its rows. -/
example : Rows (within 100 ([bytes! "a,b\r\n", bytes! "c\"d\r\n"].map cut)) [[bytes! "a", bytes! "b"]] := by
  have e : within 100 ([bytes! "a,b\r\n", bytes! "c\"d\r\n"].map cut) = [bytes! "a,b\r\n", bytes! "c\"d\r\n"] := by decide +kernel
  rw [e]
  exact .row _ _ _ _ (.bare none [97] (bytes! "b\r\n") _ (by simp [Bare]) (.last _ _ _ (.bare (bytes! "b\r\n") (by simp [Bare]) (.inl (by simp)))))
    (.refused _ _ _ (.strayQuote [99] 100 [13, 10] (by simp [Bare]) ⟨99, by simp, by simp [Blank]⟩) .nil)
