import Verif.Model.StrNumExt
import Verif.Props.StrNum
/-! # C40 (integer parsers that return a default or end the program) -/
open NumSpec

/-- C40. `StringToUlongDefaultOnError` returns the number when the text is a terminated numeral of the type, and the default otherwise. -/
theorem C40_toUlongDefault (s : List UInt8) (h0 : 0 ∉ s) (d : Nat) :
    (∀ neg mag rest, Numeral s neg mag rest → 0 ≤ signed neg mag → signed neg mag < 2 ^ 64 → Terminated rest →
      Str.stringToUlongDefault s d = some mag) ∧
    ((¬ ∃ neg mag rest, Numeral s neg mag rest ∧ 0 ≤ signed neg mag ∧ signed neg mag < 2 ^ 64 ∧ Terminated rest) →
      Str.stringToUlongDefault s d = some d) := by
  obtain ⟨hno, hyes⟩ := C40_toUlong s h0
  constructor
  · intro neg mag rest hn h1 h2 ht
    simp [Str.stringToUlongDefault, (hyes _ _ _ hn).2.2 h1 h2 ht]
  · intro h
    by_cases hn : ∃ neg mag rest, Numeral s neg mag rest
    · obtain ⟨neg, mag, rest, hn⟩ := hn
      by_cases hr : 0 ≤ signed neg mag ∧ signed neg mag < 2 ^ 64
      · have ht : ¬ Terminated rest := fun ht => h ⟨neg, mag, rest, hn, hr.1, hr.2, ht⟩
        simp [Str.stringToUlongDefault, (hyes _ _ _ hn).2.1 hr.1 hr.2 ht]
      · simp [Str.stringToUlongDefault, (hyes _ _ _ hn).1 hr]
    · simp [Str.stringToUlongDefault, hno hn]

example : Str.stringToUlongDefault [52, 50] 7 = some 42 ∧ Str.stringToUlongDefault [45, 49] 7 = some 7 := ⟨rfl, rfl⟩

/-- C40. The same for `StringToInt64DefaultOnError`. -/
theorem C40_toInt64Default (s : List UInt8) (h0 : 0 ∉ s) (d : Int) :
    (∀ neg mag rest, Numeral s neg mag rest → -2 ^ 63 ≤ signed neg mag → signed neg mag < 2 ^ 63 → Terminated rest →
      Str.stringToInt64Default s d = some (signed neg mag)) ∧
    ((¬ ∃ neg mag rest, Numeral s neg mag rest ∧ -2 ^ 63 ≤ signed neg mag ∧ signed neg mag < 2 ^ 63 ∧ Terminated rest) →
      Str.stringToInt64Default s d = some d) :=
  C40_toLongDefault s h0 d

/-- C40. The variants that end the program: they return exactly the number of a terminated numeral of the type; for every other text the program ends with status 1
after a message with the code of the error. -/
theorem C40_exit_variants (s : List UInt8) (h0 : 0 ∉ s) :
    (∀ neg mag rest, Numeral s neg mag rest → Terminated rest →
      (-2 ^ 63 ≤ signed neg mag → signed neg mag < 2 ^ 63 →
        Str.stringToLongExit s = some (.returns (signed neg mag)) ∧ Str.stringToInt64Exit s = some (.returns (signed neg mag))) ∧
      (0 ≤ signed neg mag → signed neg mag < 2 ^ 64 → Str.stringToUlongExit s = some (.returns mag))) ∧
    ((¬ ∃ neg mag rest, Numeral s neg mag rest ∧ -2 ^ 63 ≤ signed neg mag ∧ signed neg mag < 2 ^ 63 ∧ Terminated rest) →
      ∃ e, (e = -81 ∨ e = 34 ∨ e = -83) ∧ Str.stringToLongExit s = some (.exits 1 e) ∧ Str.stringToInt64Exit s = some (.exits 1 e)) ∧
    ((¬ ∃ neg mag rest, Numeral s neg mag rest ∧ 0 ≤ signed neg mag ∧ signed neg mag < 2 ^ 64 ∧ Terminated rest) →
      ∃ e, (e = -81 ∨ e = 34 ∨ e = -83) ∧ Str.stringToUlongExit s = some (.exits 1 e)) := by
  obtain ⟨hno, hyes⟩ := C40_toLong s h0
  obtain ⟨uno, uyes⟩ := C40_toUlong s h0
  refine ⟨?_, ?_, ?_⟩
  · intro neg mag rest hn ht
    refine ⟨fun h1 h2 => ?_, fun h1 h2 => ?_⟩
    · constructor <;> simp [Str.stringToLongExit, Str.stringToInt64Exit, (hyes _ _ _ hn).2.2 h1 h2 ht]
    · simp [Str.stringToUlongExit, (uyes _ _ _ hn).2.2 h1 h2 ht]
  · intro h
    by_cases hn : ∃ neg mag rest, Numeral s neg mag rest
    · obtain ⟨neg, mag, rest, hn⟩ := hn
      by_cases hr : -2 ^ 63 ≤ signed neg mag ∧ signed neg mag < 2 ^ 63
      · have ht : ¬ Terminated rest := fun ht => h ⟨neg, mag, rest, hn, hr.1, hr.2, ht⟩
        exact ⟨-83, by simp, by simp [Str.stringToLongExit, (hyes _ _ _ hn).2.1 hr.1 hr.2 ht], by simp [Str.stringToInt64Exit, (hyes _ _ _ hn).2.1 hr.1 hr.2 ht]⟩
      · exact ⟨34, by simp, by simp [Str.stringToLongExit, (hyes _ _ _ hn).1 hr], by simp [Str.stringToInt64Exit, (hyes _ _ _ hn).1 hr]⟩
    · exact ⟨-81, by simp, by simp [Str.stringToLongExit, hno hn], by simp [Str.stringToInt64Exit, hno hn]⟩
  · intro h
    by_cases hn : ∃ neg mag rest, Numeral s neg mag rest
    · obtain ⟨neg, mag, rest, hn⟩ := hn
      by_cases hr : 0 ≤ signed neg mag ∧ signed neg mag < 2 ^ 64
      · have ht : ¬ Terminated rest := fun ht => h ⟨neg, mag, rest, hn, hr.1, hr.2, ht⟩
        exact ⟨-83, by simp, by simp [Str.stringToUlongExit, (uyes _ _ _ hn).2.1 hr.1 hr.2 ht]⟩
      · exact ⟨34, by simp, by simp [Str.stringToUlongExit, (uyes _ _ _ hn).1 hr]⟩
    · exact ⟨-81, by simp, by simp [Str.stringToUlongExit, uno hn]⟩

example : Str.stringToUlongExit [52, 50] = some (.returns 42) ∧ Str.stringToLongExit [52, 50, 120] = some (.exits 1 (-83)) := ⟨rfl, rfl⟩

/-- C40 (negation of "converted or refused"): `StringToLongUnsafe` in a release build returns a number for anything, 0 for text that is none. -/
theorem C40_unsafe_accepts_anything_negated : Str.stringToLongUnsafe [120] = 0 ∧ Str.stringToLongUnsafe [49, 120] = 1 := ⟨rfl, rfl⟩
