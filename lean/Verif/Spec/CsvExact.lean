/-!
# How every line of CSV is read (C186)

A grammar of texts, independent of the parser: fields separated by commas, each bare or quoted. `Reads` also has the forms that should not be accepted, or
not with that value, and are (findings).
-/
namespace CsvGrammar

abbrev Bytes := List UInt8

/-- Space, tab, line feed, carriage return. -/
def Blank (c : UInt8) : Prop := c = 32 ∨ c = 9 ∨ c = 10 ∨ c = 13

def Blanks (u : Bytes) : Prop := ∀ c ∈ u, Blank c

/-- A text without quotes and commas. -/
def Bare (u : Bytes) : Prop := ∀ c ∈ u, c ≠ 34 ∧ c ≠ 44

/-- A value as it is written between quotes: its quotes doubled. -/
def doubled : Bytes → Bytes
  | [] => []
  | c :: f => if c = 34 then 34 :: 34 :: doubled f else c :: doubled f

/-- A quoted field: blanks, the value in quotes, blanks. -/
def quoted (lead f trail : Bytes) : Bytes := lead ++ 34 :: (doubled f ++ 34 :: trail)

/-- A text without its CR LF at the end, if it has one. -/
def withoutCrlf (u : Bytes) : Bytes := if [13, 10] <:+ u then u.take (u.length - 2) else u

/-- The last field: text and value. `prev` is the value of the field before, if that was quoted. -/
inductive Last (prev : Option Bytes) : Bytes → Bytes → Prop
  | bare (u : Bytes) : Bare u → (u ≠ [] ∨ prev = none) → Last prev u (withoutCrlf u)
  | quoted (lead f trail : Bytes) : Blanks lead → Blanks trail → Last prev (quoted lead f trail) f
  /-- finding: an empty field at the end of the text, behind a quoted one, gets the value of that one -/
  | repeated (f : Bytes) : prev = some f → Last prev [] f
  /-- finding: a quote behind a bare text is accepted if it ends the text; the value is empty -/
  | strayQuote (u : Bytes) : Bare u → (∃ c ∈ u, ¬ Blank c) → Last prev (u ++ [34]) []
  /-- finding: so is one byte behind a quoted value -/
  | strayByte (lead f trail : Bytes) (c : UInt8) : Blanks lead → Blanks trail → ¬ Blank c → c ≠ 44 → (trail = [] → c ≠ 34) →
      Last prev (quoted lead f trail ++ [c]) []

/-- A line and its fields. Quoted fields with exactly one blank between quote and comma are not here: see `Unset`. -/
inductive Reads : Option Bytes → Bytes → List Bytes → Prop
  | last (prev : Option Bytes) (t v : Bytes) : Last prev t v → Reads prev t [v]
  | bare (prev : Option Bytes) (u rest : Bytes) (fs : List Bytes) : Bare u → Reads none rest fs → Reads prev (u ++ 44 :: rest) (u :: fs)
  | quoted (prev : Option Bytes) (lead f trail rest : Bytes) (fs : List Bytes) : Blanks lead → Blanks trail → trail.length ≠ 1 → Reads (some f) rest fs →
      Reads prev (quoted lead f trail ++ 44 :: rest) (f :: fs)

/-- A line that is refused: a quote that is not closed, or a quote or byte in a place where it must not be, if it is not the last byte. -/
inductive Refused : Bytes → Prop
  | unclosed (lead f : Bytes) : Blanks lead → Refused (lead ++ 34 :: doubled f)
  | strayQuote (u : Bytes) (d : UInt8) (rest : Bytes) : Bare u → (∃ c ∈ u, ¬ Blank c) → Refused (u ++ 34 :: d :: rest)
  | strayByte (lead f trail : Bytes) (c d : UInt8) (rest : Bytes) : Blanks lead → Blanks trail → ¬ Blank c → c ≠ 44 → (trail = [] → c ≠ 34) →
      Refused (quoted lead f trail ++ c :: d :: rest)
  | bare (u rest : Bytes) : Bare u → Refused rest → Refused (u ++ 44 :: rest)
  | quoted (lead f trail rest : Bytes) : Blanks lead → Blanks trail → trail.length ≠ 1 → Refused rest → Refused (quoted lead f trail ++ 44 :: rest)

/-- A line with a quoted field behind whose closing quote there is exactly one blank before the comma (and which is not refused before that): the parser does not terminate the value. -/
inductive Unset : Bytes → Prop
  | here (lead f : Bytes) (b : UInt8) (rest : Bytes) : Blanks lead → Blank b → Unset (quoted lead f [b] ++ 44 :: rest)
  | bare (u rest : Bytes) : Bare u → Unset rest → Unset (u ++ 44 :: rest)
  | quoted (lead f trail rest : Bytes) : Blanks lead → Blanks trail → trail.length ≠ 1 → Unset rest → Unset (quoted lead f trail ++ 44 :: rest)

/-- RFC 4180: a field is written bare, if it has no quote, comma, CR or LF, or in quotes with its quotes doubled. -/
inductive RfcField : Bytes → Bytes → Prop
  | bare (u : Bytes) : (∀ c ∈ u, c ≠ 34 ∧ c ≠ 44 ∧ c ≠ 13 ∧ c ≠ 10) → RfcField u u
  | escaped (f : Bytes) : RfcField (34 :: (doubled f ++ [34])) f

/-- RFC 4180: a record is its fields with commas between them. -/
inductive RfcRecord : Bytes → List Bytes → Prop
  | one (t v : Bytes) : RfcField t v → RfcRecord t [v]
  | more (t v rest : Bytes) (vs : List Bytes) : RfcField t v → RfcRecord rest vs → RfcRecord (t ++ 44 :: rest) (v :: vs)

/-- The rows of a file: the fields of every line that is not refused, in order. -/
inductive Rows : List Bytes → List (List Bytes) → Prop
  | nil : Rows [] []
  | row (l : Bytes) (fs : List Bytes) (ls : List Bytes) (rs : List (List Bytes)) : Reads none l fs → Rows ls rs → Rows (l :: ls) (fs :: rs)
  | refused (l : Bytes) (ls : List Bytes) (rs : List (List Bytes)) : Refused l → Rows ls rs → Rows (l :: ls) rs

end CsvGrammar
