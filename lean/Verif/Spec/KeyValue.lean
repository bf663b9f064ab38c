/-! # Files of `key: value` lines -/
namespace KeyValueSpec

abbrev Bytes := List UInt8

/-- What a user function does with a key and a value: it may keep state, and says whether to go on. -/
abbrev Callback (σ : Type) := σ → Bytes → Bytes → σ × Bool

/-- The lines of a text, each with its newline if it has one. -/
def lines : Bytes → List Bytes
  | [] => []
  | c :: rest =>
    if c = 10 then [10] :: lines rest
    else match lines rest with
      | [] => [[c]]
      | l :: ls => (c :: l) :: ls

/-- Giving the lines to the user function, up to a line without a colon or a refusal: final state, and whether all went well. The key is what
comes before the first colon, the value everything after it. -/
def feed {σ : Type} (cb : Callback σ) (s : σ) : List Bytes → σ × Bool
  | [] => (s, true)
  | l :: ls =>
    if 58 ∈ l then
      match cb s (l.takeWhile (· ≠ 58)) ((l.dropWhile (· ≠ 58)).drop 1) with
      | (s, true) => feed cb s ls
      | (s, false) => (s, false)
    else (s, false)

/-- The whole file. `err`: reading ends with an error rather than at the end of the file. -/
def parse {σ : Type} (cb : Callback σ) (s : σ) (text : Bytes) (err : Bool) : σ × Bool :=
  match feed cb s (lines text) with
  | (s, true) => (s, !err)
  | r => r

/-- Same with numbers for values: a value that is no number stops the parsing. -/
def numeric {σ : Type} (num : Bytes → Option Int) (cb : σ → Bytes → Int → σ × Bool) : Callback σ :=
  fun s k v => match num v with
    | some n => cb s k n
    | none => (s, false)

/-! What the code really does with any text: a line is read in pieces of at most 1023 bytes, each of which counts as a line of its own and ends at a NUL byte, and a piece
cut short by a read error is lost. -/

/-- A line in pieces of 1023 bytes. -/
def pieces (l : Bytes) : List Bytes :=
  if l.length ≤ 1023 then (if l = [] then [] else [l]) else l.take 1023 :: pieces (l.drop 1023)
termination_by l.length
decreasing_by simp; omega

/-- The pieces of the text. -/
def allPieces (text : Bytes) : List Bytes := (lines text).flatMap pieces

/-- The last piece was cut short by the end of the text. -/
def short (p : Bytes) : Bool := p.length < 1023 && p.getLast? != some 10

/-- The pieces that are read. -/
def readPieces (text : Bytes) (err : Bool) : List Bytes :=
  if err && (allPieces text).getLast?.any short then (allPieces text).dropLast else allPieces text

/-- Any text. -/
def parseAny {σ : Type} (cb : Callback σ) (s : σ) (text : Bytes) (err : Bool) : σ × Bool :=
  match feed cb s ((readPieces text err).map fun p => p.takeWhile (· ≠ 0)) with
  | (s, true) => (s, !err)
  | r => r

end KeyValueSpec
