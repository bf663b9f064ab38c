import Verif.Model.Writer
/-! # Model of libutils/csv_writer.c and libutils/csv_parser.c

Bytes: `"` 34, `,` 44, CR 13, LF 10, TAB 9, blank 32.  A C string argument is the list of its bytes before the terminator. -/

namespace CMem

/-- The C string stored at the start of a block (what `xstrdup` copies): reads up to the first NUL; `none` when the scan meets an
uninitialised cell or runs off the block. -/
def str : List (Option UInt8) → Option (List UInt8)
  | [] => none
  | none :: _ => none
  | some c :: rest => if c = 0 then some [] else (str rest).map (c :: ·)

end CMem

namespace CsvWriter

/-- `struct CsvWriter_` (csv_writer.c:29-34). -/
structure CW where
  w : Writer.W
  beginningOfLine : Bool
  terminateLastLine : Bool

/-- `CsvWriterOpenSpecifyTerminate` (csv_writer.c:43-51); `CsvWriterOpen` (53-56) passes `true`. -/
def openSpecifyTerminate (w : Writer.W) (terminate : Bool) : CW :=
  { w, beginningOfLine := true, terminateLastLine := terminate }

/-- The loop of `WriteCsvEscapedString` (csv_writer.c:138-146). -/
def escLoop (w : Writer.W) : List UInt8 → Option Writer.W
  | [] => some w
  | c :: s => do
    let w ← if c = 34 then (Writer.writeChar w 34).map Prod.fst else some w
    let (w, _) ← Writer.writeChar w c
    escLoop w s

/-- `WriteCsvEscapedString` (csv_writer.c:135-148). -/
def writeEscaped (w : Writer.W) (s : List UInt8) : Option Writer.W := do
  let (w, _) ← Writer.writeChar w 34
  let w ← escLoop w s
  let (w, _) ← Writer.writeChar w 34
  some w

/-- `strpbrk(str, "\",\r\n") != NULL` (csv_writer.c:73). -/
def needsQuotes (s : List UInt8) : Bool := s.any fun c => c == 34 || c == 44 || c == 13 || c == 10

/-- `CsvWriterField` (csv_writer.c:60-81). -/
def field (cw : CW) (s : List UInt8) : Option CW := do
  let w ← if cw.beginningOfLine then some cw.w else (Writer.writeChar cw.w 44).map Prod.fst
  let w ← if needsQuotes s then writeEscaped w s else (Writer.write w s).map Prod.fst
  some { cw with w, beginningOfLine := false }

/-- `CsvWriterNewRecord` (csv_writer.c:96-102). -/
def newRecord (cw : CW) : Option CW := do
  let (w, _) ← Writer.write cw.w [13, 10]
  some { cw with w, beginningOfLine := true }

/-- `CsvWriterClose` (csv_writer.c:106-115); the result is the underlying writer. -/
def close (cw : CW) : Option Writer.W :=
  if !cw.beginningOfLine && cw.terminateLastLine then (Writer.write cw.w [13, 10]).map Prod.fst
  else some cw.w

end CsvWriter

namespace CsvParser

/-- `csv_state` (csv_parser.c:30-42); `CSV_ST_CLOSED` is never assigned and left out. -/
inductive St where
  | newLine | preStartSpace | noQuote | separator | leadingQuote | internalQuote | withQuote | spaceAfterQuote | error
deriving DecidableEq, Repr

/-- `csv_parser_error` (csv_parser.c:58-64). -/
inductive Err where
  | malformed | unexpectedEnd
deriving DecidableEq, Repr

/-- The locals of `LaunchCsvAutomata` (csv_parser.c:84-90): the block `snatched`, the cursor `sn` (`none` is NULL), the state, and
the list built so far. -/
structure P where
  mem : List (Option UInt8)
  sn : Option Nat
  st : St
  out : List (List UInt8)

/-- `CSVCL_BLANK` (csv_parser.c:44). -/
def blank (c : UInt8) : Bool := c == 32 || c == 9 || c == 10 || c == 13

/-- `*sn = c; sn++;` -/
def put (p : P) (c : UInt8) (st : St) : Option P := do
  let i ← p.sn
  let mem ← CMem.write p.mem i (some c)
  some { p with mem, sn := some (i + 1), st }

/-- `*sn = '\0'; sn = NULL; SeqAppend(*newlist, xstrdup(snatched));` and the next state. -/
def finish (p : P) (st : St) : Option P := do
  let i ← p.sn
  let mem ← CMem.write p.mem i (some 0)
  let f ← CMem.str mem
  some { mem, sn := none, st, out := p.out ++ [f] }

/-- `snatched[0] = '\0';` -/
def reset (p : P) : Option P := do
  let mem ← CMem.write p.mem 0 (some 0)
  some { p with mem }

/-- One turn of the loop (csv_parser.c:94-267). The classes `CSVCL_ANYn` are the complements of the other cases of each state.
`some (.error e)` is the `goto clean` exit. -/
def step (p : P) (c : UInt8) : Option (Except Err P) :=
  match p.st with
  | .error => some (.error .malformed)                                    -- 95-97
  | .newLine =>                                                           -- 99-121
    if c = 44 then do
      let i ← p.sn
      let mem ← CMem.write p.mem i (some 0)
      some (.ok { mem, sn := none, st := .separator, out := p.out ++ [[]] })
    else if blank c then (put p c .preStartSpace).map .ok
    else if c = 34 then do
      let p ← reset p
      some (.ok { p with sn := none, st := .leadingQuote })
    else (put p c .noQuote).map .ok
  | .preStartSpace =>                                                     -- 123-146
    if c = 44 then do
      let p ← finish p .separator
      let p ← reset p
      some (.ok p)
    else if blank c then (put p c .preStartSpace).map .ok
    else if c = 34 then do
      let p ← reset p
      some (.ok { p with sn := none, st := .leadingQuote })
    else (put p c .noQuote).map .ok
  | .noQuote =>                                                           -- 148-166
    if c = 44 then do
      let p ← finish p .separator
      let p ← reset p
      some (.ok p)
    else if c = 34 then do
      let p ← reset p
      some (.ok { p with sn := none, st := .error })
    else (put p c .noQuote).map .ok
  | .separator =>                                                         -- 168-190
    if c = 44 then do
      let p ← reset p
      let f ← CMem.str p.mem
      some (.ok { p with sn := none, st := .separator, out := p.out ++ [f] })
    else if blank c then (put { p with sn := some 0 } c .preStartSpace).map .ok
    else if c = 34 then do
      let p ← reset p
      some (.ok { p with sn := none, st := .leadingQuote })
    else (put { p with sn := some 0 } c .noQuote).map .ok
  | .leadingQuote =>                                                      -- 192-204
    if c = 34 then some (.ok { p with sn := some 0, st := .internalQuote })
    else (put { p with sn := some 0 } c .withQuote).map .ok
  | .internalQuote =>                                                     -- 206-227
    if c = 44 then (finish p .separator).map .ok
    else if blank c then some (.ok { p with st := .spaceAfterQuote })
    else if c = 34 then (put p c .withQuote).map .ok
    else do
      let p ← reset p
      let i ← p.sn
      some (.ok { p with sn := some (i + 1), st := .error })
  | .withQuote =>                                                         -- 229-239
    if c = 34 then some (.ok { p with st := .internalQuote })
    else (put p c .withQuote).map .ok
  | .spaceAfterQuote =>                                                   -- 241-262
    if c = 44 then do
      let f ← CMem.str p.mem
      some (.ok { p with sn := none, st := .separator, out := p.out ++ [f] })
    else if blank c then
      match p.sn with
      | some i => do
        let mem ← CMem.write p.mem i (some 0)
        some (.ok { p with mem, sn := none })
      | none => some (.ok p)
    else do
      let p ← reset p
      some (.ok { p with sn := none, st := .error })

/-- The loop over the text (csv_parser.c:92-268). -/
def loop (p : P) : List UInt8 → Option (Except Err P)
  | [] => some (.ok p)
  | c :: s => do
    match ← step p c with
    | .error e => some (.error e)
    | .ok p => loop p s

/-- After the loop (csv_parser.c:272-303). Trimming stores a NUL at `len - 2` of the C string in `snatched`. -/
def endOf (p : P) : Option (Except Err (List (List UInt8))) :=
  if p.st ≠ .leadingQuote ∧ p.st ≠ .withQuote then do
    let mem ← match p.sn with
      | some i => CMem.write p.mem i (some 0)
      | none => some p.mem
    let mem ← if p.st = .noQuote ∨ p.st = .preStartSpace then do
        let s ← CMem.str mem
        if s.length > 1 ∧ s[s.length - 2]? = some 13 ∧ s[s.length - 1]? = some 10 then
          CMem.write mem (s.length - 2) (some 0)
        else some mem
      else some mem
    let f ← CMem.str mem
    let _ ← CMem.write mem 0 (some 0)
    some (.ok (p.out ++ [f]))
  else some (.error .unexpectedEnd)

/-- `LaunchCsvAutomata` (csv_parser.c:75-312). -/
def launch (s : List UInt8) : Option (Except Err (List (List UInt8))) := do
  let mem ← CMem.write (List.replicate (s.length + 1) none) 0 (some 0)
  match ← loop { mem, sn := some 0, st := .newLine, out := [] } s with
  | .error e => some (.error e)
  | .ok p => endOf p

/-- `SeqParseCsvString` (csv_parser.c:314-324); `some none` is a NULL result. -/
def parse (s : List UInt8) : Option (Option (List (List UInt8))) := do
  match ← launch s with
  | .error _ => some none
  | .ok l => some (some l)

/-- The loop of `GetCsvLineNext` (csv_parser.c:337-358) on a stream whose remaining bytes are the list (`fgetc` returns them one
by one and then EOF). Gives the string writer and the rest of the stream. -/
def lineLoop (w : Writer.W) (prev : UInt8) (inQuotes : Bool) : List UInt8 → Option (Writer.W × List UInt8)
  | [] => some (w, [])
  | c :: s => do
    let (w, _) ← Writer.writeChar w c
    if c = 34 then lineLoop w c (!inQuotes) s
    else if !inQuotes && c == 10 && prev == 13 then some (w, s)
    else lineLoop w c inQuotes s

/-- `GetCsvLineNext` (csv_parser.c:326-367): the bytes of the returned C string with its terminator (`none` for NULL) and the rest
of the stream. -/
def getLineNext (s : List UInt8) : Option (Option (List UInt8) × List UInt8) := do
  let (w, s) ← lineLoop Writer.stringWriter 0 false s
  if Writer.length w = 0 then some (none, s)
  else do
    let d ← Writer.dataZ w
    some (some d, s)

end CsvParser
